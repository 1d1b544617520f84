import Verif.Proofs.RowColumns
import Verif.Properties.RowLevels
import Verif.Properties.RowRename
import Verif.Properties.RowFilters
/-!
C115, C116 and C117, continued: results with the columns in another order.
-/
namespace ABX.Pipeline
open ExtSort ABX.Task Pairs SideOps Sampler Distances Score EndToEnd Analyze F64 ABX.Spec
variable {ρ φ δ δ' : Type}

/-- C115: as C115_levels_partial, but the columns `vars` and `vars'` of the results of the two runs are the same only up to their order: each label of the second is put in its column of the first.  So the order in which a process lists several across columns does not matter.
Missing: as in C77; regressors that are not columns. -/
theorem C115_columns_partial {a a' : Args ρ} {vars vars' : List Var} {getFeat : ρ → Except Err φ} {distance : φ → φ → Except Err δ} {lt : δ → δ → Bool} {out out' : List OutRow} (h : LineRun a vars getFeat distance lt out)
    (h' : LineRun a' vars' getFeat distance lt out') (hv : ∀ v, v ∈ vars ↔ v ∈ vars') (hc : a'.cols = a.cols) (hon : a'.on = a.on) (hac : a'.across = a.across) (hby : a'.by_ = a.by_) (hfs : a'.filters = a.filters) (key : List Val)
    (σ : Equiv.Perm Nat) (hσ : ∀ i r, byLabels a.by_ r = key → ((a'.db.map (·.2))[i]? = some r ↔ (a.db.map (·.2))[σ i]? = some r)) (hρ : ∀ i r, byLabels a.by_ r = key → (a'.db.map (·.2))[i]? = some r → a'.feat[i]? = a.feat[σ i]?) :
    ((out'.map (fun p => { p with labels := pickLabels vars vars' p.labels })).filter (fun o => decide (o.by_ = key))).Perm (out.filter (fun o => decide (o.by_ = key))) := by
  obtain ⟨e, he, h⟩ := h.rows
  obtain ⟨e', he', h'⟩ := h'.rows_order hv
  rw [hc, hon, hac, hby, hfs] at h'
  have hσ' : ∀ i r, byLabels a.by_ r = key → ((a.db.map (·.2))[i]? = some r ↔ (a'.db.map (·.2))[σ.symm i]? = some r) := fun i r hk => by rw [hσ _ _ hk]; simp
  have hρ' : ∀ i r, byLabels a.by_ r = key → (a.db.map (·.2))[i]? = some r → a.feat[i]? = a'.feat[σ.symm i]? := fun i r hk hi => by rw [hρ _ _ hk ((hσ' _ _ hk).mp hi)]; simp
  have hreg : ∀ {e e' : Env} {b b' : Args ρ} {R : List Row}, e.Lawful → e'.Lawful → (∀ r ∈ R, r ∈ b.db.map (·.2)) → (∀ r ∈ R, r ∈ b'.db.map (·.2)) →
      List.Forall₂ (fun f f' => SameLabel a.cols R (f, idxOf e b f) (f', idxOf e' b' f')) (vars.map (columnReg e b.db)) (vars.map (columnReg e' b'.db)) := by
    intro e e' b b' R he he' hm hm'
    rw [List.forall₂_map_left_iff, List.forall₂_map_right_iff, List.forall₂_same]
    exact fun v _ => ⟨(he.sort _).nodup_iff.mpr (List.nodup_dedup _), (he'.sort _).nodup_iff.mpr (List.nodup_dedup _),
      fun _ hA _ hB _ hX => ⟨_, column_label he v (hm _ hA) (hm _ hB) (hm _ hX), column_label he' v (hm' _ hA) (hm' _ hB) (hm' _ hX)⟩⟩
  have mem : ∀ {l l' : List Row} {τ : Equiv.Perm Nat}, (∀ i r, byLabels a.by_ r = key → (l[i]? = some r ↔ l'[τ i]? = some r)) → ∀ r ∈ l.filter (fun r => decide (byLabels a.by_ r = key)), r ∈ l' := by
    intro l l' τ hl r hr
    obtain ⟨r1, r2⟩ := List.mem_filter.mp hr
    obtain ⟨i, hi⟩ := List.getElem?_of_mem r1
    exact List.mem_of_getElem? ((hl i r (by simpa using r2)).mp hi)
  have r1 := hreg (b := a) (b' := a') he he' (fun r hr => (List.mem_filter.mp hr).1) (mem hσ')
  have r2 := hreg (b := a') (b' := a) he' he (fun r hr => (List.mem_filter.mp hr).1) (mem hσ)
  have n1 := rowsOf_nodup (hreg (b := a) (b' := a) he he (fun _ h => h) (fun _ h => h)) h
  have n2 := rowsOf_nodup (hreg (b := a') (b' := a') he' he' (fun _ h => h) (fun _ h => h)) h'
  rw [List.perm_ext_iff_of_nodup (n2.filter _) (n1.filter _)]
  intro o
  simp only [List.mem_filter, decide_eq_true_eq]
  exact ⟨fun ⟨ho, hk⟩ => ⟨rowsOf_level σ.symm hσ' hρ' r2 h' h o ho hk, hk⟩, fun ⟨ho, hk⟩ => ⟨rowsOf_level σ hσ hρ r1 h h' o ho hk, hk⟩⟩

/-- C116: as C116_rename_partial, but the columns `vars` and `vars'` of the results of the two runs are the same only up to their order: each label of the second is put in its column of the first.  So the order in which a process lists several across columns does not matter.
Missing: as in C77; regressors that are not columns. -/
theorem C116_columns_partial {a a' : Args ρ} {vars vars' : List Var} {getFeat : ρ → Except Err φ} {distance : φ → φ → Except Err δ} {distance' : φ → φ → Except Err δ'} {lt : δ → δ → Bool} {lt' : δ' → δ' → Bool} {out out' : List OutRow}
    (h : LineRun a vars getFeat distance lt out) (h' : LineRun a' vars' getFeat distance' lt' out') (hv : ∀ v, v ∈ vars ↔ v ∈ vars') (hc : a'.cols = a.cols) (hon : a'.on = a.on) (hac : a'.across = a.across) (hby : a'.by_ = a.by_) (hfeat : a'.feat = a.feat)
    {ren : String → Val → Val} (hren : ∀ c, Function.Injective (ren c)) (hrows : a'.db.map (·.2) = (a.db.map (·.2)).map (renLine ren))
    (hfs : ∀ rA ∈ a.db.map (·.2), ∀ rB ∈ a.db.map (·.2), ∀ rX ∈ a.db.map (·.2), ((∀ f ∈ a'.filters, holds a.cols f (renLine ren rA) (renLine ren rB) (renLine ren rX) = true) ↔ ∀ f ∈ a.filters, holds a.cols f rA rB rX = true))
    {g : δ → δ'} (hd : ∀ v w d, distance v w = .ok d → distance' v w = .ok (g d)) (hg : ∀ d d', lt' (g d) (g d') = lt d d') : (out'.map (fun p => { p with labels := pickLabels vars vars' p.labels })).Perm (out.map (renOut ren a.by_ vars)) := by
  obtain ⟨e, he, h⟩ := h.rows
  obtain ⟨e', he', h'⟩ := h'.rows_order hv
  rw [hc, hon, hac, hby] at h'
  have same : ∀ {e : Env} (b : Args ρ), e.Lawful → List.Forall₂ (fun f f' => SameLabel a.cols (b.db.map (·.2)) (f, idxOf e b f) (f', idxOf e b f')) (vars.map (columnReg e b.db)) (vars.map (columnReg e b.db)) := by
    intro e b he
    rw [List.forall₂_map_left_iff, List.forall₂_map_right_iff, List.forall₂_same]
    exact fun v _ => ⟨(he.sort _).nodup_iff.mpr (List.nodup_dedup _), (he.sort _).nodup_iff.mpr (List.nodup_dedup _), fun _ hA _ hB _ hX => ⟨_, column_label he v hA hB hX, column_label he v hA hB hX⟩⟩
  have hdist : ∀ r s d, Spec.recDist getFeat distance r s = .ok d → Spec.recDist getFeat distance' r s = .ok (g d) := by
    intro r s d hrs
    unfold Spec.recDist at hrs ⊢
    cases h1 : getFeat r with
    | error x => rw [h1] at hrs; cases hrs
    | ok p =>
      cases h2 : getFeat s with
      | error x => rw [h1, h2] at hrs; cases hrs
      | ok q =>
        rw [h1, h2] at hrs
        exact hd p q d hrs
  refine rowsOf_ren hren he he' hrows hfs ?_ h h' (rowsOf_nodup (same a he) h) (rowsOf_nodup (same a' he') h')
  rintro u w ⟨rA, rB, rX, d, d', i1, i2, i3, d1, d2, rfl⟩
  rw [hfeat]
  exact ⟨rA, rB, rX, g d, g d', i1, i2, i3, hdist _ _ _ d1, hdist _ _ _ d2, by rw [hg, hg]⟩

/-- C117: as C117_fewer_partial, but the columns `vars` and `vars'` of the results of the two runs are the same only up to their order: each label of the second is put in its column of the first.  So the order in which a process lists several across columns does not matter.
Missing: as in C77; regressors that are not columns. -/
theorem C117_fewer_columns_partial {a a' : Args ρ} {vars vars' : List Var} {getFeat : ρ → Except Err φ} {distance : φ → φ → Except Err δ} {lt : δ → δ → Bool} {out out' : List OutRow} (h : LineRun a vars getFeat distance lt out)
    (h' : LineRun a' vars' getFeat distance lt out') (hv : ∀ v, v ∈ vars ↔ v ∈ vars') (hc : a'.cols = a.cols) (hon : a'.on = a.on) (hac : a'.across = a.across) (hby : a'.by_ = a.by_) (hdb : a'.db = a.db)
    (hfs : ∀ rA ∈ a.db.map (·.2), ∀ rB ∈ a.db.map (·.2), ∀ rX ∈ a.db.map (·.2), (∀ f ∈ a'.filters, holds a.cols f rA rB rX = true) → ∀ f ∈ a.filters, holds a.cols f rA rB rX = true) :
    ∀ o' ∈ out', ∃ o ∈ out, o.by_ = o'.by_ ∧ o.labels = pickLabels vars vars' o'.labels ∧ o'.n ≤ o.n := by
  obtain ⟨e, he, h⟩ := h.rows
  obtain ⟨e', he', h'⟩ := h'.rows_order hv
  rw [hc, hon, hac, hby] at h'
  suffices H : ∀ o' ∈ out'.map (fun p => { p with labels := pickLabels vars vars' p.labels }), ∃ o ∈ out, o.by_ = o'.by_ ∧ o.labels = o'.labels ∧ o'.n ≤ o.n from fun o' ho' => H _ (List.mem_map_of_mem ho')
  intro o' ho'
  obtain ⟨u, rA, rB, rX, i1, i2, i3, hu, g'⟩ := rowsOf_mem h' ho'
  have hA' := List.mem_of_getElem? i1
  have hB' := List.mem_of_getElem? i2
  have hX' := List.mem_of_getElem? i3
  have hA := hdb ▸ hA'
  have hB := hdb ▸ hB'
  have hX := hdb ▸ hX'
  have sub : ∀ u, RowTriplet a.cols a.on a.across a.by_ a'.filters (vars.map (columnReg e' a'.db)) (a'.db.map (·.2)) (combo e' a' vars a.cols a.by_ rA rB rX) u →
      RowTriplet a.cols a.on a.across a.by_ a.filters (vars.map (columnReg e a.db)) (a.db.map (·.2)) (combo e a vars a.cols a.by_ rA rB rX) u := by
    intro u
    rw [rowTriplet_labels he' hA' hB' hX', rowTriplet_labels he hA hB hX, hdb]
    rintro ⟨⟨sA, sB, sX, j1, j2, j3, e1, e2, l, f⟩, hk⟩
    exact ⟨⟨sA, sB, sX, j1, j2, j3, e1, e2, l, hfs _ (List.mem_of_getElem? j1) _ (List.mem_of_getElem? j2) _ (List.mem_of_getElem? j3) f⟩, hk⟩
  obtain ⟨o, ho, g⟩ := rowsOf_of h (sub u hu)
  obtain ⟨b1, l1⟩ := isRow_labels he hA hB hX g
  obtain ⟨b2, l2⟩ := isRow_labels he' hA' hB' hX' g'
  refine ⟨o, ho, b1.trans b2.symm, l1.trans l2.symm, ?_⟩
  obtain ⟨U, -, m, -, -, -, n, -⟩ := g
  obtain ⟨U', d', m', -, -, -, n', -⟩ := g'
  rw [n, n', ← List.length_map (f := (·.1)) (as := U'), ← List.length_map (f := (·.1)) (as := U)]
  exact (d'.subperm (fun u hu => (m u).mpr (sub u ((m' u).mp hu)))).length_le

/-- C117: as C117_labels_partial, but the columns `vars` and `vars'` of the results of the two runs are the same only up to their order: each label of the second is put in its column of the first.  So the order in which a process lists several across columns does not matter.
Missing: as in C77; regressors that are not columns. -/
theorem C117_labels_columns_partial {a a' : Args ρ} {vars vars' : List Var} {getFeat : ρ → Except Err φ} {distance : φ → φ → Except Err δ} {lt : δ → δ → Bool} {out out' : List OutRow} (h : LineRun a vars getFeat distance lt out)
    (h' : LineRun a' vars' getFeat distance lt out') (hv : ∀ v, v ∈ vars ↔ v ∈ vars') (hc : a'.cols = a.cols) (hon : a'.on = a.on) (hac : a'.across = a.across) (hby : a'.by_ = a.by_) (hdb : a'.db = a.db) (hfeat : a'.feat = a.feat) (keep : List Val → List Val → Bool)
    (hfs : ∀ u rA rB rX, (a.db.map (·.2))[u.1]? = some rA → (a.db.map (·.2))[u.2.1]? = some rB → (a.db.map (·.2))[u.2.2]? = some rX → LineTriplet a.cols a.on a.across a.by_ [] (a.db.map (·.2)) u →
      ((∀ f ∈ a'.filters, holds a.cols f rA rB rX = true) ↔ (∀ f ∈ a.filters, holds a.cols f rA rB rX = true) ∧ keep (byLabels a.by_ rA) (vars.map (sem a.cols rA rB rX)) = true)) :
    (out'.map (fun p => { p with labels := pickLabels vars vars' p.labels })).Perm (out.filter (fun o => keep o.by_ o.labels)) := by
  obtain ⟨e, he, h⟩ := h.rows
  obtain ⟨e', he', h'⟩ := h'.rows_order hv
  rw [hc, hon, hac, hby, hfeat] at h'
  have same : ∀ {e : Env} (b : Args ρ), e.Lawful → List.Forall₂ (fun f f' => SameLabel a.cols (b.db.map (·.2)) (f, idxOf e b f) (f', idxOf e b f')) (vars.map (columnReg e b.db)) (vars.map (columnReg e b.db)) := by
    intro e b he
    rw [List.forall₂_map_left_iff, List.forall₂_map_right_iff, List.forall₂_same]
    exact fun v _ => ⟨(he.sort _).nodup_iff.mpr (List.nodup_dedup _), (he.sort _).nodup_iff.mpr (List.nodup_dedup _), fun _ hA _ hB _ hX => ⟨_, column_label he v hA hB hX, column_label he v hA hB hX⟩⟩
  have line : ∀ u, LineTriplet a.cols a.on a.across a.by_ a'.filters (a.db.map (·.2)) u ↔ LineTriplet a.cols a.on a.across a.by_ a.filters (a.db.map (·.2)) u ∧
      ∀ sA sB sX, (a.db.map (·.2))[u.1]? = some sA → (a.db.map (·.2))[u.2.1]? = some sB → (a.db.map (·.2))[u.2.2]? = some sX → keep (byLabels a.by_ sA) (vars.map (sem a.cols sA sB sX)) = true := by
    intro u
    constructor
    · rintro ⟨sA, sB, sX, j1, j2, j3, e1, e2, l, f⟩
      have q := (hfs u sA sB sX j1 j2 j3 ⟨sA, sB, sX, j1, j2, j3, e1, e2, l, by intro f hf; cases hf⟩).mp f
      refine ⟨⟨sA, sB, sX, j1, j2, j3, e1, e2, l, q.1⟩, fun tA tB tX k1 k2 k3 => ?_⟩
      rw [j1] at k1; rw [j2] at k2; rw [j3] at k3
      cases k1; cases k2; cases k3
      exact q.2
    · rintro ⟨⟨sA, sB, sX, j1, j2, j3, e1, e2, l, f⟩, hk⟩
      exact ⟨sA, sB, sX, j1, j2, j3, e1, e2, l, (hfs u sA sB sX j1 j2 j3 ⟨sA, sB, sX, j1, j2, j3, e1, e2, l, by intro f hf; cases hf⟩).mpr ⟨f, hk _ _ _ j1 j2 j3⟩⟩
  have key : ∀ {rA rB rX : Row}, rA ∈ a.db.map (·.2) → rB ∈ a.db.map (·.2) → rX ∈ a.db.map (·.2) → keep (byLabels a.by_ rA) (vars.map (sem a.cols rA rB rX)) = true → ∀ u,
      (RowTriplet a.cols a.on a.across a.by_ a'.filters (vars.map (columnReg e' a'.db)) (a'.db.map (·.2)) (combo e' a' vars a.cols a.by_ rA rB rX) u ↔
      RowTriplet a.cols a.on a.across a.by_ a.filters (vars.map (columnReg e a.db)) (a.db.map (·.2)) (combo e a vars a.cols a.by_ rA rB rX) u) := by
    intro rA rB rX hA hB hX hk u
    rw [rowTriplet_labels he' (by rw [hdb]; exact hA) (by rw [hdb]; exact hB) (by rw [hdb]; exact hX), rowTriplet_labels he hA hB hX, hdb, line]
    constructor
    · rintro ⟨⟨p, -⟩, q⟩
      exact ⟨p, q⟩
    · rintro ⟨p, q⟩
      refine ⟨⟨p, fun sA sB sX j1 j2 j3 => ?_⟩, q⟩
      obtain ⟨q1, q2⟩ := q sA sB sX j1 j2 j3
      rw [q1, q2]
      exact hk
  rw [List.perm_ext_iff_of_nodup (rowsOf_nodup (same a' he') h') ((rowsOf_nodup (same a he) h).filter _)]
  intro o
  rw [List.mem_filter]
  constructor
  · intro ho
    obtain ⟨u, rA, rB, rX, i1, i2, i3, hu, g⟩ := rowsOf_mem h' ho
    have hA' := List.mem_of_getElem? i1
    have hB' := List.mem_of_getElem? i2
    have hX' := List.mem_of_getElem? i3
    have hA := hdb ▸ hA'
    have hB := hdb ▸ hB'
    have hX := hdb ▸ hX'
    have hk : keep (byLabels a.by_ rA) (vars.map (sem a.cols rA rB rX)) = true := by
      have := hu.1
      rw [hdb] at this i1 i2 i3
      exact ((line u).mp this).2 _ _ _ i1 i2 i3
    obtain ⟨b, l⟩ := isRow_labels he' hA' hB' hX' g
    obtain ⟨o1, ho1, g1⟩ := rowsOf_of h ((key hA hB hX hk u).mp hu)
    have := isRow_unique (isRow_codes he' he (fun u => (key hA hB hX hk u).symm) hA' hB' hX' hA hB hX g) g1 (by simp)
    rw [b, l]
    exact ⟨this ▸ ho1, hk⟩
  · rintro ⟨ho, hk⟩
    obtain ⟨u, rA, rB, rX, i1, i2, i3, hu, g⟩ := rowsOf_mem h ho
    have hA := List.mem_of_getElem? i1
    have hB := List.mem_of_getElem? i2
    have hX := List.mem_of_getElem? i3
    have hA' : rA ∈ a'.db.map (·.2) := by rw [hdb]; exact hA
    have hB' : rB ∈ a'.db.map (·.2) := by rw [hdb]; exact hB
    have hX' : rX ∈ a'.db.map (·.2) := by rw [hdb]; exact hX
    obtain ⟨b, l⟩ := isRow_labels he hA hB hX g
    rw [b, l] at hk
    obtain ⟨o1, ho1, g1⟩ := rowsOf_of h' ((key hA hB hX hk u).mpr hu)
    have := isRow_unique (isRow_codes he he' (key hA hB hX hk) hA hB hX hA' hB' hX' g) g1 (by simp)
    exact this ▸ ho1

/-! ### examples -/

/-- a task with two regressors -/
def twoRegs (b : Args Nat) (v w : Var) : Args Nat := { b with regressors := [columnReg E0 b.db v, columnReg E0 b.db w] }

theorem twoRegs_ok : (twoRegs ex2 ("on", .B) ("ac", .B)).OK := by
  refine Args.OK.flat rfl (by decide +kernel) (by intro f hf; cases hf) ?_ (by intro f hf; cases hf) ?_ (by decide +kernel) <;> intro f hf <;> rcases List.mem_pair.mp hf with rfl | rfl
  all_goals first
    | decide +kernel
    | (unfold Avail; decide +kernel)

theorem twoRegs_lev : (twoRegs ex2Lev ("ac", .B) ("on", .B)).OK := by
  refine Args.OK.flat rfl (by decide +kernel) (by intro f hf; cases hf) ?_ (by intro f hf; cases hf) ?_ (by decide +kernel) <;> intro f hf <;> rcases List.mem_pair.mp hf with rfl | rfl
  all_goals first
    | decide +kernel
    | (unfold Avail; decide +kernel)

theorem twoRegs_ren : (twoRegs ex2Ren ("ac", .B) ("on", .B)).OK := by
  refine Args.OK.flat rfl (by decide +kernel) (by intro f hf; cases hf) ?_ (by intro f hf; cases hf) ?_ (by decide +kernel) <;> intro f hf <;> rcases List.mem_pair.mp hf with rfl | rfl
  all_goals first
    | decide +kernel
    | (unfold Avail; decide +kernel)

theorem twoRegs_zero : (twoRegs ex2Zero ("ac", .B) ("on", .B)).OK := by
  refine Args.OK.flat rfl (by decide +kernel) ex2Zero_ok.availF ?_ ex2Zero_ok.inF ?_ (by decide +kernel) <;> intro f hf <;> rcases List.mem_pair.mp hf with rfl | rfl
  all_goals first
    | decide +kernel
    | (unfold Avail; decide +kernel)

theorem twoRegs_run : ∃ out, out ≠ [] ∧ LineRun (twoRegs ex2 ("on", .B) ("ac", .B)) [("on", .one), ("ac", .one), ("on", .B), ("ac", .B), ("on", .two), ("ac", .two)] (fun r => .ok r) (fun v w => .ok (v % (w + 2))) (fun x y : Nat => decide (x < y)) out :=
  lineRun_regs twoRegs_ok (by intro f hf; cases hf) (by intro f hf; rcases List.mem_pair.mp hf with rfl | rfl <;> decide +kernel) (by intro f hf; rcases List.mem_pair.mp hf with rfl | rfl <;> decide +kernel)
    (by intro f hf; rcases List.mem_pair.mp hf with rfl | rfl <;> exact ⟨_, rfl⟩) ex2_pos (by decide +kernel) (vars := [("on", .one), ("ac", .one), ("on", .B), ("ac", .B), ("on", .two), ("ac", .two)])
    (by decide +kernel) (by decide +kernel) (by decide +kernel) (fun v w => v % (w + 2)) (n := 2) (m := 3) (by omega) (by omega)

/- the rows of the speaker 0 in the tables of `ex2` and `ex2Lev`, with the regressors on_B and ac_B in both orders -/
example : ∃ out out', out.filter (fun o => decide (o.by_ = [.int 0])) ≠ [] ∧ LineRun (twoRegs ex2 ("on", .B) ("ac", .B)) [("on", .one), ("ac", .one), ("on", .B), ("ac", .B), ("on", .two), ("ac", .two)] (fun r => .ok r) (fun v w => .ok (v % (w + 2))) (fun x y : Nat => decide (x < y)) out ∧
    LineRun (twoRegs ex2Lev ("ac", .B) ("on", .B)) [("on", .one), ("ac", .one), ("ac", .B), ("on", .B), ("on", .two), ("ac", .two)] (fun r => .ok r) (fun v w => .ok (v % (w + 2))) (fun x y : Nat => decide (x < y)) out' ∧ ((out'.map (fun p => { p with labels := pickLabels [("on", .one), ("ac", .one), ("on", .B), ("ac", .B), ("on", .two), ("ac", .two)] [("on", .one), ("ac", .one), ("ac", .B), ("on", .B), ("on", .two), ("ac", .two)] p.labels })).filter (fun o => decide (o.by_ = [.int 0]))).Perm (out.filter (fun o => decide (o.by_ = [.int 0]))) := by
  obtain ⟨out, -, h⟩ := twoRegs_run
  obtain ⟨out', -, h'⟩ := lineRun_regs twoRegs_lev (by intro f hf; cases hf) (by intro f hf; rcases List.mem_pair.mp hf with rfl | rfl <;> decide +kernel) (by intro f hf; rcases List.mem_pair.mp hf with rfl | rfl <;> decide +kernel)
    (by intro f hf; rcases List.mem_pair.mp hf with rfl | rfl <;> exact ⟨_, rfl⟩) (by
    intro i p hp
    have : ∀ i < 7, (ex2Lev.db[i]?.map (·.1)) = some i := by decide +kernel
    have hi : i < 7 := (List.getElem?_eq_some_iff.mp hp).1
    have := this i hi
    rw [show ex2Lev.db[i]? = some p from hp] at this
    exact Option.some.inj this) (by decide +kernel) (vars := [("on", .one), ("ac", .one), ("ac", .B), ("on", .B), ("on", .two), ("ac", .two)])
    (by decide +kernel) (by decide +kernel) (by decide +kernel) (fun v w => v % (w + 2)) (n := 3) (m := 7) (by omega) (by omega)
  refine ⟨out, out', ?_, h, h', C115_columns_partial h h' (by intro v; simp only [List.mem_cons, List.not_mem_nil, or_false]; tauto) rfl rfl rfl rfl rfl [.int 0] (Equiv.refl Nat) ?_ ?_⟩
  · obtain ⟨e, -, hr⟩ := h.rows
    obtain ⟨o, ho, hb⟩ := rowsOf_row hr (k := ([.int 0], _)) (u := (1, 3, 5)) (rowTriplet_rows.mpr ⟨mk "a" 1, mk "b" 1, mk "a" 2, rfl, rfl, rfl, ⟨by decide +kernel, by decide +kernel, by decide +kernel, by intro f hf; cases hf⟩,
      ⟨by decide +kernel, by decide +kernel, by decide +kernel⟩, rfl⟩)
    exact List.ne_nil_of_mem (List.mem_filter.mpr ⟨ho, by simpa using hb⟩)
  · intro i r hk
    have no : ∀ s : Row, decide (byLabels ["sp"] s = [.int 0]) = false → some s ≠ some r := by
      rintro s hs e
      cases e
      exact of_decide_eq_false hs hk
    match i with
    | 1 | 2 | 3 | 4 | 5 => exact Iff.rfl
    | 0 => exact ⟨fun q => absurd q (no (mk "d" 9 1) (by decide +kernel)), fun q => absurd q (no (mk "c" 3 1) (by decide +kernel))⟩
    | 6 => exact ⟨fun q => absurd q (no (mk "e" 5 2) (by decide +kernel)), fun q => absurd q (no (mk "a" 1 2) (by decide +kernel))⟩
    | 7 => exact ⟨fun q => absurd (show (none : Option Row) = some r from q) nofun, fun q => absurd q (no (mk "b" 1 2) (by decide +kernel))⟩
    | 8 => exact ⟨fun q => absurd (show (none : Option Row) = some r from q) nofun, fun q => absurd q (no (mk "a" 2 2) (by decide +kernel))⟩
    | n + 9 => exact ⟨fun q => absurd (show (none : Option Row) = some r from q) nofun, fun q => absurd (show (none : Option Row) = some r from q) nofun⟩
  · intro i r hk hi
    have no : ∀ s : Row, decide (byLabels ["sp"] s = [.int 0]) = false → some s ≠ some r := by
      rintro s hs e
      cases e
      exact of_decide_eq_false hs hk
    match i with
    | 1 | 2 | 3 | 4 | 5 => rfl
    | 0 => exact absurd hi (no (mk "d" 9 1) (by decide +kernel))
    | 6 => exact absurd hi (no (mk "e" 5 2) (by decide +kernel))
    | n + 7 => exact absurd (show (none : Option Row) = some r from hi) nofun

/- the results on `ex2Ren`, with distances 2d + 1, are those on `ex2` with the new names, with the regressors on_B and ac_B in both orders -/
example : ∃ out out', out ≠ [] ∧ LineRun (twoRegs ex2 ("on", .B) ("ac", .B)) [("on", .one), ("ac", .one), ("on", .B), ("ac", .B), ("on", .two), ("ac", .two)] (fun r => .ok r) (fun v w => .ok (v % (w + 2))) (fun x y : Nat => decide (x < y)) out ∧
    LineRun (twoRegs ex2Ren ("ac", .B) ("on", .B)) [("on", .one), ("ac", .one), ("ac", .B), ("on", .B), ("on", .two), ("ac", .two)] (fun r => .ok r) (fun v w => .ok (2 * (v % (w + 2)) + 1)) (fun x y : Nat => decide (x < y)) out' ∧ (out'.map (fun p => { p with labels := pickLabels [("on", .one), ("ac", .one), ("on", .B), ("ac", .B), ("on", .two), ("ac", .two)] [("on", .one), ("ac", .one), ("ac", .B), ("on", .B), ("on", .two), ("ac", .two)] p.labels })).Perm (out.map (renOut ex2Names ["sp"] [("on", .one), ("ac", .one), ("on", .B), ("ac", .B), ("on", .two), ("ac", .two)])) := by
  obtain ⟨out, hne, h⟩ := twoRegs_run
  obtain ⟨out', -, h'⟩ := lineRun_regs twoRegs_ren (by intro f hf; cases hf) (by intro f hf; rcases List.mem_pair.mp hf with rfl | rfl <;> decide +kernel) (by intro f hf; rcases List.mem_pair.mp hf with rfl | rfl <;> decide +kernel)
    (by intro f hf; rcases List.mem_pair.mp hf with rfl | rfl <;> exact ⟨_, rfl⟩) (by
    intro i p hp
    have : ∀ i < 9, (ex2Ren.db[i]?.map (·.1)) = some i := by decide +kernel
    have hi : i < 9 := (List.getElem?_eq_some_iff.mp hp).1
    have := this i hi
    rw [show ex2Ren.db[i]? = some p from hp] at this
    exact Option.some.inj this) (by decide +kernel) (vars := [("on", .one), ("ac", .one), ("ac", .B), ("on", .B), ("on", .two), ("ac", .two)])
    (by decide +kernel) (by decide +kernel) (by decide +kernel) (fun v w => 2 * (v % (w + 2)) + 1) (n := 3) (m := 7) (by omega) (by omega)
  refine ⟨out, out', hne, h, h', C116_columns_partial h h' (by intro v; simp only [List.mem_cons, List.not_mem_nil, or_false]; tauto) rfl rfl rfl rfl rfl ex2Names_inj ?_
    (fun _ _ _ _ _ _ => ⟨fun _ f hf => absurd hf (List.not_mem_nil (a := f)), fun _ f hf => absurd hf (List.not_mem_nil (a := f))⟩) (g := fun d => 2 * d + 1) ?_ ?_⟩
  · show [mk "a" 3 (-1), mk "b" 1, mk "b" 1, mk "c" 1, mk "c" 1, mk "b" 2, mk "b" 1 (-2), mk "c" 1 (-2), mk "b" 2 (-2)] = [mk "c" 3 1, mk "a" 1, mk "a" 1, mk "b" 1, mk "b" 1, mk "a" 2, mk "a" 1 2, mk "b" 1 2, mk "a" 2 2].map (renLine ex2Names)
    simp only [List.map_cons, List.map_nil, ren_mk]
    rfl
  · rintro v w d ⟨⟩
    rfl
  · intro d d'
    rw [Bool.eq_iff_iff, decide_eq_true_eq, decide_eq_true_eq]
    omega

/- the results with the filter sp == 0 are the rows of the speaker 0, with the regressors on_B and ac_B in both orders -/
example : ∃ out out', out' ≠ [] ∧ LineRun (twoRegs ex2 ("on", .B) ("ac", .B)) [("on", .one), ("ac", .one), ("on", .B), ("ac", .B), ("on", .two), ("ac", .two)] (fun r => .ok r) (fun v w => .ok (v % (w + 2))) (fun x y : Nat => decide (x < y)) out ∧
    LineRun (twoRegs ex2Zero ("ac", .B) ("on", .B)) [("on", .one), ("ac", .one), ("ac", .B), ("on", .B), ("on", .two), ("ac", .two)] (fun r => .ok r) (fun v w => .ok (v % (w + 2))) (fun x y : Nat => decide (x < y)) out' ∧ (out'.map (fun p => { p with labels := pickLabels [("on", .one), ("ac", .one), ("on", .B), ("ac", .B), ("on", .two), ("ac", .two)] [("on", .one), ("ac", .one), ("ac", .B), ("on", .B), ("on", .two), ("ac", .two)] p.labels })).Perm (out.filter (fun o => o.by_ == [.int 0])) ∧
    ∀ o' ∈ out', ∃ o ∈ out, o.by_ = o'.by_ ∧ o.labels = pickLabels [("on", .one), ("ac", .one), ("on", .B), ("ac", .B), ("on", .two), ("ac", .two)] [("on", .one), ("ac", .one), ("ac", .B), ("on", .B), ("on", .two), ("ac", .two)] o'.labels ∧ o'.n ≤ o.n := by
  obtain ⟨out, -, h⟩ := twoRegs_run
  obtain ⟨out', hne, h'⟩ := lineRun_regs twoRegs_zero (by intro f hf; rw [List.mem_singleton.mp hf]; decide +kernel) (by intro f hf; rcases List.mem_pair.mp hf with rfl | rfl <;> decide +kernel) (by intro f hf; rcases List.mem_pair.mp hf with rfl | rfl <;> decide +kernel)
    (by intro f hf; rcases List.mem_pair.mp hf with rfl | rfl <;> exact ⟨_, rfl⟩) ex2_pos (by decide +kernel) (vars := [("on", .one), ("ac", .one), ("ac", .B), ("on", .B), ("on", .two), ("ac", .two)])
    (by decide +kernel) (by decide +kernel) (by decide +kernel) (fun v w => v % (w + 2)) (n := 3) (m := 7) (by omega) (by omega)
  have hv : ∀ v : Var, v ∈ ([("on", .one), ("ac", .one), ("on", .B), ("ac", .B), ("on", .two), ("ac", .two)] : List Var) ↔ v ∈ ([("on", .one), ("ac", .one), ("ac", .B), ("on", .B), ("on", .two), ("ac", .two)] : List Var) := by intro v; simp only [List.mem_cons, List.not_mem_nil, or_false]; tauto
  refine ⟨out, out', hne, h, h', C117_labels_columns_partial h h' hv rfl rfl rfl rfl rfl rfl (fun b _ => b == [.int 0]) ?_, C117_fewer_columns_partial h h' hv rfl rfl rfl rfl rfl (fun _ _ _ _ _ _ _ f hf => absurd hf (List.not_mem_nil (a := f)))⟩
  rintro u rA rB rX i1 i2 i3 ⟨sA, sB, sX, j1, j2, j3, e1, e2, -, -⟩
  rw [i1] at j1; rw [i2] at j2; rw [i3] at j3
  cases j1; cases j2; cases j3
  have e1 : rB "sp" = rA "sp" := (List.cons.inj e1).1
  have e2 : rX "sp" = rA "sp" := (List.cons.inj e2).1
  have hp : perItem ex2.cols keepF := by decide +kernel
  show (∀ f ∈ [keepF], holds ex2.cols f rA rB rX = true) ↔ (∀ f ∈ ([] : List (DBFun Bool)), holds ex2.cols f rA rB rX = true) ∧ ([rA "sp"] == [Val.int 0]) = true
  simp only [List.mem_singleton, forall_eq, List.not_mem_nil, false_imp_iff, implies_true, true_and]
  unfold holds
  rw [if_pos hp]
  show ((rA "sp" == .int 0) && (rB "sp" == .int 0) && (rX "sp" == .int 0)) = true ↔ _
  rw [e1, e2]
  simp

end ABX.Pipeline

#print axioms ABX.Pipeline.C115_columns_partial
#print axioms ABX.Pipeline.C116_columns_partial
#print axioms ABX.Pipeline.C117_fewer_columns_partial
#print axioms ABX.Pipeline.C117_labels_columns_partial
