import Verif.Spec.RowAcross
import Verif.Properties.RowMove
/-!
C121: the columns of 'across' as filters and regressors.
-/
namespace ABX.Pipeline
open ExtSort ABX.Task Pairs SideOps Sampler Distances Score EndToEnd Analyze F64 ABX.Spec
variable {ρ φ δ : Type}

/-- the labels of the across columns, read in B and X -/
theorem sem_across {c : Cols} {across : List String} {rA rB rX : Row} (hon : ∀ x ∈ across, x ∉ c.on) (h : ∀ x ∈ across, rB x = rA x) (v : Var) : sem c rA rB rX (acrossVar across v) = sem c rA rB rX v := by
  unfold acrossVar
  split
  · next hv =>
    obtain ⟨n, s⟩ := v
    have e := h n hv
    have o := hon n hv
    cases s <;> simp [sem, e, o]
  · rfl

/-- C121: a run without threshold with across columns, and one on the same table and records without, with the filters that B agrees with A and X differs from A on all these columns in addition, and with regressors for the values of B and X in them: the
results are the same rows, up to their order, each label in its column.  Missing: as in C114_order_partial. -/
theorem C121_across_partial {a a' : Args ρ} {vars vars' : List Var} {getFeat : ρ → Except Err φ} {distance : φ → φ → Except Err δ} {lt : δ → δ → Bool} {out out' : List OutRow} (h : LineRun a vars getFeat distance lt out)
    (h' : LineRun a' vars' getFeat distance lt out') (hc : a'.cols.on = a.cols.on) (hco : ∀ x ∈ a.across, x ∉ a.cols.on) (hon : a'.on = a.on) (hne : a.across ≠ []) (hac : a'.across = []) (hby : a'.by_ = a.by_) (hdb : a'.db = a.db) (hfeat : a'.feat = a.feat)
    (hfs : ∀ rA ∈ a.db.map (·.2), ∀ rB ∈ a.db.map (·.2), ∀ rX ∈ a.db.map (·.2), ((∀ f ∈ a'.filters, holds a'.cols f rA rB rX = true) ↔ (∀ x ∈ a.across, rB x = rA x ∧ rX x ≠ rA x) ∧ ∀ f ∈ a.filters, holds a.cols f rA rB rX = true))
    (hv : ∀ v', v' ∈ vars' ↔ v' ∈ vars.map (acrossVar a.across)) : out.Perm (out'.map (fun p => { p with labels := pickLabels (vars.map (acrossVar a.across)) vars' p.labels })) := by
  obtain ⟨e, he, h⟩ := h.rows
  obtain ⟨e', he', h'⟩ := h'.rows
  rw [hon, hac, hby, hfeat] at h'
  have same : ∀ {vs : List Var} {c : Cols} {e : Env} (b : Args ρ), e.Lawful → List.Forall₂ (fun f f' => SameLabel c (b.db.map (·.2)) (f, idxOf e b f) (f', idxOf e b f')) (vs.map (columnReg e b.db)) (vs.map (columnReg e b.db)) := by
    intro vs c e b he
    rw [List.forall₂_map_left_iff, List.forall₂_map_right_iff, List.forall₂_same]
    exact fun v _ => ⟨(he.sort _).nodup_iff.mpr (List.nodup_dedup _), (he.sort _).nodup_iff.mpr (List.nodup_dedup _), fun _ hA _ hB _ hX => ⟨_, column_label he v hA hB hX, column_label he v hA hB hX⟩⟩
  have nd := rowsOf_nodup (same a he) h
  have nd' := rowsOf_nodup (same a' he') h'
  have legal_iff : ∀ (A B X : Nat) (rA rB rX : Row), (A = X → rA = rX) → ((legal a.on [] (A, rA) (B, rB) (X, rX) = true ∧ ∀ x ∈ a.across, rB x = rA x ∧ rX x ≠ rA x) ↔ legal a.on a.across (A, rA) (B, rB) (X, rX) = true) := by
    intro A B X rA rB rX hAX
    have hne' : a.across.isEmpty = false := by cases h : a.across with | nil => exact absurd h hne | cons => rfl
    unfold legal
    simp only [List.all_nil, List.isEmpty_nil, if_true, Bool.and_true, hne', Bool.false_eq_true, if_false, Bool.and_eq_true, beq_iff_eq, bne_iff_ne, List.all_eq_true]
    constructor
    · rintro ⟨⟨⟨p, q⟩, -⟩, r⟩
      exact ⟨⟨⟨p, q⟩, fun x hx => (r x hx).1⟩, fun x hx => (r x hx).2⟩
    · rintro ⟨⟨⟨p, q⟩, r⟩, s⟩
      refine ⟨⟨⟨p, q⟩, fun hXA => ?_⟩, fun x hx => ⟨r x hx, s x hx⟩⟩
      obtain ⟨x, hx⟩ := List.exists_mem_of_ne_nil _ hne
      exact s x hx (by rw [hAX hXA.symm])
  -- the triplets of lines are the same
  have line : ∀ u, LineTriplet a'.cols a.on [] a.by_ a'.filters (a.db.map (·.2)) u ↔ LineTriplet a.cols a.on a.across a.by_ a.filters (a.db.map (·.2)) u := by
    intro u
    refine exists_congr fun sA => exists_congr fun sB => exists_congr fun sX => and_congr_right fun j1 => and_congr_right fun j2 => and_congr_right fun j3 => and_congr_right fun _ => and_congr_right fun _ => ?_
    rw [hfs _ (List.mem_of_getElem? j1) _ (List.mem_of_getElem? j2) _ (List.mem_of_getElem? j3), ← legal_iff u.1 u.2.1 u.2.2 sA sB sX (fun q => by rw [q, j3] at j1; exact (Option.some.inj j1).symm)]
    tauto
  have agree : ∀ {u sA sB sX}, (a.db.map (·.2))[u.1]? = some sA → (a.db.map (·.2))[u.2.1]? = some sB → (a.db.map (·.2))[u.2.2]? = some sX → LineTriplet a.cols a.on a.across a.by_ a.filters (a.db.map (·.2)) u → ∀ x ∈ a.across, sB x = sA x := by
    rintro u sA sB sX j1 j2 j3 ⟨tA, tB, tX, k1, k2, k3, -, -, l, -⟩ x hx
    rw [j1] at k1; rw [j2] at k2; rw [j3] at k3
    cases k1; cases k2; cases k3
    unfold legal at l
    simp only [Bool.and_eq_true, List.all_eq_true, beq_iff_eq] at l
    exact l.1.2 x hx
  have labs : ∀ {rA rB rX : Row}, (∀ x ∈ a.across, rB x = rA x) → (vars.map (acrossVar a.across)).map (sem a'.cols rA rB rX) = vars.map (sem a.cols rA rB rX) := by
    intro rA rB rX hr
    rw [sem_cols hc, List.map_map]
    exact List.map_congr_left fun v _ => sem_across hco hr v
  have lab : ∀ {sA sB sX rA rB rX : Row}, (∀ x ∈ a.across, sB x = sA x) → (∀ x ∈ a.across, rB x = rA x) →
      (vars'.map (sem a'.cols sA sB sX) = vars'.map (sem a'.cols rA rB rX) ↔ vars.map (sem a.cols sA sB sX) = vars.map (sem a.cols rA rB rX)) := by
    intro sA sB sX rA rB rX hs hr
    rw [← labs hs, ← labs hr, List.map_inj_left, List.map_inj_left]
    exact forall_congr' fun v => by rw [hv]
  have key : ∀ {u0 rA rB rX}, (a.db.map (·.2))[u0.1]? = some rA → (a.db.map (·.2))[u0.2.1]? = some rB → (a.db.map (·.2))[u0.2.2]? = some rX → LineTriplet a.cols a.on a.across a.by_ a.filters (a.db.map (·.2)) u0 → ∀ u,
      (RowTriplet a'.cols a.on [] a.by_ a'.filters (vars'.map (columnReg e' a'.db)) (a'.db.map (·.2)) (combo e' a' vars' a'.cols a.by_ rA rB rX) u ↔
      RowTriplet a.cols a.on a.across a.by_ a.filters (vars.map (columnReg e a.db)) (a.db.map (·.2)) (combo e a vars a.cols a.by_ rA rB rX) u) := by
    intro u0 rA rB rX i1 i2 i3 h0 u
    have hA := List.mem_of_getElem? i1
    have hB := List.mem_of_getElem? i2
    have hX := List.mem_of_getElem? i3
    rw [rowTriplet_labels he' (by rw [hdb]; exact hA) (by rw [hdb]; exact hB) (by rw [hdb]; exact hX), rowTriplet_labels he hA hB hX, hdb, line]
    refine and_congr_right fun hu => forall_congr' fun sA => forall_congr' fun sB => forall_congr' fun sX => imp_congr_right fun j1 => imp_congr_right fun j2 => imp_congr_right fun j3 => ?_
    rw [lab (agree j1 j2 j3 hu) (agree i1 i2 i3 h0)]
  have pick : ∀ {rA rB rX : Row}, (∀ x ∈ a.across, rB x = rA x) → pickLabels (vars.map (acrossVar a.across)) vars' (vars'.map (sem a'.cols rA rB rX)) = vars.map (sem a.cols rA rB rX) := by
    intro rA rB rX hr
    rw [pickLabels_map (fun v g => (hv v).mpr g), labs hr]
  have conv : ∀ {u0 rA rB rX}, (a.db.map (·.2))[u0.1]? = some rA → (a.db.map (·.2))[u0.2.1]? = some rB → (a.db.map (·.2))[u0.2.2]? = some rX → LineTriplet a.cols a.on a.across a.by_ a.filters (a.db.map (·.2)) u0 → ∀ {p o : OutRow},
      IsRow (RowTriplet a'.cols a.on [] a.by_ a'.filters (vars'.map (columnReg e' a'.db)) (a'.db.map (·.2)) (combo e' a' vars' a'.cols a.by_ rA rB rX)) lt (Spec.recDist getFeat distance) a.feat ((vars'.map (columnReg e' a'.db)).map (idxOf e' a'))
        (combo e' a' vars' a'.cols a.by_ rA rB rX) p →
      IsRow (RowTriplet a.cols a.on a.across a.by_ a.filters (vars.map (columnReg e a.db)) (a.db.map (·.2)) (combo e a vars a.cols a.by_ rA rB rX)) lt (Spec.recDist getFeat distance) a.feat ((vars.map (columnReg e a.db)).map (idxOf e a))
        (combo e a vars a.cols a.by_ rA rB rX) o → { p with labels := pickLabels (vars.map (acrossVar a.across)) vars' p.labels } = o := by
    intro u0 rA rB rX i1 i2 i3 h0 p o g g1
    have hA := List.mem_of_getElem? i1
    have hB := List.mem_of_getElem? i2
    have hX := List.mem_of_getElem? i3
    obtain ⟨b1, l1⟩ := isRow_labels he' (by rw [hdb]; exact hA) (by rw [hdb]; exact hB) (by rw [hdb]; exact hX) g
    refine isRow_unique ?_ g1 (by simp)
    obtain ⟨U, n1, m1, s1, -, -, c1, r1⟩ := g
    refine ⟨U, n1, fun u => by rw [m1, key i1 i2 i3 h0], s1, (labels_iff he hA hB hX).mpr ?_, b1, c1, r1⟩
    show pickLabels _ vars' p.labels = _
    rw [l1, pick (agree i1 i2 i3 h0)]
  have row' : ∀ p ∈ out', ∃ u rA rB rX, (a.db.map (·.2))[u.1]? = some rA ∧ (a.db.map (·.2))[u.2.1]? = some rB ∧ (a.db.map (·.2))[u.2.2]? = some rX ∧ LineTriplet a.cols a.on a.across a.by_ a.filters (a.db.map (·.2)) u ∧
      p.labels = vars'.map (sem a'.cols rA rB rX) ∧ { p with labels := pickLabels (vars.map (acrossVar a.across)) vars' p.labels } ∈ out := by
    intro p hp
    obtain ⟨u, rA, rB, rX, i1, i2, i3, hu, g⟩ := rowsOf_mem h' hp
    obtain ⟨-, l1⟩ := isRow_labels he' (List.mem_of_getElem? i1) (List.mem_of_getElem? i2) (List.mem_of_getElem? i3) g
    rw [hdb] at i1 i2 i3
    have h0 : LineTriplet a.cols a.on a.across a.by_ a.filters (a.db.map (·.2)) u := by
      have := hu.1
      rw [hdb] at this
      exact (line u).mp this
    obtain ⟨o, ho, g1⟩ := rowsOf_of h ((key i1 i2 i3 h0 u).mp hu)
    refine ⟨u, rA, rB, rX, i1, i2, i3, h0, l1, ?_⟩
    rw [conv i1 i2 i3 h0 g g1]
    exact ho
  have inj : ∀ p ∈ out', ∀ q ∈ out', ({ p with labels := pickLabels (vars.map (acrossVar a.across)) vars' p.labels } : OutRow) = { q with labels := pickLabels (vars.map (acrossVar a.across)) vars' q.labels } → p = q := by
    intro p hp q hq hpq
    obtain ⟨u, rA, rB, rX, i1, i2, i3, h0, l1, -⟩ := row' p hp
    obtain ⟨u', sA, sB, sX, j1, j2, j3, h0', l2, -⟩ := row' q hq
    obtain ⟨l, b, s, n⟩ := p
    obtain ⟨l', b', s', n'⟩ := q
    simp only [OutRow.mk.injEq] at hpq l1 l2 ⊢
    refine ⟨?_, hpq.2⟩
    have := hpq.1
    rw [l1, l2, pick (agree i1 i2 i3 h0), pick (agree j1 j2 j3 h0')] at this
    rw [l1, l2]
    exact (lab (agree i1 i2 i3 h0) (agree j1 j2 j3 h0')).mpr this
  rw [List.perm_ext_iff_of_nodup nd (List.Nodup.map_on inj nd')]
  intro o
  rw [List.mem_map]
  constructor
  · intro ho
    obtain ⟨u, rA, rB, rX, i1, i2, i3, hu, g⟩ := rowsOf_mem h ho
    obtain ⟨p, hp, g1⟩ := rowsOf_of h' ((key i1 i2 i3 hu.1 u).mpr hu)
    exact ⟨p, hp, conv i1 i2 i3 hu.1 g1 g⟩
  · rintro ⟨p, hp, rfl⟩
    obtain ⟨-, -, -, -, -, -, -, -, -, r⟩ := row' p hp
    exact r

/-! ### example -/

/-- the task of `ex2` without the column "ac" as across, but with filters that B agrees with A and X does not, and regressors for its values -/
def ex2Within : Args Nat := { ex2 with across := [], cols := ⟨["on"], [], ["sp"]⟩, filters := [colFilter2 ("ac", .A) ("ac", .B) (· == ·), colFilter2 ("ac", .A) ("ac", .X) (· != ·)], regressors := [columnReg E0 ex2.db ("ac", .B), columnReg E0 ex2.db ("ac", .X)] }

theorem ex2Within_ok : ex2Within.OK := by
  refine Args.OK.flat rfl (by decide +kernel) ?_ ?_ ?_ ?_ (by decide +kernel) <;> intro f hf <;> rcases List.mem_pair.mp hf with rfl | rfl
  all_goals first
    | decide +kernel
    | (unfold Avail; decide +kernel)

/- the results of `ex2` are those of `ex2Within`, each label in its column -/
example : ∃ out out', out ≠ [] ∧ LineRun ex2 [("on", .one), ("ac", .one), ("on", .two), ("ac", .two)] (fun r => .ok r) (fun v w => .ok (v % (w + 2))) (fun x y : Nat => decide (x < y)) out ∧
    LineRun ex2Within [("on", .one), ("ac", .B), ("on", .two), ("ac", .X)] (fun r => .ok r) (fun v w => .ok (v % (w + 2))) (fun x y : Nat => decide (x < y)) out' ∧
    out.Perm (out'.map (fun p => { p with labels := pickLabels [("on", .one), ("ac", .B), ("on", .two), ("ac", .X)] [("on", .one), ("ac", .B), ("on", .two), ("ac", .X)] p.labels })) := by
  obtain ⟨out, hne, h⟩ := lineRun_exists ex2_ok rfl rfl ex2_pos (by decide +kernel) (vars := [("on", .one), ("ac", .one), ("on", .two), ("ac", .two)]) (by decide +kernel) (by decide +kernel) (by decide +kernel) (fun v w => v % (w + 2)) (n := 2) (m := 3) (by omega) (by omega)
  obtain ⟨out', -, h'⟩ := lineRun_regs ex2Within_ok (by intro f hf; rcases List.mem_pair.mp hf with rfl | rfl <;> decide +kernel) (by intro f hf; rcases List.mem_pair.mp hf with rfl | rfl <;> decide +kernel)
    (by intro f hf; rcases List.mem_pair.mp hf with rfl | rfl <;> decide +kernel) (by intro f hf; rcases List.mem_pair.mp hf with rfl | rfl <;> exact ⟨_, rfl⟩) ex2_pos
    (by decide +kernel) (vars := [("on", .one), ("ac", .B), ("on", .two), ("ac", .X)]) (by decide +kernel) (by decide +kernel) (by decide +kernel) (fun v w => v % (w + 2)) (n := 3) (m := 7) (by omega) (by omega)
  refine ⟨out, out', hne, h, h', C121_across_partial h h' rfl (by decide) rfl (by decide) rfl rfl rfl rfl ?_ (fun v => Iff.rfl)⟩
  intro rA _ rB _ rX _
  have p1 : ¬ perItem ex2Within.cols (colFilter2 ("ac", .A) ("ac", .B) (· == ·)) := by decide +kernel
  have p2 : ¬ perItem ex2Within.cols (colFilter2 ("ac", .A) ("ac", .X) (· != ·)) := by decide +kernel
  show (∀ f ∈ [colFilter2 ("ac", .A) ("ac", .B) (· == ·), colFilter2 ("ac", .A) ("ac", .X) (· != ·)], holds ex2Within.cols f rA rB rX = true) ↔ (∀ x ∈ ["ac"], rB x = rA x ∧ rX x ≠ rA x) ∧ ∀ f ∈ ([] : List (DBFun Bool)), holds ex2.cols f rA rB rX = true
  have q1 : holds ex2Within.cols (colFilter2 ("ac", .A) ("ac", .B) (· == ·)) rA rB rX = (rA "ac" == rB "ac") := by unfold holds; rw [if_neg p1]; rfl
  have q2 : holds ex2Within.cols (colFilter2 ("ac", .A) ("ac", .X) (· != ·)) rA rB rX = (rA "ac" != rX "ac") := by unfold holds; rw [if_neg p2]; rfl
  simp only [List.mem_cons, List.not_mem_nil, or_false, forall_eq_or_imp, forall_eq, q1, q2, beq_iff_eq, bne_iff_ne, and_true, false_imp_iff, implies_true]
  exact ⟨fun h => ⟨h.1.symm, fun e => h.2 e.symm⟩, fun h => ⟨h.1.symm, fun e => h.2 e.symm⟩⟩

end ABX.Pipeline

#print axioms ABX.Pipeline.C121_across_partial
