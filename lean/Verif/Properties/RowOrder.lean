import Verif.Properties.RowSplit
/-!
C114, continued: results with the columns in another order.
-/
namespace ABX.Pipeline
open ExtSort ABX.Task Pairs SideOps Sampler Distances Score EndToEnd Analyze F64 ABX.Spec
variable {ρ φ δ : Type}

/-- C114: the results do not depend on the order of the lines of the item table and of the regressors: the line `i` of the one table is the line `σ i` of the other, with the same record, and the columns `vars` and `vars'` of the results are the same up to their
order (and repetitions).  They have the same rows, in some order, each label in its column.  Runs without threshold, in any two processes, so the order in which a process lists several across columns does not matter.  Missing: as in C77; regressors that are not
columns. -/
theorem C114_columns_partial {a a' : Args ρ} {vars vars' : List Var} {getFeat : ρ → Except Err φ} {distance : φ → φ → Except Err δ} {lt : δ → δ → Bool} {out out' : List OutRow} (h : LineRun a vars getFeat distance lt out)
    (h' : LineRun a' vars' getFeat distance lt out') (hc : a'.cols = a.cols) (hon : a'.on = a.on) (hac : a'.across = a.across) (hby : a'.by_ = a.by_) (hfs : a'.filters = a.filters) (hv : ∀ v, v ∈ vars ↔ v ∈ vars')
    (σ : Equiv.Perm Nat) (hσ : ∀ i, (a'.db.map (·.2))[i]? = (a.db.map (·.2))[σ i]?) (hρ : ∀ i, a'.feat[i]? = a.feat[σ i]?) : out.Perm (out'.map (fun p => { p with labels := pickLabels vars vars' p.labels })) := by
  obtain ⟨e, he, h⟩ := h.rows
  obtain ⟨e', he', h'⟩ := h'.rows
  rw [hc, hon, hac, hby, hfs] at h'
  have same : ∀ {vs : List Var} {e : Env} (b : Args ρ), e.Lawful → List.Forall₂ (fun f f' => SameLabel a.cols (b.db.map (·.2)) (f, idxOf e b f) (f', idxOf e b f')) (vs.map (columnReg e b.db)) (vs.map (columnReg e b.db)) := by
    intro vs e b he
    rw [List.forall₂_map_left_iff, List.forall₂_map_right_iff, List.forall₂_same]
    exact fun v _ => ⟨(he.sort _).nodup_iff.mpr (List.nodup_dedup _), (he.sort _).nodup_iff.mpr (List.nodup_dedup _), fun _ hA _ hB _ hX => ⟨_, column_label he v hA hB hX, column_label he v hA hB hX⟩⟩
  have nd := rowsOf_nodup (same a he) h
  have nd' := rowsOf_nodup (same a' he') h'
  have mem : ∀ r, r ∈ a'.db.map (·.2) ↔ r ∈ a.db.map (·.2) := by
    intro r
    constructor
    · intro hr
      obtain ⟨i, hi⟩ := List.getElem?_of_mem hr
      rw [hσ] at hi
      exact List.mem_of_getElem? hi
    · intro hr
      obtain ⟨i, hi⟩ := List.getElem?_of_mem hr
      exact List.mem_of_getElem? (i := σ.symm i) (by rw [hσ]; simpa using hi)
  have lab : ∀ sA sB sX rA rB rX : Row, vars'.map (sem a.cols sA sB sX) = vars'.map (sem a.cols rA rB rX) ↔ vars.map (sem a.cols sA sB sX) = vars.map (sem a.cols rA rB rX) := by
    intro sA sB sX rA rB rX
    rw [List.map_inj_left, List.map_inj_left]
    exact ⟨fun p v g => p v ((hv v).mp g), fun p v g => p v ((hv v).mpr g)⟩
  have key : ∀ {rA rB rX : Row}, rA ∈ a.db.map (·.2) → rB ∈ a.db.map (·.2) → rX ∈ a.db.map (·.2) → ∀ u,
      (RowTriplet a.cols a.on a.across a.by_ a.filters (vars'.map (columnReg e' a'.db)) (a'.db.map (·.2)) (combo e' a' vars' a.cols a.by_ rA rB rX) u ↔
      RowTriplet a.cols a.on a.across a.by_ a.filters (vars.map (columnReg e a.db)) (a.db.map (·.2)) (combo e a vars a.cols a.by_ rA rB rX) (σ u.1, σ u.2.1, σ u.2.2)) := by
    intro rA rB rX hA hB hX u
    rw [rowTriplet_labels he' ((mem _).mpr hA) ((mem _).mpr hB) ((mem _).mpr hX), rowTriplet_labels he hA hB hX, lineTriplet_perm σ hσ]
    simp only [hσ, lab]
  -- a row of the second run as one of the first
  have conv : ∀ {rA rB rX : Row}, rA ∈ a.db.map (·.2) → rB ∈ a.db.map (·.2) → rX ∈ a.db.map (·.2) → ∀ {p o : OutRow},
      IsRow (RowTriplet a.cols a.on a.across a.by_ a.filters (vars'.map (columnReg e' a'.db)) (a'.db.map (·.2)) (combo e' a' vars' a.cols a.by_ rA rB rX)) lt (Spec.recDist getFeat distance) a'.feat ((vars'.map (columnReg e' a'.db)).map (idxOf e' a'))
        (combo e' a' vars' a.cols a.by_ rA rB rX) p →
      IsRow (RowTriplet a.cols a.on a.across a.by_ a.filters (vars.map (columnReg e a.db)) (a.db.map (·.2)) (combo e a vars a.cols a.by_ rA rB rX)) lt (Spec.recDist getFeat distance) a.feat ((vars.map (columnReg e a.db)).map (idxOf e a))
        (combo e a vars a.cols a.by_ rA rB rX) o → { p with labels := pickLabels vars vars' p.labels } = o := by
    intro rA rB rX hA hB hX p o g g1
    obtain ⟨b1, l1⟩ := isRow_labels he' ((mem _).mpr hA) ((mem _).mpr hB) ((mem _).mpr hX) g
    refine isRow_unique ?_ g1 (by simp)
    obtain ⟨U, n1, m1, s1, -, -, c1, r1⟩ := g
    refine ⟨U.map (fun q => ((σ q.1.1, σ q.1.2.1, σ q.1.2.2), q.2)), ?_, ?_, ?_, (labels_iff he hA hB hX).mpr ?_, b1, by rw [List.length_map]; exact c1, ?_⟩
    · have : (U.map (fun q => ((σ q.1.1, σ q.1.2.1, σ q.1.2.2), q.2))).map (·.1) = (U.map (·.1)).map (fun u => (σ u.1, σ u.2.1, σ u.2.2)) := by rw [List.map_map, List.map_map]; rfl
      rw [this]
      refine n1.map ?_
      intro u v huv
      simp only [Prod.mk.injEq, EmbeddingLike.apply_eq_iff_eq] at huv
      exact Prod.ext huv.1 (Prod.ext huv.2.1 huv.2.2)
    · intro u
      have hu := key hA hB hX (σ.symm u.1, σ.symm u.2.1, σ.symm u.2.2)
      simp only [Equiv.apply_symm_apply] at hu
      rw [← hu, ← m1]
      simp only [List.mem_map]
      constructor
      · rintro ⟨_, ⟨q, hq, rfl⟩, rfl⟩
        exact ⟨q, hq, by simp⟩
      · rintro ⟨q, hq, e⟩
        refine ⟨_, ⟨q, hq, rfl⟩, ?_⟩
        rw [e]
        simp
    · intro q hq
      obtain ⟨x, hx, rfl⟩ := List.mem_map.mp hq
      obtain ⟨fA, fB, fX, d, d', j1, j2, j3, j4⟩ := s1 x hx
      rw [hρ] at j1 j2 j3
      exact ⟨fA, fB, fX, d, d', j1, j2, j3, j4⟩
    · show pickLabels vars vars' p.labels = _
      rw [l1, pickLabels_map (fun v g => (hv v).mp g)]
    · rw [List.map_map]
      exact r1
  have inj : ∀ p ∈ out', ∀ q ∈ out', ({ p with labels := pickLabels vars vars' p.labels } : OutRow) = { q with labels := pickLabels vars vars' q.labels } → p = q := by
    intro p hp q hq hpq
    obtain ⟨u, rA, rB, rX, i1, i2, i3, hu, g⟩ := rowsOf_mem h' hp
    obtain ⟨u', sA, sB, sX, j1, j2, j3, hu', g'⟩ := rowsOf_mem h' hq
    obtain ⟨-, l1⟩ := isRow_labels he' (List.mem_of_getElem? i1) (List.mem_of_getElem? i2) (List.mem_of_getElem? i3) g
    obtain ⟨-, l2⟩ := isRow_labels he' (List.mem_of_getElem? j1) (List.mem_of_getElem? j2) (List.mem_of_getElem? j3) g'
    obtain ⟨l, b, s, n⟩ := p
    obtain ⟨l', b', s', n'⟩ := q
    simp only [OutRow.mk.injEq] at hpq l1 l2 ⊢
    refine ⟨?_, hpq.2⟩
    have := hpq.1
    rw [l1, l2, pickLabels_map (fun v g => (hv v).mp g), pickLabels_map (fun v g => (hv v).mp g)] at this
    rw [l1, l2]
    exact (lab ..).mpr this
  rw [List.perm_ext_iff_of_nodup nd (List.Nodup.map_on inj nd')]
  intro o
  rw [List.mem_map]
  constructor
  · intro ho
    obtain ⟨u, rA, rB, rX, i1, i2, i3, hu, g⟩ := rowsOf_mem h ho
    have hA := List.mem_of_getElem? i1
    have hB := List.mem_of_getElem? i2
    have hX := List.mem_of_getElem? i3
    obtain ⟨p, hp, g1⟩ := rowsOf_of h' ((key hA hB hX (σ.symm u.1, σ.symm u.2.1, σ.symm u.2.2)).mpr (by simpa using hu))
    exact ⟨p, hp, conv hA hB hX g1 g⟩
  · rintro ⟨p, hp, rfl⟩
    obtain ⟨u, rA, rB, rX, i1, i2, i3, hu, g⟩ := rowsOf_mem h' hp
    have hA := (mem _).mp (List.mem_of_getElem? i1)
    have hB := (mem _).mp (List.mem_of_getElem? i2)
    have hX := (mem _).mp (List.mem_of_getElem? i3)
    obtain ⟨o, ho, g1⟩ := rowsOf_of h ((key hA hB hX u).mp hu)
    rw [conv hA hB hX g g1]
    exact ho

/-! ### example -/

/-- the table of `ex2`, or the same with the first and last lines exchanged, without 'by' columns and with two regressors -/
def ex2Regs (b : Args Nat) (v w : Var) : Args Nat := { b with by_ := [], cols := ⟨["on"], ["ac"], []⟩, regressors := [columnReg E0 b.db v, columnReg E0 b.db w] }

/- the tables of `ex2` and `ex2Swap` with the regressors sp_B and on_B in both orders -/
example : ∃ out out', out ≠ [] ∧ LineRun (ex2Regs ex2 ("sp", .B) ("on", .B)) [("on", .one), ("ac", .one), ("sp", .B), ("on", .B), ("on", .two), ("ac", .two)] (fun r => .ok r) (fun v w => .ok (v % (w + 2))) (fun x y : Nat => decide (x < y)) out ∧
    LineRun (ex2Regs ex2Swap ("on", .B) ("sp", .B)) [("on", .one), ("ac", .one), ("on", .B), ("sp", .B), ("on", .two), ("ac", .two)] (fun r => .ok r) (fun v w => .ok (v % (w + 2))) (fun x y : Nat => decide (x < y)) out' ∧
    out.Perm (out'.map (fun p => { p with labels := pickLabels [("on", .one), ("ac", .one), ("sp", .B), ("on", .B), ("on", .two), ("ac", .two)] [("on", .one), ("ac", .one), ("on", .B), ("sp", .B), ("on", .two), ("ac", .two)] p.labels })) := by
  have ok : ∀ b ∈ [ex2Regs ex2 ("sp", .B) ("on", .B), ex2Regs ex2Swap ("on", .B) ("sp", .B)], b.OK := by
    intro b hb
    rcases List.mem_pair.mp hb with rfl | rfl <;> refine Args.OK.flat rfl (by decide +kernel) (by intro f hf; cases hf) ?_ (by intro f hf; cases hf) ?_ (by decide +kernel) <;> intro f hf <;> rcases List.mem_pair.mp hf with rfl | rfl
    all_goals first
      | decide +kernel
      | (unfold Avail; decide +kernel)
  obtain ⟨out, hne, h⟩ := lineRun_regs (ok (ex2Regs ex2 ("sp", .B) ("on", .B)) (by simp)) (by intro f hf; cases hf) (by intro f hf; rcases List.mem_pair.mp hf with rfl | rfl <;> decide +kernel) (by intro f hf; rcases List.mem_pair.mp hf with rfl | rfl <;> decide +kernel)
    (by intro f hf; rcases List.mem_pair.mp hf with rfl | rfl <;> exact ⟨_, rfl⟩) ex2_pos (by decide +kernel) (vars := [("on", .one), ("ac", .one), ("sp", .B), ("on", .B), ("on", .two), ("ac", .two)]) (by decide +kernel) (by decide +kernel) (by decide +kernel) (fun v w => v % (w + 2)) (n := 2) (m := 3) (by omega) (by omega)
  obtain ⟨out', -, h'⟩ := lineRun_regs (ok (ex2Regs ex2Swap ("on", .B) ("sp", .B)) (by simp)) (by intro f hf; cases hf) (by intro f hf; rcases List.mem_pair.mp hf with rfl | rfl <;> decide +kernel) (by intro f hf; rcases List.mem_pair.mp hf with rfl | rfl <;> decide +kernel)
    (by intro f hf; rcases List.mem_pair.mp hf with rfl | rfl <;> exact ⟨_, rfl⟩) (by
    intro i p hp
    have : ∀ i < 9, (ex2Swap.db[i]?.map (·.1)) = some i := by decide +kernel
    have hi : i < 9 := (List.getElem?_eq_some_iff.mp hp).1
    have := this i hi
    rw [show ex2Swap.db[i]? = some p from hp] at this
    exact Option.some.inj this) (by decide +kernel) (vars := [("on", .one), ("ac", .one), ("on", .B), ("sp", .B), ("on", .two), ("ac", .two)]) (by decide +kernel) (by decide +kernel) (by decide +kernel) (fun v w => v % (w + 2)) (n := 3) (m := 7) (by omega) (by omega)
  refine ⟨out, out', hne, h, h', C114_columns_partial h h' rfl rfl rfl rfl rfl (by intro v; simp only [List.mem_cons, List.not_mem_nil, or_false]; tauto) (Equiv.swap 0 8) ?_ ?_⟩
  · intro i
    match i with
    | 0 | 1 | 2 | 3 | 4 | 5 | 6 | 7 | 8 => rfl
    | n + 9 => rw [Equiv.swap_apply_of_ne_of_ne (by omega) (by omega)]; rfl
  · intro i
    match i with
    | 0 | 1 | 2 | 3 | 4 | 5 | 6 | 7 | 8 => rfl
    | n + 9 => rw [Equiv.swap_apply_of_ne_of_ne (by omega) (by omega)]; rfl

end ABX.Pipeline

#print axioms ABX.Pipeline.C114_columns_partial
