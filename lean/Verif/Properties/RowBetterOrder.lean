import Verif.Properties.RowBetter
import Verif.Properties.RowOrder
/-!
C120, continued: results with the columns in another order.
-/
namespace ABX.Pipeline
open ExtSort ABX.Task Pairs SideOps Sampler Distances Score EndToEnd Analyze F64 ABX.Spec
variable {ρ φ φ' δ δ' : Type}

/-- C120: as C120_better_partial, but the columns `vars` and `vars'` of the results of the two runs are the same only up to their order: the labels are compared column by column.  So the order in which a process lists several across columns does not matter.
Missing: as in C77; regressors that are not columns. -/
theorem C120_columns_partial {a a' : Args ρ} {vars vars' : List Var} {getFeat : ρ → Except Err φ} {getFeat' : ρ → Except Err φ'} {distance : φ → φ → Except Err δ} {distance' : φ' → φ' → Except Err δ'} {lt : δ → δ → Bool} {lt' : δ' → δ' → Bool}
    {out out' : List OutRow} (h : LineRun a vars getFeat distance lt out) (h' : LineRun a' vars' getFeat' distance' lt' out') (hc : a'.cols = a.cols) (hon : a'.on = a.on) (hac : a'.across = a.across) (hby : a'.by_ = a.by_) (hdb : a'.db = a.db)
    (hfs : a'.filters = a.filters) (hv : ∀ v, v ∈ vars ↔ v ∈ vars')
    (hsc : ∀ u, LineTriplet a.cols a.on a.across a.by_ a.filters (a.db.map (·.2)) u → ∀ w w', IsLineScore lt (Spec.recDist getFeat distance) a.feat u w → IsLineScore lt' (Spec.recDist getFeat' distance') a'.feat u w' → w ≤ w') :
    (∀ o ∈ out, ∃ o' ∈ out', o'.by_ = o.by_ ∧ o.labels = pickLabels vars vars' o'.labels ∧ o'.n = o.n ∧ o.score ≤ o'.score) ∧ ∀ o' ∈ out', ∃ o ∈ out, o'.by_ = o.by_ ∧ o.labels = pickLabels vars vars' o'.labels ∧ o'.n = o.n ∧ o.score ≤ o'.score := by
  obtain ⟨e, he, h⟩ := h.rows
  obtain ⟨e', he', h'⟩ := h'.rows
  rw [hc, hon, hac, hby, hfs] at h'
  have lab : ∀ sA sB sX rA rB rX : Row, vars'.map (sem a.cols sA sB sX) = vars'.map (sem a.cols rA rB rX) ↔ vars.map (sem a.cols sA sB sX) = vars.map (sem a.cols rA rB rX) := by
    intro sA sB sX rA rB rX
    rw [List.map_inj_left, List.map_inj_left]
    exact ⟨fun p v g => p v ((hv v).mp g), fun p v g => p v ((hv v).mpr g)⟩
  have key : ∀ {rA rB rX : Row}, rA ∈ a.db.map (·.2) → rB ∈ a.db.map (·.2) → rX ∈ a.db.map (·.2) → ∀ u,
      (RowTriplet a.cols a.on a.across a.by_ a.filters (vars'.map (columnReg e' a'.db)) (a'.db.map (·.2)) (combo e' a' vars' a.cols a.by_ rA rB rX) u ↔
      RowTriplet a.cols a.on a.across a.by_ a.filters (vars.map (columnReg e a.db)) (a.db.map (·.2)) (combo e a vars a.cols a.by_ rA rB rX) u) := by
    intro rA rB rX hA hB hX u
    rw [rowTriplet_labels he' (by rw [hdb]; exact hA) (by rw [hdb]; exact hB) (by rw [hdb]; exact hX), rowTriplet_labels he hA hB hX, hdb]
    simp only [lab]
  have main : ∀ {rA rB rX : Row}, rA ∈ a.db.map (·.2) → rB ∈ a.db.map (·.2) → rX ∈ a.db.map (·.2) → ∀ {o o' : OutRow},
      IsRow (RowTriplet a.cols a.on a.across a.by_ a.filters (vars.map (columnReg e a.db)) (a.db.map (·.2)) (combo e a vars a.cols a.by_ rA rB rX)) lt (Spec.recDist getFeat distance) a.feat ((vars.map (columnReg e a.db)).map (idxOf e a))
        (combo e a vars a.cols a.by_ rA rB rX) o →
      IsRow (RowTriplet a.cols a.on a.across a.by_ a.filters (vars'.map (columnReg e' a'.db)) (a'.db.map (·.2)) (combo e' a' vars' a.cols a.by_ rA rB rX)) lt' (Spec.recDist getFeat' distance') a'.feat ((vars'.map (columnReg e' a'.db)).map (idxOf e' a'))
        (combo e' a' vars' a.cols a.by_ rA rB rX) o' → o'.by_ = o.by_ ∧ o.labels = pickLabels vars vars' o'.labels ∧ o'.n = o.n ∧ o.score ≤ o'.score := by
    intro rA rB rX hA hB hX o o' g g'
    obtain ⟨b1, l1⟩ := isRow_labels he hA hB hX g
    obtain ⟨b2, l2⟩ := isRow_labels he' (by rw [hdb]; exact hA) (by rw [hdb]; exact hB) (by rw [hdb]; exact hX) g'
    obtain ⟨U, n1, m1, s1, -, -, c1, r1⟩ := g
    obtain ⟨U', n2, m2, s2, -, -, c2, r2⟩ := g'
    obtain ⟨t1, t2⟩ := total_le n1 n2 (fun u => by rw [m1, m2, key hA hB hX]) s1 s2 (fun u hu => hsc u ((m1 u).mp hu).1)
    have hn : o'.n = o.n := by rw [c1, c2, t1]
    refine ⟨b2.trans b1.symm, by rw [l1, l2, pickLabels_map (fun v g => (hv v).mp g)], hn, ?_⟩
    rw [r1, r2, hn]
    have hq : (((U.map (·.2)).sum : Int) : ℚ) / o.n ≤ (((U'.map (·.2)).sum : Int) : ℚ) / o.n := div_le_div_of_nonneg_right (by exact_mod_cast t2) (Nat.cast_nonneg _)
    have := rnd_mono (add_le_add_left (rnd_mono hq) 1)
    linarith
  constructor
  · intro o ho
    obtain ⟨u, rA, rB, rX, i1, i2, i3, hu, g⟩ := rowsOf_mem h ho
    have hA := List.mem_of_getElem? i1
    have hB := List.mem_of_getElem? i2
    have hX := List.mem_of_getElem? i3
    obtain ⟨o', ho', g'⟩ := rowsOf_of h' ((key hA hB hX u).mpr hu)
    exact ⟨o', ho', main hA hB hX g g'⟩
  · intro o' ho'
    obtain ⟨u, rA, rB, rX, i1, i2, i3, hu, g'⟩ := rowsOf_mem h' ho'
    rw [hdb] at i1 i2 i3
    have hA := List.mem_of_getElem? i1
    have hB := List.mem_of_getElem? i2
    have hX := List.mem_of_getElem? i3
    obtain ⟨o, ho, g⟩ := rowsOf_of h ((key hA hB hX u).mp hu)
    exact ⟨o, ho, main hA hB hX g g'⟩

/-! ### example -/

/- the table of `ex2` with the regressors sp_B and on_B in both orders, with some distance and with one that tells the labels of "on" apart -/
example : ∃ out out', out ≠ [] ∧ LineRun (ex2Regs ex2 ("sp", .B) ("on", .B)) [("on", .one), ("ac", .one), ("sp", .B), ("on", .B), ("on", .two), ("ac", .two)] (fun r => .ok r) (fun v w => .ok (v % (w + 2))) (fun x y : Nat => decide (x < y)) out ∧
    LineRun (ex2Regs ex2 ("on", .B) ("sp", .B)) [("on", .one), ("ac", .one), ("on", .B), ("sp", .B), ("on", .two), ("ac", .two)] (fun r => .ok r) (fun v w => .ok (if ex2On v = ex2On w then 0 else 1)) (fun x y : Nat => decide (x < y)) out' ∧
    ∀ o ∈ out, ∃ o' ∈ out', o'.by_ = o.by_ ∧ o.labels = pickLabels [("on", .one), ("ac", .one), ("sp", .B), ("on", .B), ("on", .two), ("ac", .two)] [("on", .one), ("ac", .one), ("on", .B), ("sp", .B), ("on", .two), ("ac", .two)] o'.labels ∧ o'.n = o.n ∧ o.score ≤ o'.score := by
  have ok : ∀ b ∈ [ex2Regs ex2 ("sp", .B) ("on", .B), ex2Regs ex2 ("on", .B) ("sp", .B)], b.OK := by
    intro b hb
    rcases List.mem_pair.mp hb with rfl | rfl <;> refine Args.OK.flat rfl (by decide +kernel) (by intro f hf; cases hf) ?_ (by intro f hf; cases hf) ?_ (by decide +kernel) <;> intro f hf <;> rcases List.mem_pair.mp hf with rfl | rfl
    all_goals first
      | decide +kernel
      | (unfold Avail; decide +kernel)
  obtain ⟨out, hne, h⟩ := lineRun_regs (ok (ex2Regs ex2 ("sp", .B) ("on", .B)) (by simp)) (by intro f hf; cases hf) (by intro f hf; rcases List.mem_pair.mp hf with rfl | rfl <;> decide +kernel) (by intro f hf; rcases List.mem_pair.mp hf with rfl | rfl <;> decide +kernel)
    (by intro f hf; rcases List.mem_pair.mp hf with rfl | rfl <;> exact ⟨_, rfl⟩) ex2_pos (by decide +kernel) (vars := [("on", .one), ("ac", .one), ("sp", .B), ("on", .B), ("on", .two), ("ac", .two)])
    (by decide +kernel) (by decide +kernel) (by decide +kernel) (fun v w => v % (w + 2)) (n := 2) (m := 3) (by omega) (by omega)
  obtain ⟨out', -, h'⟩ := lineRun_regs (ok (ex2Regs ex2 ("on", .B) ("sp", .B)) (by simp)) (by intro f hf; cases hf) (by intro f hf; rcases List.mem_pair.mp hf with rfl | rfl <;> decide +kernel) (by intro f hf; rcases List.mem_pair.mp hf with rfl | rfl <;> decide +kernel)
    (by intro f hf; rcases List.mem_pair.mp hf with rfl | rfl <;> exact ⟨_, rfl⟩) ex2_pos (by decide +kernel) (vars := [("on", .one), ("ac", .one), ("on", .B), ("sp", .B), ("on", .two), ("ac", .two)])
    (by decide +kernel) (by decide +kernel) (by decide +kernel) (fun v w => if ex2On v = ex2On w then 0 else 1) (n := 3) (m := 7) (by omega) (by omega)
  refine ⟨out, out', hne, h, h', (C120_columns_partial h h' rfl rfl rfl rfl rfl rfl (by intro v; simp only [List.mem_cons, List.not_mem_nil, or_false]; tauto) ?_).1⟩
  rintro u ⟨rA, rB, rX, i1, i2, i3, -, -, hl, -⟩ w w' ⟨-, -, -, d1, d2, -, -, -, -, -, rfl⟩ ⟨fA, fB, fX, d, d', j1, j2, j3, j4, j5, rfl⟩
  have key : ∀ i < 9, ∀ j < 9, ((ex2.db.map (·.2))[i]?.map (· ex2.on) = (ex2.db.map (·.2))[j]?.map (· ex2.on)) ↔ ex2On i = ex2On j := by decide +kernel
  unfold legal at hl
  simp only [Bool.and_eq_true, beq_iff_eq, bne_iff_ne] at hl
  obtain ⟨⟨⟨l1, l2⟩, -⟩, -⟩ := hl
  obtain ⟨rfl, b1⟩ := ex2_line j1
  obtain ⟨rfl, b2⟩ := ex2_line j2
  obtain ⟨rfl, b3⟩ := ex2_line j3
  have k1 := key _ b1 _ b3
  have k2 := key _ b2 _ b3
  rw [show (ex2.db.map (·.2))[u.1]? = some rA from i1, show (ex2.db.map (·.2))[u.2.2]? = some rX from i3] at k1
  rw [show (ex2.db.map (·.2))[u.2.1]? = some rB from i2, show (ex2.db.map (·.2))[u.2.2]? = some rX from i3] at k2
  simp only [Option.map_some, Option.some.injEq] at k1 k2
  cases j4
  cases j5
  rw [if_pos (k1.mp l1), if_neg (fun h => l2 ((k2.mpr h).trans l1.symm))]
  simp only [show decide ((0 : Nat) < 1) = true from rfl, if_true]
  split_ifs <;> decide

end ABX.Pipeline

#print axioms ABX.Pipeline.C120_columns_partial
