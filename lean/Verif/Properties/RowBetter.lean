import Verif.Proofs.RowFilters
import Verif.Properties.Separate
/-!
C120: better distances have better scores.
-/
namespace ABX.Pipeline
open ExtSort ABX.Task Pairs SideOps Sampler Distances Score EndToEnd Analyze F64 ABX.Spec
variable {ρ φ φ' δ δ' : Type}

/-- the total score of triplets that score at most as much one by one -/
theorem total_le {lt : δ → δ → Bool} {lt' : δ' → δ' → Bool} {dist : ρ → ρ → Except Err δ} {dist' : ρ → ρ → Except Err δ'} {recs recs' : List ρ} {U U' : List ((Nat × Nat × Nat) × Int)} (hn : (U.map (·.1)).Nodup) (hn' : (U'.map (·.1)).Nodup)
    (hm : ∀ u, u ∈ U'.map (·.1) ↔ u ∈ U.map (·.1)) (hs : ∀ q ∈ U, IsLineScore lt dist recs q.1 q.2) (hs' : ∀ q ∈ U', IsLineScore lt' dist' recs' q.1 q.2)
    (h : ∀ u ∈ U.map (·.1), ∀ w w', IsLineScore lt dist recs u w → IsLineScore lt' dist' recs' u w' → w ≤ w') : U'.length = U.length ∧ (U.map (·.2)).sum ≤ (U'.map (·.2)).sum := by
  classical
  have hp : (U'.map (·.1)).Perm (U.map (·.1)) := (List.perm_ext_iff_of_nodup hn' hn).mpr hm
  have sc : ∀ u, ∃ w : Int, ∀ q ∈ U, q.1 = u → q.2 = w := by
    intro u
    by_cases hu : ∃ q ∈ U, q.1 = u
    · obtain ⟨q, hq, rfl⟩ := hu
      exact ⟨q.2, fun r hr e => (hs r hr).unique (e ▸ hs q hq)⟩
    · exact ⟨0, fun q hq e => absurd ⟨q, hq, e⟩ hu⟩
  have sc' : ∀ u, ∃ w : Int, ∀ q ∈ U', q.1 = u → q.2 = w := by
    intro u
    by_cases hu : ∃ q ∈ U', q.1 = u
    · obtain ⟨q, hq, rfl⟩ := hu
      exact ⟨q.2, fun r hr e => (hs' r hr).unique (e ▸ hs' q hq)⟩
    · exact ⟨0, fun q hq e => absurd ⟨q, hq, e⟩ hu⟩
  choose g hg using sc
  choose g' hg' using sc'
  have e1 : U.map (·.2) = (U.map (·.1)).map g := by
    rw [List.map_map]
    exact List.map_congr_left fun q hq => hg q.1 q hq rfl
  have e2 : U'.map (·.2) = (U'.map (·.1)).map g' := by
    rw [List.map_map]
    exact List.map_congr_left fun q hq => hg' q.1 q hq rfl
  refine ⟨by simpa using hp.length_eq, ?_⟩
  rw [e1, e2, (hp.map g').sum_eq]
  refine List.sum_le_sum fun u hu => ?_
  obtain ⟨q, hq, rfl⟩ := List.mem_map.mp hu
  obtain ⟨q', hq', e⟩ := List.mem_map.mp ((hm q.1).mpr hu)
  rw [← hg q.1 q hq rfl, ← hg' q.1 q' hq' e]
  exact h q.1 hu _ _ (hs q hq) (e ▸ hs' q' hq')

/-- C120: two runs without threshold of the same task on the same table, with other features or distances: if every triplet scores in the second at least as much as in the first, then every row of the first has a row of the second with the same labels, the
same number of triplets and a score at least as high, and every row of the second is one of these.  Missing: as in C114_order_partial. -/
theorem C120_better_partial {a a' : Args ρ} {vars : List Var} {getFeat : ρ → Except Err φ} {getFeat' : ρ → Except Err φ'} {distance : φ → φ → Except Err δ} {distance' : φ' → φ' → Except Err δ'} {lt : δ → δ → Bool} {lt' : δ' → δ' → Bool}
    {out out' : List OutRow} (h : LineRun a vars getFeat distance lt out) (h' : LineRun a' vars getFeat' distance' lt' out') (hc : a'.cols = a.cols) (hon : a'.on = a.on) (hac : a'.across = a.across) (hby : a'.by_ = a.by_) (hdb : a'.db = a.db)
    (hfs : a'.filters = a.filters)
    (hsc : ∀ u, LineTriplet a.cols a.on a.across a.by_ a.filters (a.db.map (·.2)) u → ∀ w w', IsLineScore lt (Spec.recDist getFeat distance) a.feat u w → IsLineScore lt' (Spec.recDist getFeat' distance') a'.feat u w' → w ≤ w') :
    (∀ o ∈ out, ∃ o' ∈ out', o'.by_ = o.by_ ∧ o'.labels = o.labels ∧ o'.n = o.n ∧ o.score ≤ o'.score) ∧ ∀ o' ∈ out', ∃ o ∈ out, o'.by_ = o.by_ ∧ o'.labels = o.labels ∧ o'.n = o.n ∧ o.score ≤ o'.score := by
  obtain ⟨e, he, h⟩ := h.rows
  obtain ⟨e', he', h'⟩ := h'.rows
  rw [hc, hon, hac, hby, hfs] at h'
  have key : ∀ {rA rB rX : Row}, rA ∈ a.db.map (·.2) → rB ∈ a.db.map (·.2) → rX ∈ a.db.map (·.2) → ∀ u,
      (RowTriplet a.cols a.on a.across a.by_ a.filters (vars.map (columnReg e' a'.db)) (a'.db.map (·.2)) (combo e' a' vars a.cols a.by_ rA rB rX) u ↔
      RowTriplet a.cols a.on a.across a.by_ a.filters (vars.map (columnReg e a.db)) (a.db.map (·.2)) (combo e a vars a.cols a.by_ rA rB rX) u) := by
    intro rA rB rX hA hB hX u
    rw [rowTriplet_labels he' (by rw [hdb]; exact hA) (by rw [hdb]; exact hB) (by rw [hdb]; exact hX), rowTriplet_labels he hA hB hX, hdb]
  have main : ∀ {rA rB rX : Row}, rA ∈ a.db.map (·.2) → rB ∈ a.db.map (·.2) → rX ∈ a.db.map (·.2) → ∀ {o o' : OutRow},
      IsRow (RowTriplet a.cols a.on a.across a.by_ a.filters (vars.map (columnReg e a.db)) (a.db.map (·.2)) (combo e a vars a.cols a.by_ rA rB rX)) lt (Spec.recDist getFeat distance) a.feat ((vars.map (columnReg e a.db)).map (idxOf e a))
        (combo e a vars a.cols a.by_ rA rB rX) o →
      IsRow (RowTriplet a.cols a.on a.across a.by_ a.filters (vars.map (columnReg e' a'.db)) (a'.db.map (·.2)) (combo e' a' vars a.cols a.by_ rA rB rX)) lt' (Spec.recDist getFeat' distance') a'.feat ((vars.map (columnReg e' a'.db)).map (idxOf e' a'))
        (combo e' a' vars a.cols a.by_ rA rB rX) o' → o'.by_ = o.by_ ∧ o'.labels = o.labels ∧ o'.n = o.n ∧ o.score ≤ o'.score := by
    intro rA rB rX hA hB hX o o' g g'
    obtain ⟨b1, l1⟩ := isRow_labels he hA hB hX g
    obtain ⟨b2, l2⟩ := isRow_labels he' (by rw [hdb]; exact hA) (by rw [hdb]; exact hB) (by rw [hdb]; exact hX) g'
    obtain ⟨U, n1, m1, s1, -, -, c1, r1⟩ := g
    obtain ⟨U', n2, m2, s2, -, -, c2, r2⟩ := g'
    obtain ⟨t1, t2⟩ := total_le n1 n2 (fun u => by rw [m1, m2, key hA hB hX]) s1 s2 (fun u hu => hsc u ((m1 u).mp hu).1)
    have hn : o'.n = o.n := by rw [c1, c2, t1]
    refine ⟨b2.trans b1.symm, l2.trans l1.symm, hn, ?_⟩
    rw [r1, r2, hn]
    have hq : (((U.map (·.2)).sum : Int) : ℚ) / o.n ≤ (((U'.map (·.2)).sum : Int) : ℚ) / o.n := div_le_div_of_nonneg_right (by exact_mod_cast t2) (Nat.cast_nonneg _)
    have := rnd_mono (add_le_add_left (rnd_mono hq) 1)
    linarith
  constructor
  · intro o ho
    obtain ⟨u, rA, rB, rX, i1, i2, i3, hu, g⟩ := rowsOf_mem h ho
    have hA := List.mem_of_getElem? i1
    have hB := List.mem_of_getElem? i2
    have hX := List.mem_of_getElem? i3
    obtain ⟨o', ho', g'⟩ := rowsOf_of h' ((key hA hB hX u).mpr hu)
    exact ⟨o', ho', main hA hB hX g g'⟩
  · intro o' ho'
    obtain ⟨u, rA, rB, rX, i1, i2, i3, hu, g'⟩ := rowsOf_mem h' ho'
    rw [hdb] at i1 i2 i3
    have hA := List.mem_of_getElem? i1
    have hB := List.mem_of_getElem? i2
    have hX := List.mem_of_getElem? i3
    obtain ⟨o, ho, g⟩ := rowsOf_of h ((key hA hB hX u).mp hu)
    exact ⟨o, ho, main hA hB hX g g'⟩

/-! ### example -/

/- the task `ex2` with some distance and with one that tells the labels of "on" apart -/
example : ∃ out out', out ≠ [] ∧ LineRun ex2 [("on", .one), ("ac", .one), ("on", .two), ("ac", .two)] (fun r => .ok r) (fun v w => .ok (v % (w + 2))) (fun x y : Nat => decide (x < y)) out ∧
    LineRun ex2 [("on", .one), ("ac", .one), ("on", .two), ("ac", .two)] (fun r => .ok r) (fun v w => .ok (if ex2On v = ex2On w then 0 else 1)) (fun x y : Nat => decide (x < y)) out' ∧
    ∀ o ∈ out, ∃ o' ∈ out', o'.by_ = o.by_ ∧ o'.labels = o.labels ∧ o'.n = o.n ∧ o.score ≤ o'.score := by
  obtain ⟨out, hne, h⟩ := lineRun_exists ex2_ok rfl rfl ex2_pos (by decide +kernel) (vars := [("on", .one), ("ac", .one), ("on", .two), ("ac", .two)]) (by decide +kernel) (by decide +kernel) (by decide +kernel) (fun v w => v % (w + 2)) (n := 2) (m := 3) (by omega) (by omega)
  obtain ⟨out', -, h'⟩ := lineRun_exists ex2_ok rfl rfl ex2_pos (by decide +kernel) (vars := [("on", .one), ("ac", .one), ("on", .two), ("ac", .two)]) (by decide +kernel) (by decide +kernel) (by decide +kernel) (fun v w => if ex2On v = ex2On w then 0 else 1)
    (n := 3) (m := 7) (by omega) (by omega)
  refine ⟨out, out', hne, h, h', (C120_better_partial h h' rfl rfl rfl rfl rfl rfl ?_).1⟩
  rintro u ⟨rA, rB, rX, i1, i2, i3, -, -, hl, -⟩ w w' ⟨-, -, -, d1, d2, -, -, -, -, -, rfl⟩ ⟨fA, fB, fX, d, d', j1, j2, j3, j4, j5, rfl⟩
  have key : ∀ i < 9, ∀ j < 9, ((ex2.db.map (·.2))[i]?.map (· ex2.on) = (ex2.db.map (·.2))[j]?.map (· ex2.on)) ↔ ex2On i = ex2On j := by decide +kernel
  unfold legal at hl
  simp only [Bool.and_eq_true, beq_iff_eq, bne_iff_ne] at hl
  obtain ⟨⟨⟨l1, l2⟩, -⟩, -⟩ := hl
  obtain ⟨rfl, b1⟩ := ex2_line j1
  obtain ⟨rfl, b2⟩ := ex2_line j2
  obtain ⟨rfl, b3⟩ := ex2_line j3
  have k1 := key _ b1 _ b3
  have k2 := key _ b2 _ b3
  rw [i1, i3] at k1
  rw [i2, i3] at k2
  simp only [Option.map_some, Option.some.injEq] at k1 k2
  cases j4
  cases j5
  rw [if_pos (k1.mp l1), if_neg (fun h => l2 ((k2.mpr h).trans l1.symm))]
  simp only [show decide ((0 : Nat) < 1) = true from rfl, if_true]
  split_ifs <;> decide

end ABX.Pipeline

#print axioms ABX.Pipeline.C120_better_partial
