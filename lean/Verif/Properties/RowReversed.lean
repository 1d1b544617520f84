import Verif.Properties.RowBetter
import Verif.Properties.RowColumns
/-!
C122: similarities instead of distances.
-/
namespace ABX.Pipeline
open ExtSort ABX.Task Pairs SideOps Sampler Distances Score EndToEnd Analyze F64 ABX.Spec
variable {ρ φ φ' δ δ' : Type}

/-- the total score of triplets that score the opposite one by one -/
theorem total_neg {lt : δ → δ → Bool} {lt' : δ' → δ' → Bool} {dist : ρ → ρ → Except Err δ} {dist' : ρ → ρ → Except Err δ'} {recs recs' : List ρ} {U U' : List ((Nat × Nat × Nat) × Int)} (hn : (U.map (·.1)).Nodup) (hn' : (U'.map (·.1)).Nodup)
    (hm : ∀ u, u ∈ U'.map (·.1) ↔ u ∈ U.map (·.1)) (hs : ∀ q ∈ U, IsLineScore lt dist recs q.1 q.2) (hs' : ∀ q ∈ U', IsLineScore lt' dist' recs' q.1 q.2)
    (h : ∀ u ∈ U.map (·.1), ∀ w w', IsLineScore lt dist recs u w → IsLineScore lt' dist' recs' u w' → w' = -w) : U'.length = U.length ∧ (U'.map (·.2)).sum = -(U.map (·.2)).sum := by
  classical
  have hp : (U'.map (·.1)).Perm (U.map (·.1)) := (List.perm_ext_iff_of_nodup hn' hn).mpr hm
  have sc : ∀ u, ∃ w : Int, ∀ q ∈ U, q.1 = u → q.2 = w := by
    intro u
    by_cases hu : ∃ q ∈ U, q.1 = u
    · obtain ⟨q, hq, rfl⟩ := hu
      exact ⟨q.2, fun r hr e => (hs r hr).unique (e ▸ hs q hq)⟩
    · exact ⟨0, fun q hq e => absurd ⟨q, hq, e⟩ hu⟩
  have sc' : ∀ u, ∃ w : Int, ∀ q ∈ U', q.1 = u → q.2 = w := by
    intro u
    by_cases hu : ∃ q ∈ U', q.1 = u
    · obtain ⟨q, hq, rfl⟩ := hu
      exact ⟨q.2, fun r hr e => (hs' r hr).unique (e ▸ hs' q hq)⟩
    · exact ⟨0, fun q hq e => absurd ⟨q, hq, e⟩ hu⟩
  choose g hg using sc
  choose g' hg' using sc'
  have e1 : U.map (·.2) = (U.map (·.1)).map g := by
    rw [List.map_map]
    exact List.map_congr_left fun q hq => hg q.1 q hq rfl
  have e2 : U'.map (·.2) = (U'.map (·.1)).map g' := by
    rw [List.map_map]
    exact List.map_congr_left fun q hq => hg' q.1 q hq rfl
  refine ⟨by simpa using hp.length_eq, ?_⟩
  rw [e1, e2, (hp.map g').sum_eq]
  have key : (U.map (·.1)).map g' = (U.map (·.1)).map (fun u => -g u) := by
    refine List.map_congr_left fun u hu => ?_
    obtain ⟨q, hq, rfl⟩ := List.mem_map.mp hu
    obtain ⟨q', hq', e⟩ := List.mem_map.mp ((hm q.1).mpr hu)
    rw [← hg q.1 q hq rfl, ← hg' q.1 q' hq' e]
    exact h q.1 hu _ _ (hs q hq) (e ▸ hs' q' hq')
  rw [key]
  generalize U.map (·.1) = l
  induction l with
  | nil => rfl
  | cons x l ih => simp only [List.map_cons, List.sum_cons, ih]; ring

/-- the total score of triplets is at most their number -/
theorem total_abs {lt : δ → δ → Bool} {dist : ρ → ρ → Except Err δ} {recs : List ρ} : ∀ {U : List ((Nat × Nat × Nat) × Int)}, (∀ q ∈ U, IsLineScore lt dist recs q.1 q.2) → |(U.map (·.2)).sum| ≤ (U.length : Int)
  | [], _ => by simp
  | q :: U, h => by
    have ih := total_abs (fun r hr => h r (List.mem_cons_of_mem _ hr))
    have hq : |q.2| ≤ 1 := by
      obtain ⟨_, _, _, d, d', -, -, -, -, -, e⟩ := h q List.mem_cons_self
      rw [e]
      split_ifs <;> simp
    simp only [List.map_cons, List.sum_cons, List.length_cons]
    have := abs_add_le q.2 (U.map (·.2)).sum
    push_cast
    linarith

/-- the rounded scores of a mean and of the opposite mean -/
theorem score_neg {q : ℚ} (hq : |q| ≤ 1) : |rnd (rnd q + 1) / 2 + rnd (rnd (-q) + 1) / 2 - 1| ≤ 3 * 2 ^ (-53 : ℤ) := by
  have b : ∀ p : ℚ, |p| ≤ 1 → |rnd p - p| ≤ 2 ^ (-53 : ℤ) ∧ |rnd (rnd p + 1) - (rnd p + 1)| ≤ 2 * 2 ^ (-53 : ℤ) := by
    intro p hp
    have pos : (0 : ℚ) < 2 ^ (-53 : ℤ) := by positivity
    have r1 : |rnd p| ≤ 1 := by simpa using rnd_le (k := 0) (by simpa using hp)
    constructor
    · exact (rnd_err p).trans (by nlinarith)
    · have : |rnd p + 1| ≤ 2 := (abs_add_le _ _).trans (by rw [abs_one]; linarith)
      exact (rnd_err _).trans (by nlinarith)
  obtain ⟨a1, a2⟩ := b q hq
  obtain ⟨b1, b2⟩ := b (-q) (by rwa [abs_neg])
  clear b hq
  rw [abs_le] at a1 a2 b1 b2 ⊢
  generalize rnd (rnd q + 1) = x at *
  generalize rnd (rnd (-q) + 1) = y at *
  generalize rnd q = z at *
  generalize rnd (-q) = v at *
  generalize (2 : ℚ) ^ (-53 : ℤ) = t at *
  obtain ⟨a1, a1'⟩ := a1
  obtain ⟨a2, a2'⟩ := a2
  obtain ⟨b1, b1'⟩ := b1
  obtain ⟨b2, b2'⟩ := b2
  constructor <;> linarith

/-- C122: two runs without threshold of the same task on the same table, with other features or distances: if every triplet scores in the second the opposite of its score in the first, then every row of the first has a row of the second with the same
labels (each in its column), the same number of triplets and a score that is 1 minus its score up to 3 * 2 ^ -53, and every row of the second is one of these.  Missing: as in C77; regressors that are not columns. -/
theorem C122_reversed_partial {a a' : Args ρ} {vars vars' : List Var} {getFeat : ρ → Except Err φ} {getFeat' : ρ → Except Err φ'} {distance : φ → φ → Except Err δ} {distance' : φ' → φ' → Except Err δ'} {lt : δ → δ → Bool} {lt' : δ' → δ' → Bool}
    {out out' : List OutRow} (h : LineRun a vars getFeat distance lt out) (h' : LineRun a' vars' getFeat' distance' lt' out') (hv : ∀ v, v ∈ vars ↔ v ∈ vars') (hc : a'.cols = a.cols) (hon : a'.on = a.on) (hac : a'.across = a.across) (hby : a'.by_ = a.by_) (hdb : a'.db = a.db)
    (hfs : a'.filters = a.filters)
    (hsc : ∀ u, LineTriplet a.cols a.on a.across a.by_ a.filters (a.db.map (·.2)) u → ∀ w w', IsLineScore lt (Spec.recDist getFeat distance) a.feat u w → IsLineScore lt' (Spec.recDist getFeat' distance') a'.feat u w' → w' = -w) :
    (∀ o ∈ out, ∃ o' ∈ out', o'.by_ = o.by_ ∧ o.labels = pickLabels vars vars' o'.labels ∧ o'.n = o.n ∧ |o.score + o'.score - 1| ≤ 3 * 2 ^ (-53 : ℤ)) ∧ ∀ o' ∈ out', ∃ o ∈ out, o'.by_ = o.by_ ∧ o.labels = pickLabels vars vars' o'.labels ∧ o'.n = o.n ∧ |o.score + o'.score - 1| ≤ 3 * 2 ^ (-53 : ℤ) := by
  obtain ⟨e, he, h⟩ := h.rows
  obtain ⟨e', he', h'⟩ := h'.rows_order hv
  rw [hc, hon, hac, hby, hfs] at h'
  have key : ∀ {rA rB rX : Row}, rA ∈ a.db.map (·.2) → rB ∈ a.db.map (·.2) → rX ∈ a.db.map (·.2) → ∀ u,
      (RowTriplet a.cols a.on a.across a.by_ a.filters (vars.map (columnReg e' a'.db)) (a'.db.map (·.2)) (combo e' a' vars a.cols a.by_ rA rB rX) u ↔
      RowTriplet a.cols a.on a.across a.by_ a.filters (vars.map (columnReg e a.db)) (a.db.map (·.2)) (combo e a vars a.cols a.by_ rA rB rX) u) := by
    intro rA rB rX hA hB hX u
    rw [rowTriplet_labels he' (by rw [hdb]; exact hA) (by rw [hdb]; exact hB) (by rw [hdb]; exact hX), rowTriplet_labels he hA hB hX, hdb]
  have main : ∀ {rA rB rX : Row}, rA ∈ a.db.map (·.2) → rB ∈ a.db.map (·.2) → rX ∈ a.db.map (·.2) → ∀ {o o' : OutRow},
      IsRow (RowTriplet a.cols a.on a.across a.by_ a.filters (vars.map (columnReg e a.db)) (a.db.map (·.2)) (combo e a vars a.cols a.by_ rA rB rX)) lt (Spec.recDist getFeat distance) a.feat ((vars.map (columnReg e a.db)).map (idxOf e a))
        (combo e a vars a.cols a.by_ rA rB rX) o →
      IsRow (RowTriplet a.cols a.on a.across a.by_ a.filters (vars.map (columnReg e' a'.db)) (a'.db.map (·.2)) (combo e' a' vars a.cols a.by_ rA rB rX)) lt' (Spec.recDist getFeat' distance') a'.feat ((vars.map (columnReg e' a'.db)).map (idxOf e' a'))
        (combo e' a' vars a.cols a.by_ rA rB rX) o' → o'.by_ = o.by_ ∧ o'.labels = o.labels ∧ o'.n = o.n ∧ |o.score + o'.score - 1| ≤ 3 * 2 ^ (-53 : ℤ) := by
    intro rA rB rX hA hB hX o o' g g'
    obtain ⟨b1, l1⟩ := isRow_labels he hA hB hX g
    obtain ⟨b2, l2⟩ := isRow_labels he' (by rw [hdb]; exact hA) (by rw [hdb]; exact hB) (by rw [hdb]; exact hX) g'
    obtain ⟨U, n1, m1, s1, -, -, c1, r1⟩ := g
    obtain ⟨U', n2, m2, s2, -, -, c2, r2⟩ := g'
    obtain ⟨t1, t2⟩ := total_neg n1 n2 (fun u => by rw [m1, m2, key hA hB hX]) s1 s2 (fun u hu => hsc u ((m1 u).mp hu).1)
    have hn : o'.n = o.n := by rw [c1, c2, t1]
    refine ⟨b2.trans b1.symm, l2.trans l1.symm, hn, ?_⟩
    rw [r1, r2, hn]
    have hq : (((U'.map (·.2)).sum : Int) : ℚ) / o.n = -((((U.map (·.2)).sum : Int) : ℚ) / o.n) := by
      rw [t2]
      push_cast
      ring
    rw [hq]
    refine score_neg ?_
    rw [abs_div, Nat.abs_cast]
    refine div_le_one_of_le₀ ?_ (Nat.cast_nonneg _)
    rw [c1]
    exact_mod_cast total_abs s1
  constructor
  · intro o ho
    obtain ⟨u, rA, rB, rX, i1, i2, i3, hu, g⟩ := rowsOf_mem h ho
    have hA := List.mem_of_getElem? i1
    have hB := List.mem_of_getElem? i2
    have hX := List.mem_of_getElem? i3
    obtain ⟨o', ho', g'⟩ := rowsOf_of h' ((key hA hB hX u).mpr hu)
    obtain ⟨p, hp, rfl⟩ := List.mem_map.mp ho'
    obtain ⟨q1, q2, q3⟩ := main hA hB hX g g'
    exact ⟨p, hp, q1, q2.symm, q3⟩
  · intro o' ho'
    obtain ⟨u, rA, rB, rX, i1, i2, i3, hu, g'⟩ := rowsOf_mem h' (List.mem_map_of_mem ho')
    rw [hdb] at i1 i2 i3
    have hA := List.mem_of_getElem? i1
    have hB := List.mem_of_getElem? i2
    have hX := List.mem_of_getElem? i3
    obtain ⟨o, ho, g⟩ := rowsOf_of h ((key hA hB hX u).mp hu)
    obtain ⟨q1, q2, q3⟩ := main hA hB hX g g'
    exact ⟨o, ho, q1, q2.symm, q3⟩

/-! ### example -/

theorem twoRegs_other : (twoRegs ex2 ("ac", .B) ("on", .B)).OK := by
  refine Args.OK.flat rfl (by decide +kernel) (by intro f hf; cases hf) ?_ (by intro f hf; cases hf) ?_ (by decide +kernel) <;> intro f hf <;> rcases List.mem_pair.mp hf with rfl | rfl
  all_goals first
    | decide +kernel
    | (unfold Avail; decide +kernel)

/- the task of `ex2` with two regressors in both orders, with distances d and 100 - d -/
example : ∃ out out', out ≠ [] ∧ LineRun (twoRegs ex2 ("on", .B) ("ac", .B)) [("on", .one), ("ac", .one), ("on", .B), ("ac", .B), ("on", .two), ("ac", .two)] (fun r => .ok r) (fun v w => .ok (v % (w + 2))) (fun x y : Nat => decide (x < y)) out ∧
    LineRun (twoRegs ex2 ("ac", .B) ("on", .B)) [("on", .one), ("ac", .one), ("ac", .B), ("on", .B), ("on", .two), ("ac", .two)] (fun r => .ok r) (fun v w => .ok (100 - v % (w + 2))) (fun x y : Nat => decide (x < y)) out' ∧
    ∀ o ∈ out, ∃ o' ∈ out', o'.by_ = o.by_ ∧ o.labels = pickLabels [("on", .one), ("ac", .one), ("on", .B), ("ac", .B), ("on", .two), ("ac", .two)] [("on", .one), ("ac", .one), ("ac", .B), ("on", .B), ("on", .two), ("ac", .two)] o'.labels ∧ o'.n = o.n ∧ |o.score + o'.score - 1| ≤ 3 * 2 ^ (-53 : ℤ) := by
  obtain ⟨out, hne, h⟩ := twoRegs_run
  obtain ⟨out', -, h'⟩ := lineRun_regs twoRegs_other (by intro f hf; cases hf) (by intro f hf; rcases List.mem_pair.mp hf with rfl | rfl <;> decide +kernel) (by intro f hf; rcases List.mem_pair.mp hf with rfl | rfl <;> decide +kernel)
    (by intro f hf; rcases List.mem_pair.mp hf with rfl | rfl <;> exact ⟨_, rfl⟩) ex2_pos (by decide +kernel) (vars := [("on", .one), ("ac", .one), ("ac", .B), ("on", .B), ("on", .two), ("ac", .two)])
    (by decide +kernel) (by decide +kernel) (by decide +kernel) (fun v w => 100 - v % (w + 2)) (n := 3) (m := 7) (by omega) (by omega)
  refine ⟨out, out', hne, h, h', (C122_reversed_partial h h' (by intro v; simp only [List.mem_cons, List.not_mem_nil, or_false]; tauto) rfl rfl rfl rfl rfl rfl ?_).1⟩
  rintro u - w w' ⟨rA, rB, rX, d1, d2, i1, i2, i3, i4, i5, rfl⟩ ⟨fA, fB, fX, d, d', j1, j2, j3, j4, j5, rfl⟩
  obtain ⟨rfl, b1⟩ := ex2_line i1
  obtain ⟨rfl, b2⟩ := ex2_line i2
  obtain ⟨rfl, b3⟩ := ex2_line i3
  obtain ⟨rfl, -⟩ := ex2_line j1
  obtain ⟨rfl, -⟩ := ex2_line j2
  obtain ⟨rfl, -⟩ := ex2_line j3
  cases i4; cases i5; cases j4; cases j5
  have m1 := Nat.mod_le u.1 (u.2.2 + 2)
  have m2 := Nat.mod_le u.2.1 (u.2.2 + 2)
  simp only [decide_eq_true_eq]
  split_ifs <;> omega

end ABX.Pipeline

#print axioms ABX.Pipeline.C122_reversed_partial
