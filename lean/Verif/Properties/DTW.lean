import Verif.Proofs.DTW2
import Verif.Proofs.F64
import Mathlib.Algebra.Order.Group.Defs
import Mathlib.Algebra.BigOperators.Group.List.Basic
import Mathlib.Tactic.NormNum
/-!
Properties C28 to C31: dynamic time warping.  The theorems are for every addition which is monotone, thus for exact numbers and for float64 (`fadd`).
Specification: `Spec.Warping` (monotone paths from the first to the last pair of frames) and `Spec.pathCost` (the costs of the cells of a path, added from the first to the last).
-/
namespace ABX.DTW
variable {α : Type} [LinearOrder α]

/-- C28: without normalization the result is the least cost of a warping path, and some path has that cost. -/
theorem C28_optimal {add : α → α → α} (hm : ∀ d x y, x ≤ y → add d x ≤ add d y) (div : α → Nat → α) (junk D : Nat → Nat → α) {N M : Nat} (hN : 0 < N) (hM : 0 < M) :
    ∃ v, dtw add div junk D N M false = .ok v ∧ (∃ p, Spec.Warping N M p ∧ Spec.pathCost add D p = some v) ∧
      ∀ p w, Spec.Warping N M p → Spec.pathCost add D p = some w → v ≤ w := by
  refine ⟨best add D (N - 1) (M - 1), ?_, ?_, ?_⟩
  · unfold dtw dtwCore
    rw [if_neg (by omega)]
    simp only [Bool.false_eq_true, if_false]
    rw [costs_ok add junk D (by omega) (by omega)]
  · obtain ⟨p, hp⟩ := best_attained add D _ (N - 1) (M - 1) rfl
    obtain ⟨h1, h2, h3, h4⟩ := of_to hp
    exact ⟨p.reverse, ⟨h1, h2, h3⟩, h4⟩
  · intro p w hp hw
    exact best_le hm (to_of p _ _ _ hp.first hp.last hp.steps hw)

/-- every warping path has a cost; with an exact addition it is the sum of the costs of its cells -/
theorem C28_sum {β : Type} [AddCommMonoid β] [LinearOrder β] (D : Nat → Nat → β) {N M : Nat} {p : List (Nat × Nat)} (h : Spec.Warping N M p) :
    Spec.pathCost (· + ·) D p = some ((p.map (fun c => D c.1 c.2)).sum) := by
  cases p with
  | nil => cases h.first
  | cons c p =>
    have key : ∀ (l : List (Nat × Nat)) (x : β), l.foldl (fun acc q => D q.1 q.2 + acc) x = x + (l.map (fun c => D c.1 c.2)).sum := by
      intro l
      induction l with
      | nil => intro x; simp
      | cons d l ih => intro x; rw [List.foldl_cons, ih, List.map_cons, List.sum_cons, add_comm (D d.1 d.2) x, add_assoc]
    show some (p.foldl (fun acc q => D q.1 q.2 + acc) (D c.1 c.2)) = _
    rw [key, List.map_cons, List.sum_cons]

/-- the result does not depend on the initial content of the table (`np.empty`) -/
theorem C28_junk (add : α → α → α) (div : α → Nat → α) (junk junk' D : Nat → Nat → α) (N M : Nat) : dtw add div junk D N M false = dtw add div junk' D N M false := by
  unfold dtw dtwCore
  split
  · rfl
  · simp only [Bool.false_eq_true, if_false]
    rw [costs_ok add junk D (by omega) (by omega), costs_ok add junk' D (by omega) (by omega)]

/-- the length of a warping path -/
theorem warping_length {N M : Nat} (hN : 0 < N) (hM : 0 < M) {p : List (Nat × Nat)} (h : Spec.Warping N M p) : max N M ≤ p.length ∧ p.length ≤ N + M - 1 := by
  have hc : ∃ x, Spec.pathCost (fun (a b : Nat) => a + b) (fun _ _ => 0) p = some x := by
    cases p with
    | nil => cases h.first
    | cons c p => exact ⟨_, rfl⟩
  obtain ⟨x, hx⟩ := hc
  have := to_length (to_of p _ _ _ h.first h.last h.steps hx)
  rw [List.length_reverse] at this
  omega

/-- C29: with normalization the result is the optimal cost divided by the number of cells of a warping path which has that cost; every such number is between
max(N, M) and N + M - 1. -/
theorem C29_normalized {add : α → α → α} (hm : ∀ d x y, x ≤ y → add d x ≤ add d y) (div : α → Nat → α) (junk D : Nat → Nat → α) {N M : Nat} (hN : 0 < N) (hM : 0 < M) :
    ∃ v p, dtw add div junk D N M true = .ok (div v p.length) ∧ Spec.Warping N M p ∧ Spec.pathCost add D p = some v ∧
      (∀ q w, Spec.Warping N M q → Spec.pathCost add D q = some w → v ≤ w) ∧ max N M ≤ p.length ∧ p.length ≤ N + M - 1 := by
  obtain ⟨p, p1, p2⟩ := back_ok add D (costs add junk D N M) (N + M) (N - 1) (M - 1) 1 (by omega)
    (fun i hi j hj => costs_ok add junk D (by omega) (by omega))
  obtain ⟨h1, h2, h3, h4⟩ := of_to p2
  have hW : Spec.Warping N M p.reverse := ⟨h1, h2, h3⟩
  have hl := warping_length hN hM hW
  refine ⟨_, p.reverse, ?_, hW, h4, ?_, hl⟩
  · unfold dtw dtwCore
    rw [if_neg (by omega)]
    simp only [if_true]
    rw [p1]
    dsimp only
    rw [costs_ok add junk D (by omega) (by omega), List.length_reverse, Nat.add_sub_cancel_left]
  · intro q w hq hw
    exact best_le hm (to_of q _ _ _ hq.first hq.last hq.steps hw)

/-! ### C30 -/

theorem best_transpose (add : α → α → α) (D : Nat → Nat → α) : ∀ (n i j : Nat), i + j = n → best add (fun a b => D b a) j i = best add D i j := by
  intro n
  induction n using Nat.strong_induction_on with
  | _ n ih =>
    intro i j hn
    match i, j, hn with
    | 0, 0, _ => rw [best, best]
    | i + 1, 0, hn => rw [best, best, ih (i + 0) (by omega) i 0 rfl]
    | 0, j + 1, hn => rw [best, best, ih (0 + j) (by omega) 0 j rfl]
    | i + 1, j + 1, hn =>
      rw [best, best, ih _ (by omega) i (j + 1) rfl, ih _ (by omega) i j rfl, ih _ (by omega) (i + 1) j rfl]
      congr 1
      rw [min_assoc, min_comm]
      congr 1
      rw [min_comm]

/-- C30 without normalization: exchanging the items does not change the result, whatever the addition. -/
theorem C30_symmetric (add : α → α → α) (div : α → Nat → α) (junk junk' D : Nat → Nat → α) (N M : Nat) :
    dtw add div junk D N M false = dtw add div junk' (fun i j => D j i) M N false := by
  unfold dtw dtwCore
  by_cases hz : N = 0 ∨ M = 0
  · rw [if_pos hz, if_pos hz.symm]
  · rw [if_neg hz, if_neg (show ¬ (M = 0 ∨ N = 0) from fun h => hz h.symm)]
    simp only [Bool.false_eq_true, if_false]
    rw [costs_ok add junk D (by omega) (by omega), costs_ok add junk' _ (by omega) (by omega), best_transpose add D _ _ _ rfl]

/-- `Spec.Tie D N M`: some cell can be reached at the same least cost from the left and from above, and at a larger cost diagonally.  `least i j` is the least cost of a path to a cell. -/
def Spec.Tie (least : Nat → Nat → α) (N M : Nat) : Prop := ∃ i j, i + 1 < N ∧ j + 1 < M ∧ least (i + 1) j = least i (j + 1) ∧ least (i + 1) j < least i j

theorem back_transpose {c : Nat → Nat → α} {N M : Nat} (ht : ¬ Spec.Tie c N M) : ∀ (fuel i j n : Nat), i < N → j < M → back (fun a b => c b a) fuel j i n = back c fuel i j n := by
  intro fuel
  induction fuel with
  | zero =>
    intro i j n hi hj
    unfold back
    by_cases hij : 0 < i ∧ 0 < j
    · rw [if_pos hij, if_pos hij.symm]
    · rw [if_neg hij, if_neg (fun h => hij h.symm), Nat.add_right_comm]
  | succ fuel ih =>
    intro i j n hi hj
    unfold back
    by_cases hij : 0 < i ∧ 0 < j
    · rw [if_pos hij, if_pos hij.symm]
      obtain ⟨i, rfl⟩ : ∃ k, i = k + 1 := ⟨i - 1, by omega⟩
      obtain ⟨j, rfl⟩ : ∃ k, j = k + 1 := ⟨j - 1, by omega⟩
      dsimp only
      simp only [Nat.add_sub_cancel]
      rw [ih i j _ (by omega) (by omega), ih i (j + 1) _ (by omega) hj, ih (i + 1) j _ hi (by omega)]
      by_cases hnd : c i j ≤ c (i + 1) j ∧ c i j ≤ c i (j + 1)
      · rw [if_pos hnd, if_pos hnd.symm]
      · rw [if_neg hnd, if_neg (fun h => hnd h.symm)]
        rcases lt_trichotomy (c (i + 1) j) (c i (j + 1)) with h | h | h
        · rw [if_neg (not_le.mpr h), if_pos h.le]
        · exfalso
          apply ht
          refine ⟨i, j, hi, hj, h, ?_⟩
          by_contra hlt
          rw [not_lt] at hlt
          exact hnd ⟨hlt, h ▸ hlt⟩
        · rw [if_pos h.le, if_neg (not_le.mpr h)]
    · rw [if_neg hij, if_neg (fun h => hij h.symm), Nat.add_right_comm]

/-- a function giving the least costs of the paths to the cells -/
def Spec.Least (add : α → α → α) (D : Nat → Nat → α) (N M : Nat) (least : Nat → Nat → α) : Prop :=
  ∀ i j, i < N → j < M → (∃ p, Spec.Warping (i + 1) (j + 1) p ∧ Spec.pathCost add D p = some (least i j)) ∧
    ∀ p w, Spec.Warping (i + 1) (j + 1) p → Spec.pathCost add D p = some w → least i j ≤ w

theorem least_eq {add : α → α → α} (hm : MonoAcc add) {D : Nat → Nat → α} {N M : Nat} {least : Nat → Nat → α} (h : Spec.Least add D N M least) {i j : Nat} (hi : i < N) (hj : j < M) :
    least i j = best add D i j := by
  obtain ⟨⟨p, hp, hc⟩, h2⟩ := h i j hi hj
  apply le_antisymm
  · obtain ⟨q, hq⟩ := best_attained add D _ i j rfl
    obtain ⟨q1, q2, q3, q4⟩ := of_to hq
    exact h2 _ _ ⟨q1, q2, q3⟩ q4
  · exact best_le hm (to_of p _ _ _ hp.first hp.last hp.steps hc)

theorem back_congr {c c' : Nat → Nat → α} {N M : Nat} (h : ∀ i j, i < N → j < M → c i j = c' i j) : ∀ (fuel i j n : Nat), i < N → j < M → back c fuel i j n = back c' fuel i j n := by
  intro fuel
  induction fuel with
  | zero => intro i j n _ _; unfold back; rfl
  | succ fuel ih =>
    intro i j n hi hj
    unfold back
    dsimp only
    rw [h (i - 1) j (by omega) hj, h i (j - 1) hi (by omega), h (i - 1) (j - 1) (by omega) (by omega), ih (i - 1) (j - 1) _ (by omega) (by omega), ih i (j - 1) _ hi (by omega),
      ih (i - 1) j _ (by omega) hj]

/-- C30 with normalization, what holds: the result is symmetric unless there is a tie between the left and the upper cell. -/
theorem C30_normalized_partial {add : α → α → α} (hm : ∀ d x y, x ≤ y → add d x ≤ add d y) (div : α → Nat → α) (junk junk' D : Nat → Nat → α) {N M : Nat} {least : Nat → Nat → α} (hl : Spec.Least add D N M least)
    (ht : ¬ Spec.Tie least N M) : dtw add div junk D N M true = dtw add div junk' (fun i j => D j i) M N true := by
  unfold dtw dtwCore
  by_cases hz : N = 0 ∨ M = 0
  · rw [if_pos hz, if_pos hz.symm]
  rw [if_neg hz, if_neg (show ¬ (M = 0 ∨ N = 0) from fun h => hz h.symm)]
  simp only [if_true]
  have e1 : ∀ i j, i < N → j < M → costs add junk D N M i j = least i j := fun i j hi hj => (costs_ok add junk D hi hj).trans (least_eq hm hl hi hj).symm
  have e2 : ∀ j i, j < M → i < N → costs add junk' (fun i j => D j i) M N j i = least i j := fun j i hj hi =>
    (costs_ok add junk' _ hj hi).trans ((best_transpose add D _ i j rfl).trans (least_eq hm hl hi hj).symm)
  rw [back_congr e1 _ _ _ _ (by omega) (by omega), back_congr (c' := fun a b => least b a) e2 _ _ _ _ (by omega) (by omega), back_transpose ht _ _ _ _ (by omega) (by omega),
    e1 _ _ (by omega) (by omega), e2 _ _ (by omega) (by omega), Nat.add_comm M N]

/-- three frames and four frames -/
def D34 : Nat → Nat → ℚ := fun i j => if i = 0 ∧ j = 0 ∨ i = 1 ∧ j = 2 then 1 else 0

theorem d34_a : dtw (· + ·) (fun x n => x / (n : ℚ)) (fun _ _ => 0) D34 3 4 true = .ok (1 / 4) := by decide +kernel
theorem d34_b : dtw (· + ·) (fun x n => x / (n : ℚ)) (fun _ _ => 0) (fun i j => D34 j i) 4 3 true = .ok (1 / 5) := by decide +kernel

/-- C30 with normalization is false: for the costs `D34` the distance is 1/4, and 1/5 when the items are exchanged (a tie between left and up is broken in favour of left). -/
theorem C30_violated : dtw (· + ·) (fun x n => x / (n : ℚ)) (fun _ _ => 0) D34 3 4 true ≠ dtw (· + ·) (fun x n => x / (n : ℚ)) (fun _ _ => 0) (fun i j => D34 j i) 4 3 true := by
  rw [d34_a, d34_b]
  intro h
  injection h with h
  norm_num at h

/-! ### C31 -/

theorem best_nonneg {add : α → α → α} {zero : α} (h0 : ∀ x y, zero ≤ x → zero ≤ y → zero ≤ add x y) {D : Nat → Nat → α} (hD : ∀ i j, zero ≤ D i j) :
    ∀ (n i j : Nat), i + j = n → zero ≤ best add D i j := by
  intro n i j hn
  clear hn
  obtain ⟨p, hp⟩ := best_attained add D _ i j rfl
  generalize best add D i j = x at hp
  induction hp with
  | base => exact hD 0 0
  | step h hs ih => exact h0 _ _ (hD _ _) ih

/-- C31, sign: if the costs are not negative, the distance is not negative. -/
theorem C31_nonneg {add : α → α → α} {div : α → Nat → α} {zero : α} (h0 : ∀ x y, zero ≤ x → zero ≤ y → zero ≤ add x y) (hd : ∀ x (n : Nat), 0 < n → zero ≤ x → zero ≤ div x n) (junk : Nat → Nat → α)
    {D : Nat → Nat → α} (hD : ∀ i j, zero ≤ D i j) {N M : Nat} {normalized : Bool} {v : α} (h : dtw add div junk D N M normalized = .ok v) : zero ≤ v := by
  unfold dtw at h
  split at h
  · cases h
  rename_i hz
  have hb := best_nonneg h0 hD _ (N - 1) (M - 1) rfl
  unfold dtwCore at h
  dsimp only at h
  rw [costs_ok add junk D (by omega) (by omega)] at h
  split at h
  · obtain ⟨p, p1, p2⟩ := back_ok add D (costs add junk D N M) (N + M) (N - 1) (M - 1) 1 (by omega) (fun i hi j hj => costs_ok add junk D (by omega) (by omega))
    rw [p1] at h
    cases h
    have := (to_length p2).1
    exact hd _ _ (by omega) hb
  · cases h
    exact hb

/-- C31, identical items: if the costs are not negative and vanish on the diagonal, the distance of two items with the same number of frames is 0. -/
theorem C31_zero {add : α → α → α} (hm : ∀ d x y, x ≤ y → add d x ≤ add d y) {div : α → Nat → α} {zero : α} (h0 : ∀ x y, zero ≤ x → zero ≤ y → zero ≤ add x y) (hz : add zero zero = zero)
    (hd : ∀ n : Nat, 0 < n → div zero n = zero) (junk : Nat → Nat → α) {D : Nat → Nat → α} (hD : ∀ i j, zero ≤ D i j) (hdiag : ∀ i, D i i = zero) {N : Nat} (hN : 0 < N) (normalized : Bool) :
    dtw add div junk D N N normalized = .ok zero := by
  have hb : ∀ i, best add D i i = zero := by
    intro i
    apply le_antisymm _ (best_nonneg h0 hD _ i i rfl)
    induction i with
    | zero => rw [best, hdiag]
    | succ i ih =>
      refine (best_le_step hm D (i := i) (j := i) (.inr (.inr rfl))).trans ?_
      rw [hdiag]
      exact (hm _ _ _ ih).trans hz.le
  unfold dtw dtwCore
  rw [if_neg (by omega)]
  dsimp only
  rw [costs_ok add junk D (by omega) (by omega), hb]
  split
  · obtain ⟨p, p1, p2⟩ := back_ok add D (costs add junk D N N) (N + N) (N - 1) (N - 1) 1 (by omega) (fun i hi j hj => costs_ok add junk D (by omega) (by omega))
    rw [p1]
    dsimp only
    rw [hd]
    have := (to_length p2).1
    omega
  · rfl

/-- C31, monotone: larger costs give a larger distance (without normalization). -/
theorem C31_monotone {add : α → α → α} (hm : ∀ d e x y, d ≤ e → x ≤ y → add d x ≤ add e y) (div : α → Nat → α) (junk junk' : Nat → Nat → α) {D E : Nat → Nat → α} (h : ∀ i j, D i j ≤ E i j) {N M : Nat} {v w : α}
    (hv : dtw add div junk D N M false = .ok v) (hw : dtw add div junk' E N M false = .ok w) : v ≤ w := by
  have hm' : MonoAcc add := fun d x y hxy => hm d d x y le_rfl hxy
  unfold dtw dtwCore at hv hw
  split at hv
  · cases hv
  rename_i hz
  rw [if_neg hz] at hw
  simp only [Bool.false_eq_true, if_false] at hv hw
  rw [costs_ok _ _ _ (by omega) (by omega)] at hv hw
  cases hv
  cases hw
  obtain ⟨p, hp⟩ := best_attained add E _ (N - 1) (M - 1) rfl
  generalize best add E (N - 1) (M - 1) = x at hp
  generalize N - 1 = i at hp ⊢
  generalize M - 1 = j at hp ⊢
  induction hp with
  | base => rw [best]; exact h 0 0
  | step ht hs ih => exact (best_le_step hm' D hs).trans (hm _ _ _ _ (h _ _) ih)

/-- three frames: cost 1 in the last cell, and (`E33`) in the middle cell -/
def D33 : Nat → Nat → ℚ := fun i j => if i = 2 ∧ j = 2 then 1 else 0
def E33 : Nat → Nat → ℚ := fun i j => if i = 2 ∧ j = 2 ∨ i = 1 ∧ j = 1 then 1 else 0

theorem d33 : dtw (· + ·) (fun x n => x / (n : ℚ)) (fun _ _ => 0) D33 3 3 true = .ok (1 / 3) := by decide +kernel
theorem e33 : dtw (· + ·) (fun x n => x / (n : ℚ)) (fun _ _ => 0) E33 3 3 true = .ok (1 / 4) := by decide +kernel

/-- C31, with normalization the distance is not monotone: the larger costs `E33` give a smaller distance, because the best path becomes longer. -/
theorem C31_violated_normalized : (∀ i j, D33 i j ≤ E33 i j) ∧ dtw (· + ·) (fun x n => x / (n : ℚ)) (fun _ _ => 0) D33 3 3 true = .ok (1 / 3) ∧
    dtw (· + ·) (fun x n => x / (n : ℚ)) (fun _ _ => 0) E33 3 3 true = .ok (1 / 4) := by
  refine ⟨?_, d33, e33⟩
  intro i j
  unfold D33 E33
  split
  · rename_i h; rw [if_pos (.inl h)]
  · split <;> norm_num

/-- C31, empty items: `dtw` raises a ValueError exactly when an item is empty; the default distance is 0 for two empty items, infinite for one, and that of `dtw` otherwise. -/
theorem C31_empty (add : α → α → α) (div : α → Nat → α) (zero : α) (junk D : Nat → Nat → α) (N M : Nat) (normalized : Bool) :
    (dtw add div junk D N M normalized = .error .valueError ↔ N = 0 ∨ M = 0) ∧ (N = 0 → M = 0 → defaultDistance add div zero junk D N M normalized = .ok (zero : WithTop α)) ∧
      (N = 0 → 0 < M → defaultDistance add div zero junk D N M normalized = .ok ⊤) ∧ (0 < N → M = 0 → defaultDistance add div zero junk D N M normalized = .ok ⊤) ∧
      (0 < N → 0 < M → ∃ v : α, dtw add div junk D N M normalized = .ok v ∧ defaultDistance add div zero junk D N M normalized = .ok (v : WithTop α)) := by
  have hok : 0 < N → 0 < M → ∃ v : α, dtw add div junk D N M normalized = .ok v := by
    intro hN hM
    unfold dtw dtwCore
    rw [if_neg (by omega)]
    dsimp only
    split
    · obtain ⟨p, p1, p2⟩ := back_ok add D (costs add junk D N M) (N + M) (N - 1) (M - 1) 1 (by omega) (fun i hi j hj => costs_ok add junk D (by omega) (by omega))
      rw [p1]
      exact ⟨_, rfl⟩
    · exact ⟨_, rfl⟩
  refine ⟨⟨?_, ?_⟩, ?_, ?_, ?_, ?_⟩
  · intro h
    by_contra hz
    obtain ⟨v, hv⟩ := hok (by omega) (by omega)
    rw [hv] at h
    cases h
  · intro h; unfold dtw; rw [if_pos h]
  · intro h1 h2; unfold defaultDistance; rw [if_neg (by omega), if_pos (by omega)]
  · intro h1 h2; unfold defaultDistance; rw [if_neg (by omega), if_neg (by omega)]
  · intro h1 h2; unfold defaultDistance; rw [if_neg (by omega), if_neg (by omega)]
  · intro h1 h2
    obtain ⟨v, hv⟩ := hok h1 h2
    refine ⟨v, hv, ?_⟩
    unfold defaultDistance
    rw [if_pos ⟨h1, h2⟩, hv]
    rfl

/-! ### float64, and examples -/

/-- addition of float64 numbers -/
def fadd (x y : ℚ) : ℚ := F64.rnd (x + y)

/-- division of a float64 number by an integer -/
def fdiv (x : ℚ) (n : Nat) : ℚ := F64.rnd (x / n)

/-- the hypotheses of the theorems hold for float64 -/
theorem fadd_mono (d e x y : ℚ) (h : d ≤ e) (h' : x ≤ y) : fadd d x ≤ fadd e y := F64.rnd_mono (by linarith)
theorem fadd_nonneg (x y : ℚ) (h : 0 ≤ x) (h' : 0 ≤ y) : 0 ≤ fadd x y := F64.rnd_nonneg (by linarith)
theorem fadd_zero : fadd 0 0 = 0 := by unfold fadd; rw [add_zero, F64.rnd_zero]
theorem fdiv_nonneg (x : ℚ) (n : Nat) (h : 0 ≤ x) : 0 ≤ fdiv x n := F64.rnd_nonneg (by positivity)
theorem fdiv_zero (n : Nat) : fdiv 0 n = 0 := by unfold fdiv; rw [zero_div, F64.rnd_zero]

/-- C28 in float64: the result is the least float64 cost of a path -/
theorem C28_float (junk D : Nat → Nat → ℚ) {N M : Nat} (hN : 0 < N) (hM : 0 < M) :
    ∃ v, dtw fadd fdiv junk D N M false = .ok v ∧ (∃ p, Spec.Warping N M p ∧ Spec.pathCost fadd D p = some v) ∧ ∀ p w, Spec.Warping N M p → Spec.pathCost fadd D p = some w → v ≤ w :=
  C28_optimal (fun d x y h => fadd_mono d d x y le_rfl h) fdiv junk D hN hM

/-- C31 in float64 -/
theorem C31_float (junk : Nat → Nat → ℚ) {D : Nat → Nat → ℚ} (hD : ∀ i j, 0 ≤ D i j) (normalized : Bool) :
    (∀ (N M : Nat) v, dtw fadd fdiv junk D N M normalized = .ok v → 0 ≤ v) ∧ ((∀ i, D i i = 0) → ∀ N : Nat, 0 < N → dtw fadd fdiv junk D N N normalized = .ok 0) :=
  ⟨fun _ _ _ h => C31_nonneg fadd_nonneg (fun x n _ h => fdiv_nonneg x n h) junk hD h,
    fun hdiag _ hN => C31_zero (fun d x y h => fadd_mono d d x y le_rfl h) fadd_nonneg fadd_zero (fun n _ => fdiv_zero n) junk hD hdiag hN normalized⟩

/-- two items with two and three frames -/
def D23 : Nat → Nat → ℚ := fun i j => (i + 2 * j - i * j : ℚ)

/-- C28, C29, example: the cost 3 of the path (0,0), (1,1), (1,2), thus 3 cells, 0 + 2 + 3 = 5, and 5 / 3 -/
example : dtw (· + ·) (fun x n => x / (n : ℚ)) (fun _ _ => 7) D23 2 3 false = .ok 5 ∧ dtw (· + ·) (fun x n => x / (n : ℚ)) (fun _ _ => 7) D23 2 3 true = .ok (5 / 3) ∧
    Spec.Warping 2 3 [(0, 0), (1, 1), (1, 2)] ∧ Spec.pathCost (· + ·) D23 [(0, 0), (1, 1), (1, 2)] = some 5 := by
  refine ⟨by decide +kernel, by decide +kernel, ⟨rfl, rfl, ?_⟩, by decide +kernel⟩
  simp [Spec.step]

/-- C30, example without tie: the distances 5 / 3 agree -/
example : dtw (· + ·) (fun x n => x / (n : ℚ)) (fun _ _ => 7) (fun i j => D23 j i) 3 2 true = .ok (5 / 3) := by decide +kernel

#print axioms C28_optimal
#print axioms C28_sum
#print axioms C28_junk
#print axioms C28_float
#print axioms C29_normalized
#print axioms C30_symmetric
#print axioms C30_normalized_partial
#print axioms C30_violated
#print axioms C31_nonneg
#print axioms C31_zero
#print axioms C31_monotone
#print axioms C31_violated_normalized
#print axioms C31_empty
#print axioms C31_float

end ABX.DTW
