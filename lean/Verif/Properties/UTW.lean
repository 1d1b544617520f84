import Verif.Proofs.UTW
/-!
Property C47: uniform time warping.

The specification, `Spec.mid` and `Spec.weight`, is at the head of Verif/Proofs/UTW.lean: the middle of frame `j` of the longer item is at `mid`, in frames of the shorter item; frame `i` of the
shorter item has the weight 1 if the middle is inside it, 1/2 if it is on one of its borders.
-/
namespace ABX.UTW
open Finset

/-- C47, exact arithmetic: the distance is the sum over the frames of the longer item of the distances to the frames of the shorter one, with the weights of the specification. -/
theorem C47_utw {φ : Type} (div : φ → φ → ℚ) (x y : List φ) (h1 : 0 < x.length) (h2 : x.length ≤ y.length) :
    utw id div x y = .ok (∑ j : Fin y.length, ∑ i : Fin x.length, Spec.weight (Spec.mid x.length y.length j) i * div x[i] y[j]) := by
  unfold utw
  rw [if_neg (by omega), utw_general id div x y h1 h2]
  · simp only [l2_exact]
  · intro k hk
    rw [l2_exact]
    exact mid_range h1 h2 hk

/-- C47: the weights of a frame of the longer item sum to 1. -/
theorem C47_weights {n1 n2 j : Nat} (h1 : 0 < n1) (h2 : n1 ≤ n2) (hj : j < n2) : ∑ i : Fin n1, Spec.weight (Spec.mid n1 n2 j) i = 1 := by
  obtain ⟨a, b⟩ := mid_range h1 h2 hj
  have := weighted a b (fun _ => 1)
  simp only [mul_one] at this
  rw [this]
  split <;> norm_num

/-- C47: `utw` is the sum over the frames when the lengths are equal; in exact arithmetic and with the rounding of float64. -/
theorem C47_framewise {φ : Type} (div : φ → φ → ℚ) (x y : List φ) (h1 : 0 < x.length) (hl : x.length = y.length) :
    utw id div x y = .ok (∑ j : Fin y.length, div (x[j.val]'(by have := j.isLt; omega)) y[j])
    ∧ (y.length < 2 ^ 50 → utw F64.rnd div x y = .ok (∑ j : Fin y.length, div (x[j.val]'(by have := j.isLt; omega)) y[j])) := by
  unfold utw
  rw [if_neg (by omega), if_neg (by omega)]
  refine ⟨framewise id div x y h1 hl fun k hk => ?_, fun h => framewise F64.rnd div x y h1 hl fun k hk => ?_⟩
  · rw [hl]; exact l2_eq_id (by omega)
  · rw [hl]; exact l2_eq_rnd (by omega) (by omega)

/-- C47: `utw` is symmetric for `div` symmetric; for items of different lengths, for every `div`.  In exact arithmetic and with the rounding of float64. -/
theorem C47_symmetric {φ : Type} (div : φ → φ → ℚ) (x y : List φ) (h : x.length ≠ y.length ∨ ∀ a b, div a b = div b a) :
    utw id div x y = utw id div y x ∧ (y.length < 2 ^ 50 → utw F64.rnd div x y = utw F64.rnd div y x) := by
  rcases Nat.lt_trichotomy x.length y.length with hl | hl | hl
  · unfold utw
    rw [if_neg (by omega), if_pos hl, if_neg (by omega), if_pos hl]
    exact ⟨rfl, fun _ => rfl⟩
  · rcases h with h | h
    · exact absurd hl h
    by_cases h0 : x.length = 0
    · have hx : x = [] := List.length_eq_zero_iff.mp h0
      have hy : y = [] := List.length_eq_zero_iff.mp (by omega)
      rw [hx, hy]
      exact ⟨rfl, fun _ => rfl⟩
    obtain ⟨a, b⟩ := C47_framewise div x y (by omega) hl
    obtain ⟨c, d⟩ := C47_framewise div y x (by omega) hl.symm
    have e : ∑ j : Fin y.length, div (x[j.val]'(by have := j.isLt; omega)) y[j] = ∑ j : Fin x.length, div (y[j.val]'(by have := j.isLt; omega)) x[j] := by
      apply Fintype.sum_equiv (finCongr hl.symm)
      intro j
      rw [h]
      rfl
    refine ⟨by rw [a, c, e], fun hb => by rw [b hb, d (by omega), e]⟩
  · unfold utw
    rw [if_pos hl, if_neg (by omega), if_pos hl, if_neg (by omega)]
    exact ⟨rfl, fun _ => rfl⟩

/-- C47, with the rounding of float64: no index is invalid, and the distance is a sum over the frames of the longer item with weights of total 1. -/
theorem C47_float {φ : Type} (div : φ → φ → ℚ) (x y : List φ) (h1 : 0 < x.length) (h2 : x.length ≤ y.length) (hn : y.length < 2 ^ 49) :
    ∃ w : Nat → Nat → ℚ, utw F64.rnd div x y = .ok (∑ j : Fin y.length, ∑ i : Fin x.length, w i j * div x[i] y[j])
      ∧ (∀ i j, w i j = 0 ∨ w i j = 1 / 2 ∨ w i j = 1) ∧ (∀ j < y.length, ∑ i : Fin x.length, w i j = 1)
      ∧ (x.length * y.length < 2 ^ 49 → ∀ i < x.length, ∀ j < y.length, (∀ k : Nat, Spec.mid x.length y.length j ≠ k) → w i j = Spec.weight (Spec.mid x.length y.length j) i) := by
  refine ⟨fun i j => Spec.weight (l2 F64.rnd x.length y.length j) i, ?_, ?_, ?_, ?_⟩
  · unfold utw
    rw [if_neg (by omega)]
    exact utw_general F64.rnd div x y h1 h2 (fun k hk => float_range h1 h2 hn hk)
  · intro i j
    dsimp only
    unfold Spec.weight
    split
    · right; left; rfl
    · split
      · right; right; rfl
      · left; rfl
  · intro j hj
    obtain ⟨a, b⟩ := float_range h1 h2 hn hj
    have := weighted a b (fun _ => 1)
    simp only [mul_one] at this
    rw [this]
    split <;> norm_num
  · intro hnn i _ j hj hne
    exact weight_same h1 h2 hnn hj hne i

/-- on the border of two frames float64 can leave the border: the middle of frame 12 of 25 is on the border of frames 6 and 7 of 14, and frame 7 gets the weight 1 -/
theorem C47_tie_lost : Spec.mid 14 25 12 = 7 ∧ Spec.weight (Spec.mid 14 25 12) 6 = 1 / 2
    ∧ Spec.weight (l2 F64.rnd 14 25 12) 6 = 0 ∧ Spec.weight (l2 F64.rnd 14 25 12) 7 = 1 := by
  have e : Spec.mid 14 25 12 = 7 := by unfold Spec.mid; norm_num
  have f : l2 F64.rnd 14 25 12 = 7881299347898369 / 1125899906842624 := by decide +kernel
  refine ⟨e, ?_, ?_, ?_⟩
  · rw [e]; unfold Spec.weight; norm_num
  · rw [f]; unfold Spec.weight; norm_num
  · rw [f]; unfold Spec.weight; norm_num

/-- C47: two empty items raise ZeroDivisionError, one empty item raises IndexError. -/
theorem C47_empty {φ : Type} (div : φ → φ → ℚ) (y : List φ) :
    utw id div ([] : List φ) [] = .error .zeroDivision ∧ (0 < y.length → utw id div [] y = .error .indexError) := by
  refine ⟨rfl, fun h => ?_⟩
  obtain ⟨b, y, rfl⟩ : ∃ b y', y = b :: y' := by cases y with
    | nil => simp at h
    | cons b y => exact ⟨b, y, rfl⟩
  unfold utw utwOrdered distanceCoordinates
  rw [if_neg (by simp), if_neg (by simp), if_neg (by simp)]
  dsimp only
  have hz : ∀ k, l2 id ([] : List φ).length (b :: y).length k = 0 := by intro k; unfold l2; simp
  simp only [hz, Int.floor_zero, Int.cast_zero, decide_true, List.filter_true]
  rw [show (b :: y).length = y.length + 1 from rfl, List.range_succ_eq_map]
  rfl

/-! ### concrete cases -/

/-- two frames against three: the middle frame of the three is shared -/
example : utw id (fun a b : ℚ => (a - b) ^ 2) [0, 6] [1, 2, 5] = .ok (1 + (4 / 2 + 16 / 2) + 1) := by decide +kernel

example : utw F64.rnd (fun a b : ℚ => (a - b) ^ 2) [0, 6] [1, 2, 5] = .ok (1 + (4 / 2 + 16 / 2) + 1) := by decide +kernel

example : utw F64.rnd (fun a b : ℚ => (a - b) ^ 2) [1, 2, 5] [0, 6] = .ok (1 + (4 / 2 + 16 / 2) + 1) := by decide +kernel

example : Spec.mid 2 3 1 = 1 := by unfold Spec.mid; norm_num

#print axioms C47_utw
#print axioms C47_weights
#print axioms C47_framewise
#print axioms C47_symmetric
#print axioms C47_float
#print axioms C47_tie_lost
#print axioms C47_empty

end ABX.UTW
