import Verif.Model.UTW
import Verif.Proofs.F64
import Mathlib.Algebra.BigOperators.Fin
import Mathlib.Algebra.BigOperators.Field
import Mathlib.Tactic.Linarith
import Mathlib.Tactic.FieldSimp
import Mathlib.Tactic.Ring
import Mathlib.Tactic.NormNum
import Mathlib.Tactic.Positivity
/-!
Specification of uniform time warping.

The middle of frame `j` of the longer item is at `mid`, in frames of the shorter item; frame `i` of the shorter item has the weight 1 if the middle is inside it, 1/2 if it is
on one of its borders.
-/
namespace ABX.UTW
open Finset

/-- the position of the middle of frame `j` -/
def Spec.mid (n1 n2 j : Nat) : ℚ := n1 * (j + 1 / 2) / n2

/-- the weight of frame `i` for a position `m` -/
def Spec.weight (m : ℚ) (i : Nat) : ℚ := if m = i ∨ m = i + 1 then 1 / 2 else if i < m ∧ m < i + 1 then 1 else 0

theorem sum_range_list (f : Nat → ℚ) (n : Nat) : ((List.range n).map f).sum = ∑ i ∈ range n, f i := by
  induction n with
  | zero => rfl
  | succ n ih => rw [List.range_succ, List.map_append, List.sum_append, ih, Finset.sum_range_succ]; simp

theorem sum_filter_list (p : Nat → Bool) (f : Nat → ℚ) : ∀ l : List Nat, ((l.filter p).map f).sum = (l.map (fun k => if p k then f k else 0)).sum
  | [] => rfl
  | a :: l => by
    rw [List.filter_cons]
    split
    · rename_i h
      rw [List.map_cons, List.sum_cons, sum_filter_list p f l, List.map_cons, List.sum_cons, if_pos h]
    · rename_i h
      rw [sum_filter_list p f l, List.map_cons, List.sum_cons, if_neg h, zero_add]

theorem npGet_ok {φ : Type} (x : List φ) {i : Nat} (h : i < x.length) : npGet x (i : Int) = .ok x[i] := by
  unfold npGet
  dsimp only
  rw [if_neg (by omega), if_neg (by omega), Int.toNat_natCast, List.getElem?_eq_getElem h]

/-- the distance of two frames, by their numbers -/
def dv {φ : Type} (div : φ → φ → ℚ) (x y : List φ) (i : Int) (j : Nat) : ℚ := if h : i.toNat < x.length ∧ j < y.length then div x[i.toNat] y[j] else 0

theorem sumDiv_ok {φ : Type} (div : φ → φ → ℚ) (x y : List φ) (f : Nat → Int) : ∀ (l : List Nat), (∀ k ∈ l, 0 ≤ f k ∧ f k < x.length ∧ k < y.length) →
    sumDiv div x y (l.map f) l = .ok ((l.map (fun k => dv div x y (f k) k)).sum)
  | [], _ => rfl
  | k :: l, h => by
    obtain ⟨h1, h2, h3⟩ := h k (by simp)
    obtain ⟨m, hm⟩ : ∃ m : Nat, f k = m := ⟨(f k).toNat, by omega⟩
    rw [hm] at h2
    have hm' : m < x.length := by omega
    rw [List.map_cons, sumDiv, hm, npGet_ok x hm', npGet_ok y h3, sumDiv_ok div x y f l (fun k hk => h k (by simp [hk]))]
    dsimp only
    congr 1
    rw [List.map_cons, List.sum_cons, hm]
    congr 1
    unfold dv
    rw [dif_pos ⟨hm', h3⟩]
    rfl

theorem sumDiv_append {φ : Type} (div : φ → φ → ℚ) (x y : List φ) : ∀ (is is' : List Int) (js js' : List Nat) (s s' : ℚ), is.length = js.length →
    sumDiv div x y is js = .ok s → sumDiv div x y is' js' = .ok s' → sumDiv div x y (is ++ is') (js ++ js') = .ok (s + s')
  | [], is', [], js', s, s', _, h, h' => by
    rw [sumDiv] at h
    · cases h
      rw [List.nil_append, List.nil_append, zero_add]
      exact h'
    · intro _ _ _ _ h; cases h
  | i :: is, is', j :: js, js', s, s', hl, h, h' => by
    rw [sumDiv] at h
    rw [List.cons_append, List.cons_append, sumDiv]
    split at h
    · rename_i a b ha hb
      split at h
      · rename_i t ht
        cases h
        have := sumDiv_append div x y is is' js js' t s' (by simpa using hl) ht h'
        simp only [this, add_assoc]
      · cases h
    · cases h
    · cases h

/-- the contribution of frame `k` of the longer item -/
def contrib {φ : Type} (r : ℚ → ℚ) (div : φ → φ → ℚ) (x y : List φ) (k : Nat) : ℚ :=
  let m := l2 r x.length y.length k
  if m = (⌊m⌋ : ℚ) then (dv div x y (⌊m⌋ - 1) k + dv div x y ⌊m⌋ k) / 2 else dv div x y ⌊m⌋ k

theorem utwOrdered_ok {φ : Type} (r : ℚ → ℚ) (div : φ → φ → ℚ) (x y : List φ) (h1 : 0 < x.length) (h2 : x.length ≤ y.length)
    (hr : ∀ k < y.length, 0 < l2 r x.length y.length k ∧ l2 r x.length y.length k < x.length) : utwOrdered r div x y = .ok (∑ k ∈ range y.length, contrib r div x y k) := by
  unfold utwOrdered distanceCoordinates
  rw [if_neg (by omega), if_neg (by omega)]
  dsimp only
  have hb : ∀ k < y.length, 0 ≤ ⌊l2 r x.length y.length k⌋ ∧ ⌊l2 r x.length y.length k⌋ < x.length := by
    intro k hk
    obtain ⟨a, b⟩ := hr k hk
    exact ⟨Int.floor_nonneg.mpr a.le, Int.floor_lt.mpr (by exact_mod_cast b)⟩
  have hb' : ∀ k < y.length, l2 r x.length y.length k = (⌊l2 r x.length y.length k⌋ : ℚ) → 1 ≤ ⌊l2 r x.length y.length k⌋ := by
    intro k hk he
    have := (hr k hk).1
    rw [he] at this
    have : (0 : ℤ) < ⌊l2 r x.length y.length k⌋ := by exact_mod_cast this
    omega
  have s1 := sumDiv_ok div x y (fun k => ⌊l2 r x.length y.length k⌋ - 1) ((List.range y.length).filter (fun k => l2 r x.length y.length k = (⌊l2 r x.length y.length k⌋ : ℚ)))
    (by
      intro k hk
      rw [List.mem_filter, List.mem_range, decide_eq_true_eq] at hk
      have := hb k hk.1
      have := hb' k hk.1 hk.2
      exact ⟨by omega, by omega, hk.1⟩)
  have s2 := sumDiv_ok div x y (fun k => ⌊l2 r x.length y.length k⌋) ((List.range y.length).filter (fun k => l2 r x.length y.length k = (⌊l2 r x.length y.length k⌋ : ℚ)))
    (by
      intro k hk
      rw [List.mem_filter, List.mem_range] at hk
      exact ⟨(hb k hk.1).1, (hb k hk.1).2, hk.1⟩)
  have s3 := sumDiv_ok div x y (fun k => ⌊l2 r x.length y.length k⌋) ((List.range y.length).filter (fun k => l2 r x.length y.length k ≠ (⌊l2 r x.length y.length k⌋ : ℚ)))
    (by
      intro k hk
      rw [List.mem_filter, List.mem_range] at hk
      exact ⟨(hb k hk.1).1, (hb k hk.1).2, hk.1⟩)
  rw [sumDiv_append div x y _ _ _ _ _ _ (by simp) s1 s2]
  dsimp only
  rw [s3]
  dsimp only
  congr 1
  rw [sum_filter_list, sum_filter_list, sum_filter_list, sum_range_list, sum_range_list, sum_range_list, ← Finset.sum_add_distrib, Finset.sum_div, ← Finset.sum_add_distrib]
  apply Finset.sum_congr rfl
  intro k _
  unfold contrib
  dsimp only
  by_cases he : l2 r x.length y.length k = (⌊l2 r x.length y.length k⌋ : ℚ)
  · simp only [ne_eq, decide_not, Bool.not_eq_true', decide_eq_true_eq, decide_eq_false_iff_not]
    rw [if_pos he, if_pos he, if_neg (not_not.mpr he), if_pos he, add_zero]
  · simp only [ne_eq, decide_not, Bool.not_eq_true', decide_eq_true_eq, decide_eq_false_iff_not]
    rw [if_neg he, if_neg he, if_pos he, if_neg he]
    ring

theorem weight_int {m i : Nat} (hm : 1 ≤ m) : Spec.weight (m : ℚ) i = if i = m - 1 ∨ i = m then 1 / 2 else 0 := by
  unfold Spec.weight
  by_cases h : i = m - 1 ∨ i = m
  · rw [if_pos h, if_pos]
    rcases h with h | h
    · right
      have : m = i + 1 := by omega
      exact_mod_cast this
    · left
      exact_mod_cast h.symm
  · rw [if_neg h, if_neg, if_neg]
    · rintro ⟨a, b⟩
      have a : i < m := by exact_mod_cast a
      have b : m < i + 1 := by exact_mod_cast b
      omega
    · rintro (a | a)
      · have a : m = i := by exact_mod_cast a
        omega
      · have a : m = i + 1 := by exact_mod_cast a
        omega

theorem weight_other {m : ℚ} {i : Nat} (hm : 0 ≤ m) (he : m ≠ (⌊m⌋ : ℚ)) : Spec.weight m i = if i = ⌊m⌋.toNat then 1 else 0 := by
  have hfl : (0 : ℤ) ≤ ⌊m⌋ := Int.floor_nonneg.mpr hm
  unfold Spec.weight
  rw [if_neg]
  · by_cases h : i = ⌊m⌋.toNat
    · rw [if_pos h, if_pos]
      have : (i : ℤ) = ⌊m⌋ := by omega
      have : (i : ℚ) = (⌊m⌋ : ℚ) := by exact_mod_cast this
      rw [this]
      exact ⟨lt_of_le_of_ne (Int.floor_le m) he.symm, Int.lt_floor_add_one m⟩
    · rw [if_neg h, if_neg]
      rintro ⟨a, b⟩
      apply h
      have : ⌊m⌋ = (i : ℤ) := by
        rw [Int.floor_eq_iff]
        exact ⟨by exact_mod_cast a.le, by exact_mod_cast b⟩
      omega
  · rintro (a | a)
    · apply he
      rw [a, Int.floor_natCast]
      rfl
    · apply he
      rw [a]
      have : ⌊(i : ℚ) + 1⌋ = (i : ℤ) + 1 := by
        rw [show ((i : ℚ) + 1) = ((i + 1 : ℕ) : ℚ) by push_cast; rfl, Int.floor_natCast]
        push_cast
        rfl
      rw [this]
      push_cast
      rfl

/-- the sum over the frames of the shorter item, weighted -/
theorem weighted {n : Nat} {m : ℚ} (h0 : 0 < m) (h1 : m < n) (g : Nat → ℚ) :
    ∑ i : Fin n, Spec.weight m i * g i = if m = (⌊m⌋ : ℚ) then (g (⌊m⌋ - 1).toNat + g ⌊m⌋.toNat) / 2 else g ⌊m⌋.toNat := by
  have hfl : (0 : ℤ) ≤ ⌊m⌋ := Int.floor_nonneg.mpr h0.le
  have hlt : ⌊m⌋ < (n : ℤ) := Int.floor_lt.mpr (by exact_mod_cast h1)
  split
  · rename_i he
    obtain ⟨p, hp⟩ : ∃ p : Nat, ⌊m⌋ = p := ⟨⌊m⌋.toNat, by omega⟩
    rw [hp] at he hlt ⊢
    have hpp : 1 ≤ p := by
      rw [he] at h0
      have : (0 : ℤ) < (p : ℤ) := by exact_mod_cast h0
      omega
    rw [he]
    have e : ∀ i : Fin n, Spec.weight (((p : ℤ) : ℚ)) i * g i = (if (i : Nat) = p - 1 ∨ (i : Nat) = p then 1 / 2 else 0) * g i := by
      intro i
      rw [show (((p : ℤ)) : ℚ) = (p : ℚ) by push_cast; rfl, weight_int hpp]
    rw [Finset.sum_congr rfl (fun i _ => e i), Fintype.sum_eq_add (⟨p - 1, by omega⟩ : Fin n) ⟨p, by omega⟩]
    · rw [if_pos (.inl rfl), if_pos (.inr rfl)]
      have : ((p : ℤ) - 1).toNat = p - 1 := by omega
      rw [this, Int.toNat_natCast]
      ring
    · intro h
      have := congrArg Fin.val h
      dsimp only at this
      omega
    · intro i ⟨ha, hb⟩
      rw [if_neg, zero_mul]
      rintro (h | h)
      · exact ha (Fin.ext h)
      · exact hb (Fin.ext h)
  · rename_i he
    rw [Fintype.sum_eq_single (⟨⌊m⌋.toNat, by omega⟩ : Fin n)]
    · rw [weight_other h0.le he, if_pos rfl, one_mul]
    · intro i hi
      rw [weight_other h0.le he, if_neg, zero_mul]
      intro h
      exact hi (Fin.ext h)

theorem utw_general {φ : Type} (r : ℚ → ℚ) (div : φ → φ → ℚ) (x y : List φ) (h1 : 0 < x.length) (h2 : x.length ≤ y.length)
    (hr : ∀ k < y.length, 0 < l2 r x.length y.length k ∧ l2 r x.length y.length k < x.length) :
    utwOrdered r div x y = .ok (∑ j : Fin y.length, ∑ i : Fin x.length, Spec.weight (l2 r x.length y.length j) i * div x[i] y[j]) := by
  rw [utwOrdered_ok r div x y h1 h2 hr, Finset.sum_range]
  congr 1
  apply Finset.sum_congr rfl
  intro j _
  obtain ⟨a, b⟩ := hr j j.isLt
  have e : ∀ i : Fin x.length, Spec.weight (l2 r x.length y.length j) i * div x[i] y[j] = Spec.weight (l2 r x.length y.length j) i * dv div x y ((i : Nat) : Int) j := by
    intro i
    unfold dv
    rw [dif_pos ⟨by simp, j.isLt⟩]
    rfl
  rw [Finset.sum_congr rfl (fun i _ => e i), weighted a b (fun i => dv div x y (i : Int) j)]
  unfold contrib
  dsimp only
  have hfl : (0 : ℤ) ≤ ⌊l2 r x.length y.length j⌋ := Int.floor_nonneg.mpr a.le
  by_cases he : l2 r x.length y.length j = (⌊l2 r x.length y.length j⌋ : ℚ)
  · rw [if_pos he, if_pos he]
    have hp : (0 : ℤ) < ⌊l2 r x.length y.length j⌋ := by rw [he] at a; exact_mod_cast a
    rw [Int.toNat_of_nonneg hfl, Int.toNat_of_nonneg (by omega)]
  · rw [if_neg he, if_neg he, Int.toNat_of_nonneg hfl]

theorem l2_exact (n1 n2 k : Nat) : l2 id n1 n2 k = Spec.mid n1 n2 k := by
  unfold l2 Spec.mid id
  ring

theorem mid_range {n1 n2 k : Nat} (h1 : 0 < n1) (h2 : n1 ≤ n2) (hk : k < n2) : 0 < Spec.mid n1 n2 k ∧ Spec.mid n1 n2 k < n1 := by
  unfold Spec.mid
  have a : (0 : ℚ) < n1 := by exact_mod_cast h1
  have b : (0 : ℚ) < n2 := by exact_mod_cast (by omega : 0 < n2)
  have c : (k : ℚ) + 1 ≤ n2 := by exact_mod_cast hk
  constructor
  · positivity
  · rw [div_lt_iff₀ b]
    apply mul_lt_mul_of_pos_left _ a
    linarith

theorem weight_mid (i j : Nat) : Spec.weight ((j : ℚ) + 1 / 2) i = if i = j then 1 else 0 := by
  have hf : ⌊(j : ℚ) + 1 / 2⌋ = (j : ℤ) := by
    rw [Int.floor_eq_iff]
    push_cast
    constructor <;> linarith
  rw [weight_other (by positivity)]
  · rw [hf, Int.toNat_natCast]
  · rw [hf]
    push_cast
    intro h
    linarith

theorem framewise {φ : Type} (r : ℚ → ℚ) (div : φ → φ → ℚ) (x y : List φ) (h1 : 0 < x.length) (hl : x.length = y.length)
    (hr : ∀ k < y.length, l2 r x.length y.length k = (k : ℚ) + 1 / 2) : utwOrdered r div x y = .ok (∑ j : Fin y.length, div (x[j.val]'(by have := j.isLt; omega)) y[j]) := by
  rw [utw_general r div x y h1 (by omega)]
  · congr 1
    apply Finset.sum_congr rfl
    intro j _
    rw [hr j j.isLt, Fintype.sum_eq_single (⟨j, by have := j.isLt; omega⟩ : Fin x.length)]
    · rw [weight_mid, if_pos rfl, one_mul]
      rfl
    · intro i hi
      rw [weight_mid, if_neg (fun h => hi (Fin.ext h)), zero_mul]
  · intro k hk
    rw [hr k hk]
    have : (k : ℚ) + 1 ≤ x.length := by rw [hl]; exact_mod_cast hk
    constructor
    · positivity
    · linarith

theorem l2_eq_id {n k : Nat} (h : 0 < n) : l2 id n n k = (k : ℚ) + 1 / 2 := by
  unfold l2
  have : (n : ℚ) ≠ 0 := by exact_mod_cast (by omega : n ≠ 0)
  rw [div_self this]
  simp

theorem half_rnd {k : Nat} (h : k < 2 ^ 50) : F64.rnd ((k : ℚ) + 1 / 2) = (k : ℚ) + 1 / 2 := by
  have e : (k : ℚ) + 1 / 2 = ((2 * k + 1 : ℤ) : ℚ) * 2 ^ (-1 : ℤ) := by
    push_cast
    rw [zpow_neg, zpow_one]
    ring
  rw [e]
  apply F64.rnd_eq
  rw [abs_of_nonneg (by omega)]
  have : (2 : ℤ) ^ 53 = 9007199254740992 := by norm_num
  have : 2 ^ 50 = 1125899906842624 := by norm_num
  omega

theorem l2_eq_rnd {n k : Nat} (h : 0 < n) (hk : k < 2 ^ 50) : l2 F64.rnd n n k = (k : ℚ) + 1 / 2 := by
  unfold l2
  have : (n : ℚ) ≠ 0 := by exact_mod_cast (by omega : n ≠ 0)
  rw [div_self this]
  have e : F64.rnd 1 = 1 := by
    have := F64.rnd_int (n := 1) (by norm_num)
    simpa using this
  rw [e, one_mul, half_rnd hk]

theorem u_val : (2 : ℚ) ^ (-53 : ℤ) = 1 / 9007199254740992 := by
  rw [zpow_neg]
  norm_num

/-- the position in float64 -/
theorem l2_float {n1 n2 k : Nat} (h2 : 0 < n2) : |l2 F64.rnd n1 n2 k - Spec.mid n1 n2 k| ≤ Spec.mid n1 n2 k * (1 / 2 ^ 51) := by
  unfold l2 Spec.mid
  have b : (0 : ℚ) < n2 := by exact_mod_cast h2
  have hq : (0 : ℚ) ≤ (n1 : ℚ) / n2 := by positivity
  have hk : (0 : ℚ) ≤ (k : ℚ) + 1 / 2 := by positivity
  have e1 := F64.rnd_err ((n1 : ℚ) / n2)
  have e2 := F64.rnd_err (F64.rnd ((n1 : ℚ) / n2) * ((k : ℚ) + 1 / 2))
  have n1' := F64.rnd_nonneg hq
  rw [show (n1 : ℚ) * (k + 1 / 2) / n2 = (n1 : ℚ) / n2 * (k + 1 / 2) by ring]
  generalize (n1 : ℚ) / n2 = q at *
  generalize (k : ℚ) + 1 / 2 = c at *
  rw [u_val, abs_of_nonneg hq] at e1
  rw [u_val, abs_of_nonneg (mul_nonneg n1' hk)] at e2
  generalize F64.rnd (F64.rnd q * c) = z at *
  generalize F64.rnd q = p at *
  have e3 : |p * c - q * c| ≤ q * c * (1 / 9007199254740992) := by
    rw [← sub_mul, abs_mul, abs_of_nonneg hk]
    calc |p - q| * c ≤ q * (1 / 9007199254740992) * c := mul_le_mul_of_nonneg_right e1 hk
      _ = _ := by ring
  have hqc : 0 ≤ q * c := mul_nonneg hq hk
  rw [abs_le] at *
  generalize p * c = v at *
  generalize q * c = w at *
  constructor <;> linarith [e1.1, e2.1, e2.2, e3.1, e3.2]

theorem float_range {n1 n2 k : Nat} (h1 : 0 < n1) (h2 : n1 ≤ n2) (hn : n2 < 2 ^ 49) (hk : k < n2) : 0 < l2 F64.rnd n1 n2 k ∧ l2 F64.rnd n1 n2 k < n1 := by
  have e := l2_float (n1 := n1) (k := k) (by omega : 0 < n2)
  have hm := (mid_range h1 h2 hk).1
  have a : (0 : ℚ) < n1 := by exact_mod_cast h1
  have b : (0 : ℚ) < n2 := by exact_mod_cast (by omega : 0 < n2)
  have c : (k : ℚ) + 1 ≤ n2 := by exact_mod_cast hk
  have d : (n2 : ℚ) < 2 ^ 49 := by exact_mod_cast hn
  have f : Spec.mid n1 n2 k ≤ n1 * (1 - 1 / (2 * n2)) := by
    unfold Spec.mid
    rw [div_le_iff₀ b, mul_assoc]
    apply mul_le_mul_of_nonneg_left _ a.le
    rw [sub_mul, one_mul, show 1 / (2 * (n2 : ℚ)) * n2 = 1 / 2 by field_simp]
    linarith
  have g : (1 : ℚ) / 2 ^ 50 < 1 / (2 * n2) := by
    apply one_div_lt_one_div_of_lt (by positivity)
    have : (2 : ℚ) ^ 50 = 2 * 2 ^ 49 := by norm_num
    rw [this]
    linarith
  generalize (1 : ℚ) / (2 * n2) = t at *
  rw [abs_le] at e
  generalize Spec.mid n1 n2 k = m at *
  generalize l2 F64.rnd n1 n2 k = z at *
  constructor
  · have : m * (1 / 2 ^ 51) < m := by
      have : m * (1 / 2 ^ 51) < m * 1 := mul_lt_mul_of_pos_left (by norm_num) hm
      linarith
    linarith [e.1]
  · have h3 : z ≤ m * (1 + 1 / 2 ^ 51) := by linarith [e.2]
    have h4 : m * (1 + 1 / 2 ^ 51) ≤ n1 * (1 - t) * (1 + 1 / 2 ^ 51) := mul_le_mul_of_nonneg_right f (by norm_num)
    have h5 : (1 - t) * (1 + 1 / 2 ^ 51) < 1 := by
      have : (1 - t) * (1 + 1 / 2 ^ 51) = 1 + 1 / 2 ^ 51 - t - t * (1 / 2 ^ 51) := by ring
      rw [this]
      have h6 : (1 : ℚ) / 2 ^ 51 < 1 / 2 ^ 50 := by norm_num
      have h7 : 0 < t := lt_trans (by norm_num) g
      have h8 : 0 < t * (1 / 2 ^ 51) := by positivity
      linarith
    have h6 : (n1 : ℚ) * ((1 - t) * (1 + 1 / 2 ^ 51)) < n1 * 1 := mul_lt_mul_of_pos_left h5 a
    rw [← mul_assoc] at h6
    linarith

/-- away from the borders the rounding changes nothing, when the product of the lengths is below 2^49 -/
theorem weight_same {n1 n2 j : Nat} (h1 : 0 < n1) (h2 : n1 ≤ n2) (hn : n1 * n2 < 2 ^ 49) (hj : j < n2) (hne : ∀ k : Nat, Spec.mid n1 n2 j ≠ k) (i : Nat) :
    Spec.weight (l2 F64.rnd n1 n2 j) i = Spec.weight (Spec.mid n1 n2 j) i := by
  have b : (0 : ℚ) < n2 := by exact_mod_cast (by omega : 0 < n2)
  have b2 : (0 : ℚ) < 2 * n2 := by linarith
  obtain ⟨m0, m1⟩ := mid_range h1 h2 hj
  obtain ⟨q, r, hr, hM⟩ : ∃ q r, r < 2 * n2 ∧ n1 * (2 * j + 1) = 2 * n2 * q + r := ⟨_, _, Nat.mod_lt _ (by omega), (Nat.div_add_mod _ (2 * n2)).symm⟩
  have hm : Spec.mid n1 n2 j * (2 * n2) = 2 * n2 * q + r := by
    have : ((n1 * (2 * j + 1) : ℕ) : ℚ) = ((2 * n2 * q + r : ℕ) : ℚ) := by rw [hM]
    push_cast at this
    rw [← this]
    unfold Spec.mid
    field_simp
  have hr0 : r ≠ 0 := by
    rintro rfl
    apply hne q
    have : Spec.mid n1 n2 j * (2 * n2) = q * (2 * n2) := by rw [hm]; push_cast; ring
    exact mul_right_cancel₀ b2.ne' this
  have r1 : (1 : ℚ) ≤ r := by exact_mod_cast (by omega : 1 ≤ r)
  have r2 : (r : ℚ) + 1 ≤ 2 * n2 := by exact_mod_cast (by omega : r + 1 ≤ 2 * n2)
  have lo : (q : ℚ) + 1 / (2 * n2) ≤ Spec.mid n1 n2 j := by
    rw [← mul_le_mul_iff_left₀ b2, hm, add_mul, div_mul_cancel₀ _ b2.ne']
    linarith
  have hi : Spec.mid n1 n2 j ≤ (q : ℚ) + 1 - 1 / (2 * n2) := by
    rw [← mul_le_mul_iff_left₀ b2, hm, sub_mul, div_mul_cancel₀ _ b2.ne']
    linarith
  have e := l2_float (n1 := n1) (k := j) (by omega : 0 < n2)
  have small : Spec.mid n1 n2 j * (1 / 2 ^ 51) < 1 / (2 * n2) := by
    rw [lt_div_iff₀ b2]
    have hnq : (n1 : ℚ) * n2 < 2 ^ 49 := by exact_mod_cast hn
    have : Spec.mid n1 n2 j * (1 / 2 ^ 51) * (2 * n2) ≤ n1 * (1 / 2 ^ 51) * (2 * n2) := by
      apply mul_le_mul_of_nonneg_right _ b2.le
      apply mul_le_mul_of_nonneg_right m1.le (by norm_num)
    have e2 : (n1 : ℚ) * (1 / 2 ^ 51) * (2 * n2) = n1 * n2 * (1 / 2 ^ 50) := by ring
    have e3 : (n1 : ℚ) * n2 * (1 / 2 ^ 50) < 2 ^ 49 * (1 / 2 ^ 50) := mul_lt_mul_of_pos_right hnq (by norm_num)
    have e4 : (2 : ℚ) ^ 49 * (1 / 2 ^ 50) < 1 := by norm_num
    linarith
  have t0 : (0 : ℚ) < 1 / (2 * n2) := by positivity
  rw [abs_le] at e
  have w : ∀ m : ℚ, (q : ℚ) < m → m < q + 1 → Spec.weight m i = if i = q then 1 else 0 := by
    intro m a b
    have hf : ⌊m⌋ = (q : ℤ) := by
      rw [Int.floor_eq_iff]
      push_cast
      exact ⟨a.le, b⟩
    rw [weight_other (le_trans (by positivity) a.le)]
    · rw [hf, Int.toNat_natCast]
    · rw [hf]; push_cast; exact a.ne'
  rw [w _ (by linarith [e.1]) (by linarith [e.2]), w _ (by linarith) (by linarith)]

end ABX.UTW
