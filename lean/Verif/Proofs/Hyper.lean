import Verif.Model.HyperReal
import Verif.Spec.Hyper
import Mathlib.Analysis.SpecialFunctions.Log.Deriv
import Mathlib.Analysis.SpecialFunctions.Trigonometric.DerivHyp
import Mathlib.Analysis.Calculus.Deriv.MeanValue
import Mathlib.Analysis.SpecialFunctions.Gamma.Basic
import Mathlib.Analysis.Complex.ExponentialBounds
import Mathlib.Data.Nat.Choose.Vandermonde
import Mathlib.Tactic.Linarith
import Mathlib.Tactic.FieldSimp
/-!
Lemmas for C101: the acceptance test and the mode.
-/
namespace ABX.Sampler
open ABX.Spec

/-- the first quick test accepts only what the last test accepts -/
theorem quick_accept {U : ℝ} (h0 : 0 < U) (h1 : U ≤ 1) : 2 * Real.log U ≤ U * (4 - U) - 3 := by
  have hd : ∀ x : ℝ, 0 < x → HasDerivAt (fun x => x * (4 - x) - 3 - 2 * Real.log x) (4 - 2 * x - 2 / x) x := by
    intro x hx
    have := (((hasDerivAt_id x).mul ((hasDerivAt_const x (4 : ℝ)).sub (hasDerivAt_id x))).sub_const 3).sub ((Real.hasDerivAt_log hx.ne').const_mul 2)
    refine this.congr_deriv ?_
    simp only [id, Pi.sub_apply]
    ring
  have hanti : AntitoneOn (fun x : ℝ => x * (4 - x) - 3 - 2 * Real.log x) (Set.Ioi 0) := by
    refine antitoneOn_of_deriv_nonpos (convex_Ioi 0) (fun x hx => (hd x hx).continuousAt.continuousWithinAt) (fun x hx => ?_) (fun x hx => ?_)
    · rw [interior_Ioi] at hx
      exact (hd x hx).differentiableAt.differentiableWithinAt
    · rw [interior_Ioi] at hx
      have hx : 0 < x := hx
      rw [(hd x hx).deriv]
      have : 4 - 2 * x - 2 / x = -(2 * (x - 1) ^ 2 / x) := by field_simp; ring
      rw [this]
      have : 0 ≤ 2 * (x - 1) ^ 2 / x := by positivity
      linarith
  have := hanti (show U ∈ Set.Ioi (0 : ℝ) from h0) (show (1 : ℝ) ∈ Set.Ioi (0 : ℝ) from Set.mem_Ioi.mpr one_pos) h1
  simp only [Real.log_one] at this
  linarith

/-- what the second quick test rejects, the last test rejects (or, for `U = 1`, the first one has accepted) -/
theorem quick_reject {U d : ℝ} (h0 : 0 < U) (h1 : U ≤ 1) (h : U * (U - d) ≥ 1) (hn : ¬ U * (4 - U) - 3 ≤ d) : ¬ 2 * Real.log U ≤ d := by
  have hs : Real.sinh (Real.log U) ≤ Real.log U := Real.sinh_le_self_iff.mpr (Real.log_nonpos h0.le h1)
  rw [Real.sinh_eq, Real.exp_neg, Real.exp_log h0] at hs
  have hd : d ≤ U - U⁻¹ := by
    have : 1 / U ≤ U - d := by rw [div_le_iff₀ h0]; linarith
    rw [one_div] at this
    linarith
  intro hc
  have he : 2 * Real.log U = d := by linarith
  have h3 : Real.log U = Real.sinh (Real.log U) := by
    rw [Real.sinh_eq, Real.exp_neg, Real.exp_log h0]
    linarith
  have h4 : Real.log U = 0 := by
    by_contra hne
    have : Real.log U < 0 := lt_of_le_of_ne (Real.log_nonpos h0.le h1) hne
    have := Real.sinh_lt_self_iff.mpr this
    linarith
  have h5 : U = 1 := by
    have := Real.exp_log h0
    rw [h4, Real.exp_zero] at this
    exact this.symm
  rw [h5, Real.log_one] at he
  rw [h5] at hn
  apply hn
  linarith

/-- the denominator of the probability of `k` -/
def denom (N K n k : Nat) : Nat := k.factorial * (K - k).factorial * (n - k).factorial * (N - K - n + k).factorial

theorem denom_pos (N K n k : Nat) : 0 < denom N K n k := by
  unfold denom
  have := fun m => Nat.factorial_pos m
  exact Nat.mul_pos (Nat.mul_pos (Nat.mul_pos (this _) (this _)) (this _)) (this _)

theorem lgamma_nat {x : ℝ} {m : Nat} (h : x = m + 1) : lgamma x = Real.log m.factorial := by
  unfold lgamma
  rw [h, Real.Gamma_nat_eq_factorial, abs_of_pos (by exact_mod_cast Nat.factorial_pos m)]

theorem hyperP_eq {N K n k : Nat} (h1 : k ≤ K) (h2 : k ≤ n) (h3 : K + n ≤ N) : hyperP N K n k = Real.log (denom N K n k) := by
  unfold hyperP denom
  have f0 : ∀ m : Nat, ((m.factorial : Nat) : ℝ) ≠ 0 := fun m => by exact_mod_cast (Nat.factorial_pos m).ne'
  rw [lgamma_nat (m := k) rfl, lgamma_nat (m := K - k) (by push_cast [h1]; ring), lgamma_nat (m := n - k) (by push_cast [h2]; ring),
    lgamma_nat (m := N - K - n + k) (by
      rw [Nat.sub_sub]
      push_cast [h3]
      ring)]
  push_cast
  rw [Real.log_mul (mul_ne_zero (mul_ne_zero (f0 _) (f0 _)) (f0 _)) (f0 _), Real.log_mul (mul_ne_zero (f0 _) (f0 _)) (f0 _), Real.log_mul (f0 _) (f0 _)]

/-- the probability of `k` in terms of factorials -/
theorem pmf_eq {N K n k : Nat} (h1 : k ≤ K) (h2 : k ≤ n) (h3 : K + n ≤ N) :
    hyperPmf N K n k = (K.factorial * (N - K).factorial * n.factorial * (N - n).factorial / N.factorial : ℝ) / denom N K n k := by
  have f0 : ∀ m : Nat, ((m.factorial : Nat) : ℝ) ≠ 0 := fun m => by exact_mod_cast (Nat.factorial_pos m).ne'
  unfold hyperPmf denom
  rw [if_pos h2, Nat.cast_choose ℝ h1, Nat.cast_choose ℝ (show n - k ≤ N - K by omega), Nat.cast_choose ℝ (show n ≤ N by omega), show N - K - (n - k) = N - K - n + k by omega]
  push_cast
  have := f0 k; have := f0 (K - k); have := f0 (n - k); have := f0 (N - K - n + k); have := f0 n; have := f0 (N - n); have := f0 N
  field_simp

theorem pmf_pos {N K n k : Nat} (h1 : k ≤ K) (h2 : k ≤ n) (h3 : K + n ≤ N) : 0 < hyperPmf N K n k := by
  rw [pmf_eq h1 h2 h3]
  have f0 : ∀ m : Nat, 0 < ((m.factorial : Nat) : ℝ) := fun m => by exact_mod_cast Nat.factorial_pos m
  have := f0 K; have := f0 (N - K); have := f0 n; have := f0 (N - n); have := f0 N
  have : (0 : ℝ) < denom N K n k := by exact_mod_cast denom_pos N K n k
  positivity

/-- the mode, an integer division -/
def modeNat (N K n : Nat) : Nat := (n + 1) * (K + 1) / (N + 2)

theorem hyperMode_eq (N K n : Nat) : hyperMode N K n = modeNat N K n := by
  unfold hyperMode modeNat
  rw [show ((n : ℝ) + 1) * (((K : ℝ) + 1) / ((N : ℝ) + 2)) = (((n + 1) * (K + 1) : Nat) : ℝ) / ((N + 2 : Nat) : ℝ) by push_cast; ring]
  rw [Int.floor_div_natCast, Int.floor_natCast]
  norm_cast

theorem modeNat_le {N K n : Nat} (h : K + n ≤ N) : modeNat N K n ≤ K ∧ modeNat N K n ≤ n := by
  unfold modeNat
  constructor
  · apply Nat.lt_succ_iff.mp
    rw [Nat.div_lt_iff_lt_mul (by omega)]
    nlinarith
  · apply Nat.lt_succ_iff.mp
    rw [Nat.div_lt_iff_lt_mul (by omega)]
    nlinarith

theorem denom_step {N K n k : Nat} (h1 : k + 1 ≤ K) (h2 : k + 1 ≤ n) :
    ∃ w : Nat, 0 < w ∧ denom N K n (k + 1) = w * ((k + 1) * (N - K - n + k + 1)) ∧ denom N K n k = w * ((K - k) * (n - k)) := by
  refine ⟨k.factorial * (K - (k + 1)).factorial * (n - (k + 1)).factorial * (N - K - n + k).factorial, ?_, ?_, ?_⟩
  · have := fun m => Nat.factorial_pos m
    exact Nat.mul_pos (Nat.mul_pos (Nat.mul_pos (this _) (this _)) (this _)) (this _)
  · unfold denom
    rw [Nat.factorial_succ, show N - K - n + (k + 1) = (N - K - n + k) + 1 by omega, Nat.factorial_succ]
    ring
  · unfold denom
    obtain ⟨u, hu⟩ : ∃ u, K - k = u + 1 := ⟨K - (k + 1), by omega⟩
    obtain ⟨v, hv⟩ : ∃ v, n - k = v + 1 := ⟨n - (k + 1), by omega⟩
    rw [show K - (k + 1) = u by omega, show n - (k + 1) = v by omega, hu, hv, Nat.factorial_succ, Nat.factorial_succ]
    ring

/-- the denominators decrease up to the mode and increase after it -/
theorem denom_step_le {N K n k : Nat} (h1 : k + 1 ≤ K) (h2 : k + 1 ≤ n) (h3 : K + n ≤ N) :
    denom N K n (k + 1) ≤ denom N K n k ↔ k + 1 ≤ modeNat N K n := by
  obtain ⟨w, hw, e1, e2⟩ := denom_step (N := N) h1 h2
  rw [e1, e2, Nat.mul_le_mul_left_iff hw]
  unfold modeNat
  rw [Nat.le_div_iff_mul_le (by omega)]
  obtain ⟨u, rfl⟩ : ∃ u, K = k + 1 + u := ⟨K - (k + 1), by omega⟩
  obtain ⟨v, rfl⟩ : ∃ v, n = k + 1 + v := ⟨n - (k + 1), by omega⟩
  obtain ⟨z, rfl⟩ : ∃ z, N = k + 1 + u + (k + 1 + v) + z := ⟨N - (k + 1 + u + (k + 1 + v)), by omega⟩
  rw [show k + 1 + u + (k + 1 + v) + z - (k + 1 + u) - (k + 1 + v) + k + 1 = z + k + 1 by omega, show k + 1 + u - k = u + 1 by omega, show k + 1 + v - k = v + 1 by omega]
  constructor <;> intro h <;> nlinarith

theorem denom_mode {N K n : Nat} (h3 : K + n ≤ N) : ∀ {k : Nat}, k ≤ K → k ≤ n → denom N K n (modeNat N K n) ≤ denom N K n k := by
  have up : ∀ j k : Nat, k + j ≤ K → k + j ≤ n → k + j ≤ modeNat N K n → denom N K n (k + j) ≤ denom N K n k := by
    intro j
    induction j with
    | zero => intro k _ _ _; exact le_refl _
    | succ j ih =>
      intro k h1 h2 h
      refine le_trans ?_ (ih k (by omega) (by omega) (by omega))
      exact (denom_step_le (k := k + j) (by omega) (by omega) h3).mpr (by omega)
  have down : ∀ j : Nat, modeNat N K n + j ≤ K → modeNat N K n + j ≤ n → denom N K n (modeNat N K n) ≤ denom N K n (modeNat N K n + j) := by
    intro j
    induction j with
    | zero => intro _ _; exact le_refl _
    | succ j ih =>
      intro h1 h2
      refine le_trans (ih (by omega) (by omega)) ?_
      by_contra hlt
      have := (denom_step_le (k := modeNat N K n + j) (by omega) (by omega) h3).mp (by rw [show modeNat N K n + j + 1 = modeNat N K n + (j + 1) by omega]; omega)
      omega
  obtain ⟨m1, m2⟩ := modeNat_le h3
  intro k h1 h2
  by_cases hk : k ≤ modeNat N K n
  · obtain ⟨j, hj⟩ := Nat.exists_eq_add_of_le hk
    have := up j k (by omega) (by omega) (by omega)
    rwa [← hj] at this
  · obtain ⟨j, hj⟩ := Nat.exists_eq_add_of_le (show modeNat N K n ≤ k by omega)
    have := down j (by omega) (by omega)
    rwa [← hj] at this

/-- the ratio of the probability of `k` and the largest one -/
noncomputable def ratio (N K n k : Nat) : ℝ := hyperPmf N K n k / hyperPmf N K n (modeNat N K n)

theorem ratio_eq {N K n k : Nat} (h1 : k ≤ K) (h2 : k ≤ n) (h3 : K + n ≤ N) : ratio N K n k = denom N K n (modeNat N K n) / denom N K n k := by
  obtain ⟨m1, m2⟩ := modeNat_le h3
  unfold ratio
  have f0 : ∀ m : Nat, ((m.factorial : Nat) : ℝ) ≠ 0 := fun m => by exact_mod_cast (Nat.factorial_pos m).ne'
  have d0 : ∀ k, (denom N K n k : ℝ) ≠ 0 := fun k => by exact_mod_cast (denom_pos N K n k).ne'
  rw [pmf_eq h1 h2 h3, pmf_eq m1 m2 h3]
  have := f0 K; have := f0 (N - K); have := f0 n; have := f0 (N - n); have := f0 N; have := d0 k; have := d0 (modeNat N K n)
  field_simp

theorem ratio_pos {N K n k : Nat} (h1 : k ≤ K) (h2 : k ≤ n) (h3 : K + n ≤ N) : 0 < ratio N K n k := by
  obtain ⟨m1, m2⟩ := modeNat_le h3
  exact div_pos (pmf_pos h1 h2 h3) (pmf_pos m1 m2 h3)

theorem ratio_le {N K n k : Nat} (h1 : k ≤ K) (h2 : k ≤ n) (h3 : K + n ≤ N) : ratio N K n k ≤ 1 := by
  rw [ratio_eq h1 h2 h3]
  have : (0 : ℝ) < denom N K n k := by exact_mod_cast denom_pos N K n k
  rw [div_le_one this]
  exact_mod_cast denom_mode h3 h1 h2

theorem accept_iff {N K n k : Nat} (h1 : k ≤ K) (h2 : k ≤ n) (h3 : K + n ≤ N) {U : ℝ} (hU : 0 < U) (hU1 : U ≤ 1) : hyperAccept N K n U k = true ↔ U ^ 2 ≤ ratio N K n k := by
  obtain ⟨m1, m2⟩ := modeNat_le h3
  have d0 : ∀ k, (0 : ℝ) < denom N K n k := fun k => by exact_mod_cast denom_pos N K n k
  have hd : hyperP N K n (hyperMode N K n) - hyperP N K n ((k : Int) : ℝ) = Real.log (ratio N K n k) := by
    rw [hyperMode_eq, ratio_eq h1 h2 h3, Real.log_div (d0 _).ne' (d0 _).ne']
    rw [show (((modeNat N K n : Nat) : Int) : ℝ) = (modeNat N K n : ℝ) by push_cast; rfl, show (((k : Nat) : Int) : ℝ) = (k : ℝ) by push_cast; rfl, hyperP_eq m1 m2 h3, hyperP_eq h1 h2 h3]
  have hlog : 2 * Real.log U ≤ Real.log (ratio N K n k) ↔ U ^ 2 ≤ ratio N K n k := by
    rw [← Real.log_le_log_iff (by positivity) (ratio_pos h1 h2 h3), Real.log_pow]
    norm_num
  rw [← hlog]
  unfold hyperAccept
  dsimp only
  rw [hd]
  split
  · rename_i h
    exact ⟨fun _ => (quick_accept hU hU1).trans h, fun _ => rfl⟩
  · rename_i h
    split
    · rename_i h'
      exact ⟨fun h => (by cases h), fun hc => absurd hc (quick_reject hU hU1 h' h)⟩
    · exact decide_eq_true_iff

/-! the symmetries -/

theorem pmf_swap {N K n k : Nat} (hK : K ≤ N) (hk : k ≤ n) : hyperPmf N (N - K) n (n - k) = hyperPmf N K n k := by
  unfold hyperPmf
  rw [if_pos (Nat.sub_le _ _), if_pos hk, Nat.sub_sub_self hK, Nat.sub_sub_self hk]
  ring

theorem pmf_rest {N K n k : Nat} (hK : K ≤ N) (hn : n ≤ N) (hk : k ≤ K) (hkn : k ≤ n) (h : n - k ≤ N - K) : hyperPmf N K (N - n) (K - k) = hyperPmf N K n k := by
  unfold hyperPmf
  rw [if_pos (by omega), if_pos hkn, Nat.choose_symm hk, Nat.choose_symm hn, show N - n - (K - k) = N - K - (n - k) by omega, Nat.choose_symm h]

/-- the probabilities add up to one -/
theorem pmf_sum {N K n m : Nat} (hK : K ≤ N) (hn : n ≤ N) (hm : min n K < m) : ∑ k ∈ Finset.range m, hyperPmf N K n k = 1 := by
  have h := Nat.add_choose_eq K (N - K) n
  rw [Nat.add_sub_cancel' hK, Finset.Nat.sum_antidiagonal_eq_sum_range_succ_mk] at h
  have hz : ∀ k, min n K < k → hyperPmf N K n k = 0 := by
    intro k hk
    unfold hyperPmf
    split
    · rw [Nat.choose_eq_zero_of_lt (show K < k by omega)]
      simp
    · rfl
  have e1 : ∑ k ∈ Finset.range m, hyperPmf N K n k = ∑ k ∈ Finset.range (min n K + 1), hyperPmf N K n k := by
    symm
    refine Finset.sum_subset (Finset.range_subset_range.mpr (by omega)) fun k _ hk => hz k ?_
    rw [Finset.mem_range] at hk
    omega
  have e2 : ∑ k ∈ Finset.range (n + 1), hyperPmf N K n k = ∑ k ∈ Finset.range (min n K + 1), hyperPmf N K n k := by
    symm
    refine Finset.sum_subset (Finset.range_subset_range.mpr (by omega)) fun k _ hk => hz k ?_
    rw [Finset.mem_range] at hk
    omega
  rw [e1, ← e2]
  have hc : (0 : ℝ) < N.choose n := by exact_mod_cast Nat.choose_pos hn
  rw [Finset.sum_congr rfl (g := fun k => (K.choose k * (N - K).choose (n - k) : ℝ) / N.choose n)]
  · rw [← Finset.sum_div, div_eq_one_iff_eq hc.ne', h]
    push_cast
    rfl
  · intro k hk
    rw [Finset.mem_range] at hk
    unfold hyperPmf
    rw [if_pos (by omega)]

end ABX.Sampler
