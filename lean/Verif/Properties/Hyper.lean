import Verif.Proofs.HyperMeasure
import Verif.Proofs.HyperMoments
/-!
Property C101: `hypergeometric_sample` draws from the hypergeometric distribution.

The random numbers are independent and uniform in [0, 1); the loop of the code is run for `R` rounds.
-/
namespace ABX.Sampler
open ABX.Spec MeasureTheory Set Filter Topology

/-- the count of the reduced problem (at most half of the items are sampled, at most half of them are in the chunk) that stands for the count `j` -/
def reduced (N K n j : Nat) : Nat :=
  let k := if n ≤ N - n then j else K - j
  if K ≤ N - K then k else eff N n - k

/-- the hat of the method covers the distribution: for every count its distance to the average, with half a unit, times the root of its probability relative to the largest one is at most `b / 2` (`b`: line 160 of the code).
`(n + 1) * (K + 1) / (N + 2)` is the most probable count, see `C101_mode`. -/
def Covered (N K n : Nat) : Prop :=
  ∀ k ≤ min n K, (|(k : ℝ) - n * K / N| + 1 / 2) ^ 2 * hyperPmf N K n k ≤ (hyperB N K n / 2) ^ 2 * hyperPmf N K n ((n + 1) * (K + 1) / (N + 2))

/-- the numbers of the rounds -/
def rounds {R : Nat} (ω : Fin R → ℝ × ℝ) (i : Nat) : ℝ × ℝ := if h : i < R then ω ⟨i, h⟩ else (0, 0)

/-- the probability that `hypergeometric_sample(N, K, n)` returns `j` in at most `R` rounds -/
noncomputable def hyperProb (N K n R j : Nat) : ℝ :=
  (Measure.pi (fun _ : Fin R => rand2)).real {ω | hypergeometric N K n (hyperSrc N K n (rounds ω) R) = .ok j}

theorem eff_half {N K : Nat} : 2 * eff N K ≤ N := by unfold eff; omega

theorem covered_at {N K n : Nat} (h3 : K + n ≤ N) (h : Covered N K n) {k : Nat} (h1 : k ≤ K) (h2 : k ≤ n) : CoveredAt N K n k := by
  obtain ⟨m1, m2⟩ := modeNat_le h3
  have := h k (by omega)
  unfold CoveredAt average ratio
  rw [show (n : ℝ) * (K / N) = n * K / N by ring, mul_div_assoc', div_le_iff₀ (pmf_pos m1 m2 h3)]
  exact this

theorem loop_first (N K n : Nat) (uv : Nat → ℝ × ℝ) (fuel : Nat) : ∀ R i, hyperLoop (hyperSrc N K n uv fuel).prop (min (min (eff N n : Int) (eff N K) + 1) (hyperSrc N K n uv fuel).ub) R i =
    match firstOf (trial N (eff N K) (eff N n)) R (fun j => uv (i + j)) with
    | some k => .ok k
    | none => .error .diverge
  | 0, i => rfl
  | R + 1, i => by
    unfold hyperLoop firstOf
    have ih := loop_first N K n uv fuel R (i + 1)
    have hs : (fun j : Fin R => uv (i + ((j.succ : Fin (R + 1)) : Nat))) = fun j : Fin R => uv (i + 1 + j) := by
      funext j
      congr 1
      simp
      omega
    rw [hs]
    have h0 : (fun j : Fin (R + 1) => uv (i + j)) 0 = uv i := by simp
    rw [h0, ih]
    unfold trial
    have hu : min (min (eff N n : Int) (eff N K) + 1) (hyperSrc N K n uv fuel).ub = hyperUpper N (eff N K) (eff N n) := rfl
    rw [hu]
    have hp : (hyperSrc N K n uv fuel).prop i = (hyperPropose N (eff N K) (eff N n) (uv i).1 (uv i).2, hyperAccept N (eff N K) (eff N n) (uv i).1 (hyperPropose N (eff N K) (eff N n) (uv i).1 (uv i).2)) := rfl
    rw [hp]
    dsimp only
    by_cases h1 : hyperPropose N (eff N K) (eff N n) (uv i).1 (uv i).2 < 0 ∨ hyperPropose N (eff N K) (eff N n) (uv i).1 (uv i).2 ≥ hyperUpper N (eff N K) (eff N n)
    · rw [if_pos h1, if_pos h1]
    · rw [if_neg h1, if_neg h1]
      by_cases h2 : hyperAccept N (eff N K) (eff N n) (uv i).1 (hyperPropose N (eff N K) (eff N n) (uv i).1 (uv i).2) = true
      · rw [if_pos h2, if_pos h2]
      · rw [if_neg h2, if_neg h2]

/-- what is returned in terms of the rounds -/
theorem hyper_ok {N K n j : Nat} (hN : 2 ≤ N) (hK : K ≤ N) (hn : n ≤ N) (h1 : j ≤ K) (h2 : j ≤ n) (h3 : n - j ≤ N - K) {R : Nat} (ω : Fin R → ℝ × ℝ) :
    hypergeometric N K n (hyperSrc N K n (rounds ω) R) = .ok j ↔ firstOf (trial N (eff N K) (eff N n)) R ω = some (reduced N K n j : Int) := by
  unfold hypergeometric
  rw [if_neg (by omega)]
  dsimp only
  have e1 : min (K : Int) ((N : Int) - K) = (eff N K : Int) := by unfold eff; omega
  have e2 : min (n : Int) ((N : Int) - n) = (eff N n : Int) := by unfold eff; omega
  have hω : (fun j : Fin R => rounds ω (0 + j)) = ω := by
    funext j
    unfold rounds
    simp
  rw [e1, e2, show (hyperSrc N K n (rounds ω) R).fuel = R from rfl, loop_first N K n (rounds ω) R R 0, hω]
  cases hf : firstOf (trial N (eff N K) (eff N n)) R ω with
  | none => simp
  | some k =>
    simp only [Except.ok.injEq, Option.some.injEq]
    unfold reduced
    have : (eff N K : Int) = min (K : Int) ((N : Int) - K) := e1.symm
    have : (eff N n : Int) = min (n : Int) ((N : Int) - n) := e2.symm
    split_ifs <;> push_cast <;> omega

theorem reduced_le {N K n j : Nat} (hK : K ≤ N) (hn : n ≤ N) (h1 : j ≤ K) (h2 : j ≤ n) (h3 : n - j ≤ N - K) : reduced N K n j ≤ eff N K ∧ reduced N K n j ≤ eff N n := by
  unfold reduced eff
  dsimp only
  split_ifs <;> omega

theorem reduced_pmf {N K n j : Nat} (hK : K ≤ N) (hn : n ≤ N) (h1 : j ≤ K) (h2 : j ≤ n) (h3 : n - j ≤ N - K) : hyperPmf N (eff N K) (eff N n) (reduced N K n j) = hyperPmf N K n j := by
  have hr := pmf_rest hK hn h1 h2 h3
  unfold reduced
  dsimp only
  by_cases a : n ≤ N - n <;> by_cases b : K ≤ N - K
  · rw [if_pos a, if_pos b, show eff N K = K by unfold eff; omega, show eff N n = n by unfold eff; omega]
  · rw [if_pos a, if_neg b, show eff N K = N - K by unfold eff; omega, show eff N n = n by unfold eff; omega, pmf_swap hK h2]
  · rw [if_neg a, if_pos b, show eff N K = K by unfold eff; omega, show eff N n = N - n by unfold eff; omega, hr]
  · rw [if_neg a, if_neg b, show eff N K = N - K by unfold eff; omega, show eff N n = N - n by unfold eff; omega, pmf_swap hK (by omega), hr]

/-- the probability that a round has no outcome, and the limit -/
theorem trial_limit {N K n : Nat} (h3 : K + n ≤ N) (hc : Covered N K n) {k : Nat} (h1 : k ≤ K) (h2 : k ≤ n) (hu : (k : Int) < hyperUb N K n) :
    Tendsto (fun R => (Measure.pi (fun _ : Fin R => rand2)).real {ω | firstOf (trial N K n) R ω = some (k : Int)}) atTop (𝓝 (hyperPmf N K n k / ∑ i ∈ Finset.range (hyperUpper N K n).toNat, hyperPmf N K n i)) := by
  have hb := hyperB_pos N K n
  obtain ⟨m1, m2⟩ := modeNat_le h3
  have hm := pmf_pos m1 m2 h3
  have hup : ∀ i : Nat, i ∈ Finset.range (hyperUpper N K n).toNat ↔ i ≤ K ∧ i ≤ n ∧ (i : Int) < hyperUpper N K n := by
    intro i
    rw [Finset.mem_range]
    unfold hyperUpper
    omega
  have hk : k ∈ Finset.range (hyperUpper N K n).toNat := (hup k).mpr ⟨h1, h2, by unfold hyperUpper; omega⟩
  set A : Nat → ℝ := fun i => ratio N K n i / (2 * hyperB N K n) with hA
  have hmeas : ∀ i ∈ Finset.range (hyperUpper N K n).toNat, rand2 {p | trial N K n p = some (i : Int)} = ENNReal.ofReal (A i) := by
    intro i hi
    obtain ⟨g1, g2, g3⟩ := (hup i).mp hi
    exact trial_measure g1 g2 h3 g3 (covered_at h3 hc g1 g2)
  have hA0 : ∀ i ∈ Finset.range (hyperUpper N K n).toNat, 0 < A i := by
    intro i hi
    obtain ⟨g1, g2, g3⟩ := (hup i).mp hi
    exact div_pos (ratio_pos g1 g2 h3) (by positivity)
  set s := ∑ i ∈ Finset.range (hyperUpper N K n).toNat, A i with hs
  have hs0 : 0 < s := Finset.sum_pos hA0 ⟨k, hk⟩
  have hnone : rand2.real {p | trial N K n p = none} = 1 - s := by
    have hcompl : {p | trial N K n p = none} = (⋃ i ∈ Finset.range (hyperUpper N K n).toNat, {p | trial N K n p = some ((i : Nat) : Int)})ᶜ := by
      ext p
      simp only [mem_ofPred_eq, mem_compl_iff, mem_iUnion, not_exists]
      constructor
      · intro h i _ h'
        rw [h] at h'
        cases h'
      · intro h
        cases hT : trial N K n p with
        | none => rfl
        | some x =>
          obtain ⟨-, g1, g2, -⟩ := trial_some.mp hT
          obtain ⟨i, rfl⟩ := Int.eq_ofNat_of_zero_le g1
          exact absurd hT (h i (by rw [Finset.mem_range]; omega))
    have hmU : MeasurableSet (⋃ i ∈ Finset.range (hyperUpper N K n).toNat, {p | trial N K n p = some ((i : Nat) : Int)}) := Finset.measurableSet_biUnion _ fun i _ => measurable_trial N K n i
    rw [hcompl, probReal_compl_eq_one_sub hmU, measureReal_biUnion_finset (f := fun i : Nat => {p | trial N K n p = some (i : Int)}) ?_ (fun i _ => measurable_trial N K n i)]
    · congr 1
      refine Finset.sum_congr rfl fun i hi => ?_
      rw [measureReal_def, hmeas i hi, ENNReal.toReal_ofReal (hA0 i hi).le]
    · intro i _ j _ hij
      rw [Function.onFun, Set.disjoint_left]
      intro p hp hp'
      have e1 : trial N K n p = some ((i : Nat) : Int) := hp
      have e2 : trial N K n p = some ((j : Nat) : Int) := hp'
      rw [e1] at e2
      have := Option.some.inj e2
      omega
  have hval : ∀ R, (Measure.pi (fun _ : Fin R => rand2)).real {ω | firstOf (trial N K n) R ω = some (k : Int)} = A k * ∑ r ∈ Finset.range R, (1 - s) ^ r := by
    intro R
    rw [measureReal_def, firstOf_measure _ _ _ (measurable_trial N K n k), ENNReal.toReal_mul, hmeas k hk, ENNReal.toReal_ofReal (hA0 k hk).le, ENNReal.toReal_sum (fun r _ => ENNReal.pow_ne_top (measure_ne_top _ _))]
    congr 1
    refine Finset.sum_congr rfl fun r _ => ?_
    rw [ENNReal.toReal_pow, ← measureReal_def, hnone]
  have hq0 : 0 ≤ 1 - s := by rw [← hnone]; exact measureReal_nonneg
  have hq1 : 1 - s < 1 := by linarith
  have hlim := (hasSum_geometric_of_lt_one hq0 hq1).tendsto_sum_nat.const_mul (A k)
  rw [sub_sub_cancel] at hlim
  have hgoal : A k * s⁻¹ = hyperPmf N K n k / ∑ i ∈ Finset.range (hyperUpper N K n).toNat, hyperPmf N K n i := by
    have hsum : s = (∑ i ∈ Finset.range (hyperUpper N K n).toNat, hyperPmf N K n i) / (hyperPmf N K n (modeNat N K n) * (2 * hyperB N K n)) := by
      rw [hs, Finset.sum_div]
      refine Finset.sum_congr rfl fun i _ => ?_
      show ratio N K n i / (2 * hyperB N K n) = _
      unfold ratio
      rw [div_div]
    rw [hsum, hA]
    unfold ratio
    have hS : (∑ i ∈ Finset.range (hyperUpper N K n).toNat, hyperPmf N K n i) ≠ 0 := by
      intro h0
      rw [h0, zero_div] at hsum
      linarith
    have := hm.ne'
    field_simp
  rw [← hgoal]
  exact hlim.congr fun R => (hval R).symm

/-- C101: the most probable count.  `hyperMode` is what line 154 computes. -/
theorem C101_mode {N K n : Nat} (h : K + n ≤ N) : hyperMode N K n = ((n + 1) * (K + 1) / (N + 2) : Nat) ∧ (n + 1) * (K + 1) / (N + 2) ≤ min n K ∧
    ∀ k, hyperPmf N K n k ≤ hyperPmf N K n ((n + 1) * (K + 1) / (N + 2)) := by
  obtain ⟨m1, m2⟩ := modeNat_le h
  refine ⟨hyperMode_eq N K n, le_min m2 m1, fun k => ?_⟩
  have hm := pmf_pos m1 m2 h
  by_cases hk : k ≤ K ∧ k ≤ n
  · have := ratio_le hk.1 hk.2 h
    unfold ratio at this
    rwa [div_le_one hm] at this
  · refine le_trans (le_of_eq ?_) hm.le
    unfold hyperPmf
    split
    · rw [Nat.choose_eq_zero_of_lt (show K < k by omega)]
      simp
    · rfl

/-- C101: lines 153 and 155-156 compute the mean and the variance of the distribution. -/
theorem C101_moments {N K n m : Nat} (hN : 2 ≤ N) (hK : K ≤ N) (hn : n ≤ N) (hm : min n K < m) :
    average N K n = ∑ k ∈ Finset.range m, (k : ℝ) * hyperPmf N K n k ∧
    hyperVariance N K n = ∑ k ∈ Finset.range m, ((k : ℝ) - ∑ i ∈ Finset.range m, (i : ℝ) * hyperPmf N K n i) ^ 2 * hyperPmf N K n k := by
  rw [pmf_mean hK hn hm, pmf_variance hN hK hn hm]
  unfold hyperVariance average
  exact ⟨by ring, by ring⟩

/-- C101: the decision of a round.  Whatever the quick tests of lines 179-182 do, a count `k` is accepted exactly when the square of `U` is at most its probability relative to the largest one. -/
theorem C101_decision {N K n k : Nat} (h : K + n ≤ N) (hk : k ≤ min n K) {U : ℝ} (h0 : 0 < U) (h1 : U ≤ 1) :
    hyperAccept N K n U k = true ↔ U ^ 2 * hyperPmf N K n ((n + 1) * (K + 1) / (N + 2)) ≤ hyperPmf N K n k := by
  obtain ⟨m1, m2⟩ := modeNat_le h
  rw [accept_iff (by omega) (by omega) h h0 h1]
  unfold ratio
  rw [le_div_iff₀ (pmf_pos m1 m2 h)]
  rfl

/-- C101: the probability that `hypergeometric_sample(N, K, n)` returns a possible count `j` in at most `R` rounds tends to the hypergeometric probability of `j`, divided by the sum of those of the counts that are below the upper bound of
line 166 (the others are never returned, `C101_truncated`).  Hypothesis: the hat covers the distribution; this is proved of no general case here.  Computations in exact real numbers. -/
theorem C101_distribution_partial {N K n j : Nat} (hN : 2 ≤ N) (hK : K ≤ N) (hn : n ≤ N) (hc : Covered N (eff N K) (eff N n)) (h1 : j ≤ K) (h2 : j ≤ n) (h3 : n - j ≤ N - K)
    (hu : (reduced N K n j : Int) < hyperUb N (eff N K) (eff N n)) :
    Tendsto (fun R => hyperProb N K n R j) atTop (𝓝 (hyperPmf N K n j / ∑ i ∈ Finset.range (min (eff N n + 1) (min (eff N K + 1) (hyperUb N (eff N K) (eff N n)).toNat)), hyperPmf N (eff N K) (eff N n) i)) := by
  obtain ⟨r1, r2⟩ := reduced_le hK hn h1 h2 h3
  have hh := eff_half (N := N) (K := K)
  have hh' := eff_half (N := N) (K := n)
  have := trial_limit (by omega) hc r1 r2 hu
  rw [reduced_pmf hK hn h1 h2 h3, show (hyperUpper N (eff N K) (eff N n)).toNat = min (eff N n + 1) (min (eff N K + 1) (hyperUb N (eff N K) (eff N n)).toNat) by unfold hyperUpper; omega] at this
  refine this.congr fun R => ?_
  unfold hyperProb
  congr 1
  ext ω
  exact (hyper_ok hN hK hn h1 h2 h3 ω).symm

/-- C101: when no possible count is above the upper bound, the distribution is the hypergeometric one. -/
theorem C101_exact_partial {N K n j : Nat} (hN : 2 ≤ N) (hK : K ≤ N) (hn : n ≤ N) (hc : Covered N (eff N K) (eff N n)) (h1 : j ≤ K) (h2 : j ≤ n) (h3 : n - j ≤ N - K)
    (hu : (min (eff N n) (eff N K) : Nat) < hyperUb N (eff N K) (eff N n)) :
    Tendsto (fun R => hyperProb N K n R j) atTop (𝓝 (hyperPmf N K n j)) := by
  obtain ⟨r1, r2⟩ := reduced_le hK hn h1 h2 h3
  have hh := eff_half (N := N) (K := K)
  have hh' := eff_half (N := N) (K := n)
  have := C101_distribution_partial hN hK hn hc h1 h2 h3 (by omega)
  rwa [pmf_sum (by omega) (by omega) (by omega), div_one] at this

/-- C101: counts that stand for a count of the reduced problem above the upper bound of line 166 are never returned, whatever the random numbers. -/
theorem C101_truncated {N K n j : Nat} (hN : 2 ≤ N) (hK : K ≤ N) (hn : n ≤ N) (h1 : j ≤ K) (h2 : j ≤ n) (h3 : n - j ≤ N - K) (hu : hyperUb N (eff N K) (eff N n) ≤ (reduced N K n j : Int)) {R : Nat} (ω : Fin R → ℝ × ℝ) :
    hypergeometric N K n (hyperSrc N K n (rounds ω) R) ≠ .ok j := by
  intro h
  rw [hyper_ok hN hK hn h1 h2 h3] at h
  have : ∀ (R : Nat) (ω : Fin R → ℝ × ℝ) (k : Int), firstOf (trial N (eff N K) (eff N n)) R ω = some k → k < hyperUpper N (eff N K) (eff N n) := by
    intro R
    induction R with
    | zero => intro ω k h; cases h
    | succ R ih =>
      intro ω k h
      unfold firstOf at h
      cases hT : trial N (eff N K) (eff N n) (ω 0) with
      | none => rw [hT] at h; exact ih _ k h
      | some x =>
        rw [hT] at h
        obtain rfl := Option.some.inj h
        exact (trial_some.mp hT).2.2.1
  have := this R ω _ h
  unfold hyperUpper at this
  omega

theorem sqrt_half_ge {x : ℝ} (h : 0 ≤ x) : 7 / 10 ≤ √(x + 1 / 2) := Real.le_sqrt_of_sq_le (by norm_num; linarith)

theorem variance_nonneg {N K n : Nat} (hN : 1 ≤ N) (hK : K ≤ N) (hn : n ≤ N) : 0 ≤ hyperVariance N K n := by
  unfold hyperVariance average
  have a : (0 : ℝ) ≤ (N : ℝ) - K := by rw [sub_nonneg]; exact_mod_cast hK
  have b : (0 : ℝ) ≤ (N : ℝ) - n := by rw [sub_nonneg]; exact_mod_cast hn
  have c : (0 : ℝ) ≤ (N : ℝ) - 1 := by rw [sub_nonneg]; exact_mod_cast hN
  positivity

/-- a bound of `b` -/
theorem hyperB_ge {N K n : Nat} (hN : 1 ≤ N) (hK : K ≤ N) (hn : n ≤ N) : 2 ≤ hyperB N K n := by
  have e1 := Real.exp_one_gt_d9
  have e2 := Real.exp_one_lt_d9
  have h1 : 17 / 10 ≤ hyperC1 := by
    unfold hyperC1
    have : 17 / 20 ≤ √(2 / Real.exp 1) := by
      apply Real.le_sqrt_of_sq_le
      rw [le_div_iff₀ (Real.exp_pos 1)]
      nlinarith
    linarith
  have h2 : 89 / 100 ≤ hyperC2 := by
    unfold hyperC2
    have : √(3 / Real.exp 1) ≤ 211 / 200 := by
      rw [Real.sqrt_le_iff]
      refine ⟨by norm_num, ?_⟩
      rw [div_le_iff₀ (Real.exp_pos 1)]
      nlinarith
    linarith
  have h3 := sqrt_half_ge (variance_nonneg hN hK hn)
  unfold hyperB
  nlinarith

theorem pmf_one_zero {N n : Nat} (hN : 1 ≤ N) (hn : n ≤ N) : hyperPmf N 1 n 0 = 1 - n / N ∧ hyperPmf N 1 n 1 = n / N := by
  have hp : hyperPmf N 1 n 1 = n / N := by
    have hc : (0 : ℝ) < N.choose n := by exact_mod_cast Nat.choose_pos hn
    have hN' : (0 : ℝ) < N := by exact_mod_cast hN
    unfold hyperPmf
    split
    · next h =>
      obtain ⟨m, rfl⟩ : ∃ m, n = m + 1 := ⟨n - 1, by omega⟩
      obtain ⟨M, rfl⟩ : ∃ M, N = M + 1 := ⟨N - 1, by omega⟩
      have := Nat.add_one_mul_choose_eq M m
      rw [Nat.choose_self, Nat.add_sub_cancel, Nat.add_sub_cancel, div_eq_div_iff hc.ne' hN'.ne']
      have : ((M + 1) * M.choose m : ℝ) = ((M + 1).choose (m + 1) * (m + 1) : ℝ) := by exact_mod_cast this
      push_cast
      linarith
    · next h =>
      obtain rfl : n = 0 := by omega
      simp
  refine ⟨?_, hp⟩
  have h0 : hyperPmf N 1 n 0 + hyperPmf N 1 n 1 = 1 := by
    have := pmf_sum (N := N) (K := 1) (n := n) (m := 2) hN hn (by omega)
    simpa [Finset.sum_range_succ] using this
  linarith

theorem covered_one {N n : Nat} (hN : 2 ≤ N) (hn : 2 * n ≤ N) : Covered N 1 n := by
  have hb : 2 ≤ hyperB N 1 n := hyperB_ge (by omega) (by omega) (by omega)
  obtain ⟨p0, p1⟩ := pmf_one_zero (N := N) (n := n) (by omega) (by omega)
  have hN' : (0 : ℝ) < N := by exact_mod_cast (by omega : 0 < N)
  have hn' : (2 * n : ℝ) ≤ N := by exact_mod_cast hn
  set p : ℝ := n / N with hp
  have q0 : 0 ≤ p := by positivity
  have q1 : p ≤ 1 / 2 := by rw [hp, div_le_div_iff₀ hN' (by norm_num)]; linarith
  have hb2 : 1 ≤ (hyperB N 1 n / 2) ^ 2 := by nlinarith
  have hm : (1 - p) ≤ hyperPmf N 1 n ((n + 1) * (1 + 1) / (N + 2)) := by
    by_cases h : 2 * n = N
    · have : (n + 1) * (1 + 1) / (N + 2) = 1 := by rw [Nat.div_eq_iff (by omega)]; omega
      have e : (2 * n : ℝ) = N := by exact_mod_cast h
      have : p = 1 / 2 := by rw [hp, div_eq_div_iff hN'.ne' (by norm_num)]; linarith
      rw [‹(n + 1) * (1 + 1) / (N + 2) = 1›, p1]
      linarith
    · rw [show (n + 1) * (1 + 1) / (N + 2) = 0 from Nat.div_eq_of_lt (by omega), p0]
  have hr : 1 - p ≤ (hyperB N 1 n / 2) ^ 2 * hyperPmf N 1 n ((n + 1) * (1 + 1) / (N + 2)) := by nlinarith
  intro k hk
  refine le_trans ?_ hr
  obtain rfl | rfl : k = 0 ∨ k = 1 := by omega
  · rw [p0, show ((0 : Nat) : ℝ) - n * (1 : Nat) / N = -p by rw [hp]; push_cast; ring, abs_neg, abs_of_nonneg q0]
    have : (p + 1 / 2) ^ 2 ≤ 1 := by nlinarith
    exact mul_le_of_le_one_left (by linarith) this
  · rw [p1, show ((1 : Nat) : ℝ) - n * (1 : Nat) / N = 1 - p by rw [hp]; push_cast; ring, abs_of_nonneg (by linarith)]
    nlinarith [mul_nonneg q0 (sub_nonneg.mpr q1), mul_nonneg (mul_nonneg q0 q0) (sub_nonneg.mpr q1)]

/-- C101: a case without hypotheses: when one item remains to be sampled, it is in the next `n` of the `N` items with probability `n / N`. -/
theorem C101_one {N n : Nat} (hN : 2 ≤ N) (hn : n ≤ N) :
    (0 < n → Tendsto (fun R => hyperProb N 1 n R 1) atTop (𝓝 (n / N))) ∧ (n < N → Tendsto (fun R => hyperProb N 1 n R 0) atTop (𝓝 (1 - n / N))) := by
  obtain ⟨p0, p1⟩ := pmf_one_zero (N := N) (n := n) (by omega) hn
  have he : eff N 1 = 1 := by unfold eff; omega
  have hh := eff_half (N := N) (K := n)
  have hc : Covered N (eff N 1) (eff N n) := by rw [he]; exact covered_one hN hh
  have hu : ((min (eff N n) (eff N 1) : Nat) : Int) < hyperUb N (eff N 1) (eff N n) := by
    rw [he]
    refine lt_of_le_of_lt (by exact_mod_cast min_le_right _ _ : ((min (eff N n) 1 : Nat) : Int) ≤ 1) ?_
    unfold hyperUb
    rw [Int.lt_iff_add_one_le, Int.le_floor]
    have := sqrt_half_ge (variance_nonneg (N := N) (K := 1) (n := eff N n) (by omega) (by omega) (by omega))
    have h0 : 0 ≤ average N 1 (eff N n) := by unfold average; positivity
    unfold hyperA
    norm_num
    norm_num at this
    linarith
  rw [← p0, ← p1]
  exact ⟨fun h => C101_exact_partial hN (by omega) hn hc (by omega) (by omega) (by omega) hu,
    fun h => C101_exact_partial hN (by omega) hn hc (by omega) (by omega) (by omega) hu⟩

/-- C101, example: 5 of 6 items are sampled, a chunk of 4 items: the counts 3 and 4 are returned with probability 2/3 and 1/3 (the reduced problem has one item of 6 and a chunk of 2) -/
example : Tendsto (fun R => hyperProb 6 5 4 R 3) atTop (𝓝 (2 / 3)) ∧ Tendsto (fun R => hyperProb 6 5 4 R 4) atTop (𝓝 (1 / 3)) := by
  have hb : 2 ≤ hyperB 6 1 2 := hyperB_ge (by norm_num) (by norm_num) (by norm_num)
  have p0 : hyperPmf 6 1 2 0 = 2 / 3 := by unfold hyperPmf; norm_num [Nat.choose]
  have p1 : hyperPmf 6 1 2 1 = 1 / 3 := by unfold hyperPmf; norm_num [Nat.choose]
  have hc : Covered 6 (eff 6 5) (eff 6 4) := by
    show Covered 6 1 2
    intro k hk
    obtain rfl | rfl : k = 0 ∨ k = 1 := by omega
    · rw [show (2 + 1) * (1 + 1) / (6 + 2) = 0 from rfl, p0]
      norm_num [abs_of_neg, abs_of_pos]
      nlinarith
    · rw [show (2 + 1) * (1 + 1) / (6 + 2) = 0 from rfl, p0, p1]
      norm_num [abs_of_neg, abs_of_pos]
      nlinarith
  have hu : ((min (eff 6 4) (eff 6 5) : Nat) : Int) < hyperUb 6 (eff 6 5) (eff 6 4) := by
    show (1 : Int) < hyperUb 6 1 2
    unfold hyperUb
    rw [Int.lt_iff_add_one_le, Int.le_floor]
    have := sqrt_half_ge (variance_nonneg (N := 6) (K := 1) (n := 2) (by norm_num) (by norm_num) (by norm_num))
    unfold hyperA average
    norm_num
    linarith
  have q3 : hyperPmf 6 5 4 3 = 2 / 3 := by unfold hyperPmf; norm_num [Nat.choose]
  have q4 : hyperPmf 6 5 4 4 = 1 / 3 := by unfold hyperPmf; norm_num [Nat.choose]
  rw [← q3, ← q4]
  exact ⟨C101_exact_partial (by norm_num) (by norm_num) (by norm_num) hc (by norm_num) (by norm_num) (by norm_num) hu,
    C101_exact_partial (by norm_num) (by norm_num) (by norm_num) hc (by norm_num) (by norm_num) (by norm_num) hu⟩

/-- C101 is false: a chunk of 20 of 400 items, 20 of which are sampled.  All of them can be in the chunk, but this is never returned. -/
theorem C101_violated : 0 < hyperPmf 400 20 20 20 ∧ ∀ (R : Nat) (ω : Fin R → ℝ × ℝ), hypergeometric (400 : Nat) (20 : Nat) (20 : Nat) (hyperSrc 400 20 20 (rounds ω) R) ≠ .ok ((20 : Nat) : Int) := by
  refine ⟨pmf_pos (by norm_num) (by norm_num) (by norm_num), fun R ω => ?_⟩
  refine C101_truncated (by norm_num) (by norm_num) (by norm_num) (by norm_num) (by norm_num) (by norm_num) ?_ ω
  show hyperUb 400 20 20 ≤ 20
  unfold hyperUb
  rw [← Int.lt_add_one_iff, Int.floor_lt]
  have : √(hyperVariance 400 20 20 + 1 / 2) < 12 / 10 := by
    rw [Real.sqrt_lt' (by norm_num)]
    unfold hyperVariance average
    norm_num
  unfold hyperA average
  norm_num
  norm_num at this
  linarith

#print axioms C101_mode
#print axioms C101_moments
#print axioms C101_decision
#print axioms C101_distribution_partial
#print axioms C101_exact_partial
#print axioms C101_one
#print axioms C101_truncated
#print axioms C101_violated

end ABX.Sampler
