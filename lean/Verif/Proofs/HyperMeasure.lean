import Verif.Proofs.Hyper
import Mathlib.MeasureTheory.Constructions.Pi
import Mathlib.MeasureTheory.Function.Floor
import Mathlib.MeasureTheory.Measure.Lebesgue.Basic
import Mathlib.MeasureTheory.Integral.IntervalIntegral.Basic
import Mathlib.Analysis.SpecialFunctions.Integrals.Basic
import Mathlib.Analysis.SpecificLimits.Basic
/-!
Lemmas for C101: the probabilities of the outcomes of a round and of the loop.
-/
namespace ABX.Sampler
open ABX.Spec MeasureTheory Set

/-! ### repeated rounds -/
section
variable {Ω κ : Type} [MeasurableSpace Ω]

/-- the outcome of the first of `R` rounds that has one -/
def firstOf (T : Ω → Option κ) : (R : Nat) → (Fin R → Ω) → Option κ
  | 0, _ => none
  | R + 1, ω => match T (ω 0) with
    | some k => some k
    | none => firstOf T R (fun i => ω i.succ)

theorem firstOf_measure (T : Ω → Option κ) (μ : Measure Ω) [IsProbabilityMeasure μ] (k : κ) (hk : MeasurableSet {p | T p = some k}) (R : Nat) :
    Measure.pi (fun _ : Fin R => μ) {ω | firstOf T R ω = some k} = μ {p | T p = some k} * ∑ r ∈ Finset.range R, μ {p | T p = none} ^ r := by
  induction R with
  | zero => simp [firstOf]
  | succ R ih =>
    have hset : {ω : Fin (R + 1) → Ω | firstOf T (R + 1) ω = some k} =
        (MeasurableEquiv.piFinSuccAbove (fun _ => Ω) 0) ⁻¹' ({p | T p = some k} ×ˢ univ ∪ {p | T p = none} ×ˢ {ω | firstOf T R ω = some k}) := by
      ext ω
      simp only [mem_setOf_eq, mem_preimage, mem_union, mem_prod, mem_univ, and_true, firstOf]
      have h0 : ((MeasurableEquiv.piFinSuccAbove (fun _ => Ω) 0) ω).1 = ω 0 := rfl
      have h1 : ((MeasurableEquiv.piFinSuccAbove (fun _ => Ω) 0) ω).2 = fun i => ω i.succ := by
        funext i
        simp [MeasurableEquiv.piFinSuccAbove, Fin.insertNthEquiv]
        rfl
      rw [h0, h1]
      cases hT : T (ω 0) with
      | none => simp
      | some j => simp
    rw [hset, (measurePreserving_piFinSuccAbove (fun _ : Fin (R + 1) => μ) 0).measure_preimage_equiv, measure_union' ?_ (hk.prod MeasurableSet.univ), Measure.prod_prod, Measure.prod_prod, ih, measure_univ, mul_one,
      Finset.sum_range_succ']
    · rw [pow_zero, mul_add, mul_one, Finset.mul_sum, Finset.mul_sum, Finset.mul_sum, add_comm]
      congr 1
      refine Finset.sum_congr rfl fun r _ => ?_
      rw [pow_succ]
      ring
    · rw [Set.disjoint_left]
      rintro ⟨p, ω⟩ h h'
      have h1 : T p = some k := h.1
      have h2 : T p = none := h'.1
      rw [h1] at h2
      cases h2

end

/-! ### one round -/

/-- one call of `np.random.rand()`: uniform in [0, 1) -/
noncomputable def rand : Measure ℝ := volume.restrict (Ico 0 1)

/-- the two random numbers of a round -/
noncomputable def rand2 : Measure (ℝ × ℝ) := rand.prod rand

instance : IsProbabilityMeasure rand := ⟨by unfold rand; rw [Measure.restrict_apply_univ, Real.volume_Ico]; simp⟩

instance : IsProbabilityMeasure rand2 := by unfold rand2; infer_instance

/-- lines 165-166 -/
noncomputable def hyperUpper (N K n : Nat) : Int := min (min (n : Int) K + 1) (hyperUb N K n)

/-- the outcome of a round -/
noncomputable def trial (N K n : Nat) (p : ℝ × ℝ) : Option Int :=
  if hyperPropose N K n p.1 p.2 < 0 ∨ hyperPropose N K n p.1 p.2 ≥ hyperUpper N K n then none
  else if hyperAccept N K n p.1 (hyperPropose N K n p.1 p.2) then some (hyperPropose N K n p.1 p.2)
  else none

theorem trial_some {N K n : Nat} {p : ℝ × ℝ} {k : Int} : trial N K n p = some k ↔ hyperPropose N K n p.1 p.2 = k ∧ 0 ≤ k ∧ k < hyperUpper N K n ∧ hyperAccept N K n p.1 k = true := by
  unfold trial
  split
  · rename_i h
    constructor
    · intro h; cases h
    · rintro ⟨rfl, h1, h2, -⟩
      omega
  · rename_i h
    split
    · rename_i h'
      constructor
      · intro e
        have e := Option.some.inj e
        rw [e] at h h'
        exact ⟨e, by omega, by omega, h'⟩
      · rintro ⟨rfl, -⟩
        rfl
    · rename_i h'
      constructor
      · intro h; cases h
      · rintro ⟨rfl, -, -, h2⟩
        exact absurd h2 h'

theorem hyperC2_pos : 0 < hyperC2 := by
  unfold hyperC2
  have h1 : √(3 / Real.exp 1) < 3 / 2 := by
    rw [Real.sqrt_lt' (by norm_num), div_lt_iff₀ (Real.exp_pos 1)]
    have := Real.exp_one_gt_d9
    linarith
  linarith

theorem hyperB_pos (N K n : Nat) : 0 < hyperB N K n := by
  unfold hyperB hyperC1
  have := hyperC2_pos
  positivity

/-- what the hat must cover: the hypothesis of Stadlober's method -/
def CoveredAt (N K n k : Nat) : Prop := (|(k : ℝ) - average N K n| + 1 / 2) ^ 2 * ratio N K n k ≤ (hyperB N K n / 2) ^ 2

theorem measurable_propose (N K n : Nat) (k : Int) : MeasurableSet {p : ℝ × ℝ | hyperPropose N K n p.1 p.2 = k} := by
  have : Measurable (fun p : ℝ × ℝ => hyperPropose N K n p.1 p.2) := by
    unfold hyperPropose
    refine Int.measurable_floor.comp ?_
    fun_prop
  exact this (measurableSet_singleton k)

theorem measurable_accept (N K n : Nat) (k : Int) : MeasurableSet {U : ℝ | hyperAccept N K n U k = true} := by
  have : {U : ℝ | hyperAccept N K n U k = true} = {U | U * (4 - U) - 3 ≤ hyperP N K n (hyperMode N K n) - hyperP N K n k} ∪
      ({U | 1 ≤ U * (U - (hyperP N K n (hyperMode N K n) - hyperP N K n k))}ᶜ ∩ {U | 2 * Real.log U ≤ hyperP N K n (hyperMode N K n) - hyperP N K n k}) := by
    ext U
    simp only [mem_setOf_eq, mem_union, mem_inter_iff, mem_compl_iff]
    unfold hyperAccept
    dsimp only
    split
    · rename_i h
      exact ⟨fun _ => .inl h, fun _ => rfl⟩
    · rename_i h
      split
      · rename_i h'
        exact ⟨fun h => (by cases h), fun hc => hc.elim (fun hc => absurd hc h) (fun hc => absurd h' hc.1)⟩
      · rename_i h'
        rw [decide_eq_true_iff]
        exact ⟨fun hc => .inr ⟨h', hc⟩, fun hc => hc.elim (fun hc => absurd hc h) (fun hc => hc.2)⟩
  rw [this]
  refine (measurableSet_le (by fun_prop) measurable_const).union ((measurableSet_le measurable_const (by fun_prop)).compl.inter (measurableSet_le (by fun_prop) measurable_const))

theorem measurable_trial (N K n : Nat) (k : Int) : MeasurableSet {p | trial N K n p = some k} := by
  have : {p | trial N K n p = some k} = {p : ℝ × ℝ | hyperPropose N K n p.1 p.2 = k} ∩ ({p | 0 ≤ k ∧ k < hyperUpper N K n} ∩ Prod.fst ⁻¹' {U : ℝ | hyperAccept N K n U k = true}) := by
    ext p
    simp only [mem_setOf_eq, mem_inter_iff, mem_preimage]
    rw [trial_some]
    tauto
  rw [this]
  exact (measurable_propose N K n k).inter ((MeasurableSet.const _).inter (measurable_fst (measurable_accept N K n k)))

/-- the probability that a round ends with `k` -/
theorem trial_measure {N K n k : Nat} (h1 : k ≤ K) (h2 : k ≤ n) (h3 : K + n ≤ N) (hu : (k : Int) < hyperUpper N K n) (hc : CoveredAt N K n k) :
    rand2 {p | trial N K n p = some (k : Int)} = ENNReal.ofReal (ratio N K n k / (2 * hyperB N K n)) := by
  have hb := hyperB_pos N K n
  set b := hyperB N K n with hbdef
  set r := ratio N K n k with hrdef
  have hr0 : 0 < r := ratio_pos h1 h2 h3
  have hr1 : r ≤ 1 := ratio_le h1 h2 h3
  have hs0 : 0 < √r := Real.sqrt_pos.mpr hr0
  have hs1 : √r ≤ 1 := Real.sqrt_le_one.mpr hr1
  have hcov : (|(k : ℝ) - average N K n| + 1 / 2) * √r ≤ b / 2 := by
    unfold CoveredAt at hc
    refine le_of_sq_le_sq ?_ (by positivity)
    rw [mul_pow, Real.sq_sqrt hr0.le]
    exact hc
  have e1 : rand = volume.restrict (Ioc 0 1) := Measure.restrict_congr_set Ico_ae_eq_Ioc
  have e2 : rand = volume.restrict (Icc 0 1) := Measure.restrict_congr_set Ico_ae_eq_Icc
  unfold rand2
  rw [Measure.prod_apply (measurable_trial N K n k)]
  refine (congrArg (fun μ : Measure ℝ => ∫⁻ x, rand (Prod.mk x ⁻¹' {p | trial N K n p = some (k : Int)}) ∂μ) e1).trans ?_
  have hsec : ∀ U ∈ Ioc (0 : ℝ) 1, rand (Prod.mk U ⁻¹' {p | trial N K n p = some (k : Int)}) = (Ioc 0 (√r)).indicator (fun U => ENNReal.ofReal (U / b)) U := by
    intro U hU
    have hacc := accept_iff h1 h2 h3 hU.1 hU.2
    by_cases hUr : U ≤ √r
    · rw [indicator_of_mem (show U ∈ Ioc 0 (√r) from ⟨hU.1, hUr⟩)]
      have hsq : U ^ 2 ≤ r := by
        have := pow_le_pow_left₀ hU.1.le hUr 2
        rwa [Real.sq_sqrt hr0.le] at this
      have hset : Prod.mk U ⁻¹' {p | trial N K n p = some (k : Int)} = Ico ((k - hyperA N K n) * U / b + 1 / 2) ((k + 1 - hyperA N K n) * U / b + 1 / 2) := by
        ext V
        simp only [mem_preimage, mem_setOf_eq, mem_Ico]
        rw [trial_some]
        have hfl : hyperPropose N K n U V = (k : Int) ↔ (k : ℝ) ≤ hyperA N K n + b * (V - 1 / 2) / U ∧ hyperA N K n + b * (V - 1 / 2) / U < k + 1 := by
          unfold hyperPropose
          rw [Int.floor_eq_iff]
          push_cast
          rfl
        rw [hfl]
        have g1 : (k : ℝ) ≤ hyperA N K n + b * (V - 1 / 2) / U ↔ (k - hyperA N K n) * U / b + 1 / 2 ≤ V := by
          rw [← sub_le_iff_le_add', le_div_iff₀ hU.1, ← le_sub_iff_add_le, div_le_iff₀ hb, mul_comm b]
        have g2 : hyperA N K n + b * (V - 1 / 2) / U < k + 1 ↔ V < (k + 1 - hyperA N K n) * U / b + 1 / 2 := by
          rw [← lt_sub_iff_add_lt', div_lt_iff₀ hU.1, ← sub_lt_iff_lt_add, lt_div_iff₀ hb, mul_comm b]
        rw [g1, g2]
        constructor
        · rintro ⟨h, -⟩; exact h
        · intro h
          exact ⟨h, by omega, hu, hacc.mpr hsq⟩
      have habs : (|(k : ℝ) - average N K n| + 1 / 2) * U ≤ b / 2 := le_trans (mul_le_mul_of_nonneg_left hUr (by positivity)) hcov
      have hsub : Ico ((k - hyperA N K n) * U / b + 1 / 2) ((k + 1 - hyperA N K n) * U / b + 1 / 2) ⊆ Icc 0 1 := by
        intro V hV
        have ha : hyperA N K n = average N K n + 1 / 2 := rfl
        have l1 : -(1 / 2) ≤ (k - hyperA N K n) * U / b := by
          rw [le_div_iff₀ hb, ha]
          have := neg_abs_le ((k : ℝ) - average N K n)
          nlinarith [hU.1]
        have l2 : (k + 1 - hyperA N K n) * U / b ≤ 1 / 2 := by
          rw [div_le_iff₀ hb, ha]
          have := le_abs_self ((k : ℝ) - average N K n)
          nlinarith [hU.1]
        exact ⟨by linarith [hV.1], by linarith [hV.2]⟩
      rw [hset, e2, Measure.restrict_apply measurableSet_Ico, inter_eq_left.mpr hsub, Real.volume_Ico]
      congr 1
      field_simp
      ring
    · rw [indicator_of_notMem (fun h => hUr h.2)]
      have hset : Prod.mk U ⁻¹' {p | trial N K n p = some (k : Int)} = ∅ := by
        ext V
        simp only [mem_preimage, mem_setOf_eq, mem_empty_iff_false, iff_false]
        rw [trial_some]
        rintro ⟨-, -, -, h⟩
        exact hUr (Real.le_sqrt_of_sq_le (hacc.mp h))
      rw [hset, measure_empty]
  rw [setLIntegral_congr_fun measurableSet_Ioc hsec, setLIntegral_indicator measurableSet_Ioc, inter_eq_left.mpr (Ioc_subset_Ioc_right hs1)]
  rw [← ofReal_integral_eq_lintegral_ofReal]
  · congr 1
    rw [← intervalIntegral.integral_of_le hs0.le, intervalIntegral.integral_div, integral_id, Real.sq_sqrt hr0.le]
    field_simp
    ring
  · have : IntegrableOn (fun U : ℝ => U / b) (Icc 0 (√r)) := (continuous_id.div_const b).continuousOn.integrableOn_Icc
    exact this.mono_set Ioc_subset_Icc_self
  · refine (ae_restrict_iff' measurableSet_Ioc).mpr (Filter.Eventually.of_forall fun U hU => ?_)
    exact div_nonneg hU.1.le hb.le

end ABX.Sampler
