import Verif.Proofs.ThresholdMean
import Verif.Properties.ThresholdChance
/-!
C104: the score of the triplets that a threshold keeps is an unbiased estimate of the score of all triplets, and is rarely far from it.
-/
namespace ABX.Task
open MeasureTheory Set Filter Topology ProbabilityTheory ExtSort Sampler

/-- the number of groups -/
theorem groups_card {L : List Tri} {K : List (Tri → Nat)} {row : Nat × Nat × Nat → List Nat} (hrow : ∀ t ∈ L, row (t.1.1, t.2.1.1, t.2.2.1) = K.map (fun k => k t)) :
    ((L.map lab).toFinset.image row).card = (L.map (fun t => K.map (fun k => k t))).toFinset.card := by
  have hrows : L.map (fun t => K.map (fun k => k t)) = (L.map lab).map row := by
    rw [List.map_map]
    exact List.map_congr_left fun t ht => (hrow t ht).symm
  rw [hrows, toFinset_map_row]

section
variable {Ω : Type} [Inhabited Ω] [MeasurableSpace Ω] {μ : Measure Ω} [IsProbabilityMeasure μ] {S : Nat → Ω → Src} {lo hi : ℝ} {T M : Nat} (hF : FairDraw μ S lo hi T M) (hT : T ≠ 0) {N : Num} (ha : ArgsortLaw N.argsort) (hN : N.Exact)
    {L : List Tri} (hL : L ≠ []) (hn : (L.map (fun t => (t.1.1, t.2.1.1, t.2.2.1))).Nodup) {K : List (Tri → Nat)} (hK : K ≠ [])
    (hprod : (nRegs (K.map (fun k => L.map k))).prod ≤ 2 ^ 53) (hfit : ∀ t, fitIntegerType ((nRegs (K.map (fun k => L.map k))).prod : Nat) false = .ok t → (L.length : Int) ≤ t.hi) (hM : L.length ≤ M)
    {row : Nat × Nat × Nat → List Nat} (hrow : ∀ t ∈ L, row (t.1.1, t.2.1.1, t.2.2.1) = K.map (fun k => k t))
include hF hT ha hN hL hn hK hprod hfit hM hrow

/-- C104, unbiased: the expectation of the mean score of the kept triplets with given regressors `v` is the mean score of all triplets with these regressors, up to the factors of C103; the scores `f` are any numbers that are not negative (those of C18 are between 0 and 1).
If nothing is written (the random numbers are used up) the mean counts as 0. -/
theorem C104_unbiased_partial (hm : ∀ (k : Nat) (s : Set (Fin k → Ω)), MeasurableSet s) {v : List Nat} (hv : ∃ t ∈ L, K.map (fun k => k t) = v) {f : Nat × Nat × Nat → ℝ} (hf : ∀ t ∈ L, 0 ≤ f (t.1.1, t.2.1.1, t.2.2.1)) :
    let E := ∫ ω, keptMean f row v (sortBlock N T (runSrc S (groupSizes N L K) (extend ω)) (L.map (fun t => (t.1.1, t.2.1.1, t.2.2.1))) (K.map (fun k => L.map k))) ∂(Measure.pi (fun _ : Fin (groupSizes N L K).length => μ))
    lo ^ (L.map (fun t => K.map (fun k => k t))).toFinset.card * groupMean f row v (L.map (fun t => (t.1.1, t.2.1.1, t.2.2.1))) ≤ E ∧
    E ≤ hi ^ (L.map (fun t => K.map (fun k => k t))).toFinset.card * groupMean f row v (L.map (fun t => (t.1.1, t.2.1.1, t.2.2.1))) := by
  obtain ⟨t0, ht0, rfl⟩ := hv
  have hv' : K.map (fun k => k t0) ∈ (L.map lab).toFinset.image row := by
    rw [← hrow t0 ht0]
    exact Finset.mem_image_of_mem row (List.mem_toFinset.mpr (List.mem_map_of_mem (f := lab) ht0))
  have key := kept_mean hF hT ha hN hL hn hK hprod hfit hM hrow hm hv' (f := f) (by
    intro x hx
    obtain ⟨t, ht, rfl⟩ := List.mem_map.mp hx
    exact hf t ht)
  rw [groups_card hrow] at key
  exact key

/-- C104, precision: the mean score of the kept triplets differs by `ε` or more from that of all triplets with the same regressors with a probability of at most `1 / (4 T ε ^ 2)`, up to the factor of C103 -/
theorem C104_precision_partial {v : List Nat} (hv : ∃ t ∈ L, K.map (fun k => k t) = v) {f : Nat × Nat × Nat → ℝ} (hf : ∀ t ∈ L, 0 ≤ f (t.1.1, t.2.1.1, t.2.2.1) ∧ f (t.1.1, t.2.1.1, t.2.2.1) ≤ 1) {ε : ℝ} (hε : 0 < ε) :
    (Measure.pi (fun _ : Fin (groupSizes N L K).length => μ)).real {ω | ∃ trips p u, sortBlock N T (runSrc S (groupSizes N L K) (extend ω)) (L.map (fun t => (t.1.1, t.2.1.1, t.2.2.1))) (K.map (fun k => L.map k)) = .ok (trips, p, u) ∧
      ε ≤ |groupMean f row v trips - groupMean f row v (L.map (fun t => (t.1.1, t.2.1.1, t.2.2.1)))|} ≤ hi ^ (L.map (fun t => K.map (fun k => k t))).toFinset.card * (1 / (4 * T * ε ^ 2)) := by
  classical
  obtain ⟨t0, ht0, rfl⟩ := hv
  have hv' : K.map (fun k => k t0) ∈ (L.map lab).toFinset.image row := by
    rw [← hrow t0 ht0]
    exact Finset.mem_image_of_mem row (List.mem_toFinset.mpr (List.mem_map_of_mem (f := lab) ht0))
  have key := kept_le hF hT ha hN hL hn hK hprod hfit hM hrow (fun Q => ε ≤ |Spec.meanOn f (Spec.classOf Q row (K.map (fun k => k t0))) - Spec.meanOn f (Spec.classOf (L.map lab).toFinset row (K.map (fun k => k t0)))|)
  have hch := Spec.chebyshev_choices (U := (L.map lab).toFinset) (r := row) hT hv' (f := f) (fun x hx => by
    obtain ⟨t, ht, rfl⟩ := List.mem_map.mp (List.mem_toFinset.mp hx)
    exact (hf t ht).1) (fun x hx => by
    obtain ⟨t, ht, rfl⟩ := List.mem_map.mp (List.mem_toFinset.mp hx)
    exact (hf t ht).2) hε
  rw [groups_card hrow] at key
  have hpos : (0 : ℝ) < (Spec.choices (L.map lab).toFinset row T).card := by exact_mod_cast Spec.choices_card_pos
  have h1 : 0 ≤ hi ^ (L.map (fun t => K.map (fun k => k t))).toFinset.card := pow_nonneg (zero_le_one.trans hF.high) _
  refine le_trans (measureReal_mono ?_ (measure_ne_top _ _)) (key.trans (mul_le_mul_of_nonneg_left ?_ h1))
  · rintro ω ⟨trips, p, u, h1, h2⟩
    obtain ⟨hnd, -⟩ := written_choice hT (fun j => hF.lawful _ _) ha hN hn hK hprod hfit hrow h1
    refine ⟨trips, p, u, h1, ?_⟩
    rw [groupMean_eq f row _ hnd, groupMean_eq f row _ hn] at h2
    exact h2
  · rw [div_le_iff₀ hpos, mul_comm]
    exact hch

/-- C104, inclusion: a triplet of a group of `c` triplets is kept with the probability `min(T, c) / c`, up to the factors of C103 -/
theorem C104_inclusion_partial (hm : ∀ (k : Nat) (s : Set (Fin k → Ω)), MeasurableSet s) {t0 : Tri} (ht0 : t0 ∈ L) :
    let c := (L.map (fun t => K.map (fun k => k t))).count (K.map (fun k => k t0))
    let P := (Measure.pi (fun _ : Fin (groupSizes N L K).length => μ)).real {ω | ∃ trips p u, sortBlock N T (runSrc S (groupSizes N L K) (extend ω)) (L.map (fun t => (t.1.1, t.2.1.1, t.2.2.1))) (K.map (fun k => L.map k)) = .ok (trips, p, u) ∧
      (t0.1.1, t0.2.1.1, t0.2.2.1) ∈ trips}
    lo ^ (L.map (fun t => K.map (fun k => k t))).toFinset.card * ((min T c : Nat) / (c : ℝ)) ≤ P ∧ P ≤ hi ^ (L.map (fun t => K.map (fun k => k t))).toFinset.card * ((min T c : Nat) / (c : ℝ)) := by
  intro c
  have hrows : L.map (fun t => K.map (fun k => k t)) = (L.map lab).map row := by
    rw [List.map_map]
    exact List.map_congr_left fun t ht => (hrow t ht).symm
  have hmem : lab t0 ∈ Spec.classOf (L.map lab).toFinset row (K.map (fun k => k t0)) :=
    Spec.mem_classOf.mpr ⟨List.mem_toFinset.mpr (List.mem_map_of_mem ht0), hrow t0 ht0⟩
  have hc : c = (Spec.classOf (L.map lab).toFinset row (K.map (fun k => k t0))).card := by
    show (L.map (fun t => K.map (fun k => k t))).count (K.map (fun k => k t0)) = _
    rw [hrows, count_class hn]
  have hcp : (0 : ℝ) < c := by
    rw [hc]
    exact_mod_cast Finset.card_pos.mpr ⟨_, hmem⟩
  have hp := Spec.pairCount_eq (T := T) hmem
  rw [← hc] at hp
  have hpos : (0 : ℝ) < (Spec.choices (L.map lab).toFinset row T).card := by exact_mod_cast Spec.choices_card_pos
  have e : (((Spec.choices (L.map lab).toFinset row T).filter (fun Q => lab t0 ∈ Q)).card : ℝ) / (Spec.choices (L.map lab).toFinset row T).card = (min T c : Nat) / (c : ℝ) := by
    rw [div_eq_div_iff hpos.ne' hcp.ne', ← hp]
    unfold Spec.pairCount
    simp only [and_self]
  have k1 := kept_le hF hT ha hN hL hn hK hprod hfit hM hrow (fun Q => lab t0 ∈ Q)
  have k2 := kept_ge hF hT ha hN hL hn hK hprod hfit hM hrow hm (fun Q => lab t0 ∈ Q)
  rw [groups_card hrow, e] at k1 k2
  simp only [List.mem_toFinset] at k1 k2
  exact ⟨k2, k1⟩

/-- C104, the probability that the triplets of the block are written (the samplings end) is at least the factor of C103 -/
theorem C104_written_partial (hm : ∀ (k : Nat) (s : Set (Fin k → Ω)), MeasurableSet s) :
    lo ^ (L.map (fun t => K.map (fun k => k t))).toFinset.card ≤ (Measure.pi (fun _ : Fin (groupSizes N L K).length => μ)).real
      {ω | ∃ trips p u, sortBlock N T (runSrc S (groupSizes N L K) (extend ω)) (L.map (fun t => (t.1.1, t.2.1.1, t.2.2.1))) (K.map (fun k => L.map k)) = .ok (trips, p, u)} := by
  have key := kept_ge hF hT ha hN hL hn hK hprod hfit hM hrow hm (fun _ => True)
  have hpos : (0 : ℝ) < (Spec.choices (L.map lab).toFinset row T).card := by exact_mod_cast Spec.choices_card_pos
  rw [groups_card hrow, Finset.filter_true, div_self hpos.ne', mul_one] at key
  simp only [and_true] at key
  exact key

end

theorem draws_measurable (R k : Nat) (s : Set (Fin k → Draws 255 R)) : MeasurableSet s := (Set.to_countable s).measurableSet

/-- C104 for the random numbers of the code (see `C103_chance_partial`): blocks of at most 255 triplets -/
theorem C104_chance_partial {T : Nat} (hT : T ≠ 0) {N : Num} (ha : ArgsortLaw N.argsort) (hN : N.Exact) {lo : ℝ} (h0 : 0 ≤ lo) (h1 : lo < (1 - (255 : ℝ) / 2 ^ 53) ^ 255) :
    ∀ᶠ R in atTop, ∀ (L : List Tri) (K : List (Tri → Nat)) (row : Nat × Nat × Nat → List Nat), L ≠ [] → L.length ≤ 255 → (L.map (fun t => (t.1.1, t.2.1.1, t.2.2.1))).Nodup → K ≠ [] → (nRegs (K.map (fun k => L.map k))).prod ≤ 2 ^ 53 →
      (∀ t ∈ L, row (t.1.1, t.2.1.1, t.2.2.1) = K.map (fun k => k t)) → ∀ v, (∃ t ∈ L, K.map (fun k => k t) = v) → ∀ f : Nat × Nat × Nat → ℝ, (∀ t ∈ L, 0 ≤ f (t.1.1, t.2.1.1, t.2.2.1) ∧ f (t.1.1, t.2.1.1, t.2.2.1) ≤ 1) →
      let P := Measure.pi (fun _ : Fin (groupSizes N L K).length => draws 255 R)
      let out := fun ω : Fin (groupSizes N L K).length → Draws 255 R => sortBlock N T (runSrc (fun c => drawSrc 255 R T c) (groupSizes N L K) (extend ω)) (L.map (fun t => (t.1.1, t.2.1.1, t.2.2.1))) (K.map (fun k => L.map k))
      let g := (L.map (fun t => K.map (fun k => k t))).toFinset.card
      let mean := groupMean f row v (L.map (fun t => (t.1.1, t.2.1.1, t.2.2.1)))
      (lo ^ g * mean ≤ ∫ ω, keptMean f row v (out ω) ∂P ∧ ∫ ω, keptMean f row v (out ω) ∂P ≤ ((1 + (255 : ℝ) / 2 ^ 53) ^ 255) ^ g * mean) ∧
      ∀ ε : ℝ, 0 < ε → P.real {ω | ∃ trips p u, out ω = .ok (trips, p, u) ∧ ε ≤ |groupMean f row v trips - mean|} ≤ ((1 + (255 : ℝ) / 2 ^ 53) ^ 255) ^ g * (1 / (4 * T * ε ^ 2)) := by
  refine (fairDraw_eventually (M := 255) (T := T) (by norm_num) h0 (by exact_mod_cast h1)).mono fun R hR L K row hL hl hn hK hprod hrow v hv f hf => ?_
  have hfit : ∀ t, fitIntegerType ((nRegs (K.map (fun k => L.map k))).prod : Nat) false = .ok t → (L.length : Int) ≤ t.hi := fun t ht => by have := hi_ge ht; omega
  have k1 := C104_unbiased_partial hR hT ha hN hL hn hK hprod hfit hl hrow (draws_measurable R) hv (f := f) (fun t ht => (hf t ht).1)
  have k2 := fun (ε : ℝ) (hε : 0 < ε) => C104_precision_partial hR hT ha hN hL hn hK hprod hfit hl hrow hv (f := f) hf hε
  exact_mod_cast (⟨k1, k2⟩ : _ ∧ _)

/-- the hypotheses of C104 are met: of the three triplets with the regressor 0 of `chanceBlock`, with scores 1, 0 and 1/2, two are kept; the expectation of their mean is at least 1/8 (near 1/2) -/
example {N : Num} (ha : ArgsortLaw N.argsort) (hN : N.Exact) : ∀ᶠ R in atTop, (1 / 2) ^ 2 * (1 / 2) ≤
    ∫ ω, keptMean (fun t => if t.2.1 = 1 then 1 else if t.2.1 = 2 then 0 else 1 / 2) (fun t => [if t.2.1 = 4 then 1 else 0]) [0]
      (sortBlock N 2 (runSrc (fun c => drawSrc 255 R 2 c) (groupSizes N chanceBlock [fun t => if t.2.1.1 = 4 then 1 else 0]) (extend ω)) (chanceBlock.map (fun t => (t.1.1, t.2.1.1, t.2.2.1))) ([fun t : Tri => if t.2.1.1 = 4 then 1 else 0].map (fun k => chanceBlock.map k)))
      ∂(Measure.pi (fun _ : Fin (groupSizes N chanceBlock [fun t => if t.2.1.1 = 4 then 1 else 0]).length => draws 255 R)) := by
  have hb : (1 / 2 : ℝ) < (1 - (255 : ℝ) / 2 ^ 53) ^ 255 := by
    have := one_add_mul_le_pow (a := -((255 : ℝ) / 2 ^ 53)) (by norm_num) 255
    rw [← sub_eq_add_neg] at this
    refine lt_of_lt_of_le ?_ this
    norm_num
  refine (C104_chance_partial (T := 2) (by norm_num) ha hN (by norm_num) hb).mono fun R hR => ?_
  have := (hR chanceBlock [fun t => if t.2.1.1 = 4 then 1 else 0] (fun t => [if t.2.1 = 4 then 1 else 0]) (by simp [chanceBlock]) (by simp [chanceBlock]) (by decide) (by simp) (by decide) (fun t _ => rfl) [0]
    ⟨((0, fun _ => .int 0), (1, fun _ => .int 0), (5, fun _ => .int 0)), by simp [chanceBlock], by simp⟩ (fun t => if t.2.1 = 1 then 1 else if t.2.1 = 2 then 0 else 1 / 2) (fun t _ => by dsimp only; split_ifs <;> norm_num)).1.1
  have hrows : (chanceBlock.map (fun t => [fun t : Tri => if t.2.1.1 = 4 then 1 else 0].map (fun k => k t))) = [[0], [0], [0], [1]] := by decide
  rw [hrows, show ([[0], [0], [0], [1]] : List (List Nat)).toFinset.card = 2 by decide] at this
  have hmean : groupMean (fun t => if t.2.1 = 1 then 1 else if t.2.1 = 2 then 0 else 1 / 2) (fun t => [if t.2.1 = 4 then 1 else 0]) [0] (chanceBlock.map (fun t => (t.1.1, t.2.1.1, t.2.2.1))) = 1 / 2 := by
    unfold groupMean
    have hfl : (chanceBlock.map (fun t => (t.1.1, t.2.1.1, t.2.2.1))).filter (fun t => ([if t.2.1 = 4 then 1 else 0] : List Nat) = [0]) = [(0, 1, 5), (0, 2, 5), (0, 3, 5)] := by decide
    rw [hfl]
    norm_num
  rw [hmean] at this
  exact this

/-- C104 is violated in large blocks: of the two triplets with the regressor 1 of `largeBlock` none is ever kept by a threshold of 1, whatever the random numbers (each should be kept with the probability 1/2) -/
theorem C104_violated {Ω : Type} [Inhabited Ω] [MeasurableSpace Ω] {μ : Measure Ω} {S : Nat → Ω → Src} (i : Nat) (hi : 257 ≤ i) :
    (Measure.pi (fun _ : Fin (groupSizes N0 largeBlock [fun t => if t.1.1 < 257 then 0 else 1]).length => μ)).real
      {ω | ∃ trips p u, sortBlock N0 1 (runSrc S (groupSizes N0 largeBlock [fun t => if t.1.1 < 257 then 0 else 1]) (extend ω)) (largeBlock.map (fun t => (t.1.1, t.2.1.1, t.2.2.1))) ([fun t : Tri => if t.1.1 < 257 then 0 else 1].map (fun k => largeBlock.map k)) = .ok (trips, p, u) ∧
        (i, i, i) ∈ trips} = 0 := by
  convert measureReal_empty
  rw [Set.eq_empty_iff_forall_notMem]
  rintro ω ⟨trips, p, u, h1, h2⟩
  have := largeBlock_kept h1 _ h2
  omega

#print axioms C104_violated
#print axioms C104_unbiased_partial
#print axioms C104_precision_partial
#print axioms C104_inclusion_partial
#print axioms C104_written_partial
#print axioms C104_chance_partial

end ABX.Task
