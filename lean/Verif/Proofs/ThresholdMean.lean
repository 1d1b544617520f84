import Verif.Spec.ThresholdMean
import Verif.Proofs.ThresholdChance
import Verif.Proofs.Choices
/-!
Lemmas for C104: the scores of the triplets that a threshold keeps.
-/
namespace ABX.Task
open MeasureTheory Set ExtSort Sampler Spec

theorem groupMean_eq (f : Nat × Nat × Nat → ℝ) (row : Nat × Nat × Nat → List Nat) (v : List Nat) {trips : List (Nat × Nat × Nat)} (hn : trips.Nodup) : groupMean f row v trips = meanOn f (classOf trips.toFinset row v) := by
  have e : classOf trips.toFinset row v = (trips.filter (fun t => row t = v)).toFinset := by
    ext x
    rw [mem_classOf, List.mem_toFinset, List.mem_toFinset, List.mem_filter, decide_eq_true_iff]
  unfold groupMean meanOn
  rw [e, List.sum_toFinset f (hn.filter _), List.toFinset_card_of_nodup (hn.filter _)]

theorem toFinset_map_row (trips : List (Nat × Nat × Nat)) (row : Nat × Nat × Nat → List Nat) : (trips.map row).toFinset = trips.toFinset.image row := by
  ext x
  simp

theorem weighted_mean {ι : Type} (C : Finset ι) (p m : ι → ℝ) {a lo' hi' : ℝ} (hsum : ∑ Q ∈ C, m Q = C.card * a) (hpos : (0 : ℝ) < C.card) (hnn : ∀ Q ∈ C, 0 ≤ m Q) (b : ∀ Q ∈ C, lo' / C.card ≤ p Q ∧ p Q ≤ hi' / C.card) :
    lo' * a ≤ ∑ Q ∈ C, p Q * m Q ∧ ∑ Q ∈ C, p Q * m Q ≤ hi' * a := by
  have e : ∀ z : ℝ, z * a = ∑ Q ∈ C, z / C.card * m Q := by
    intro z
    rw [← Finset.mul_sum, hsum]
    field_simp
  rw [e lo', e hi']
  exact ⟨Finset.sum_le_sum fun Q hQ => mul_le_mul_of_nonneg_right (b Q hQ).1 (hnn Q hQ), Finset.sum_le_sum fun Q hQ => mul_le_mul_of_nonneg_right (b Q hQ).2 (hnn Q hQ)⟩

section
variable {trips : List (Nat × Nat × Nat)} (hn : trips.Nodup) (row : Nat × Nat × Nat → List Nat)
include hn

theorem count_class (v : List Nat) : (trips.map row).count v = (classOf trips.toFinset row v).card := by
  have e : classOf trips.toFinset row v = (trips.filter (fun t => row t = v)).toFinset := by
    ext x
    rw [mem_classOf, List.mem_toFinset, List.mem_toFinset, List.mem_filter, decide_eq_true_iff]
  rw [e, List.toFinset_card_of_nodup (hn.filter _), List.count_eq_countP, List.countP_map, List.countP_eq_length_filter]
  refine congrArg List.length (List.filter_congr fun t _ => ?_)
  rw [Bool.eq_iff_iff, decide_eq_true_iff]
  simp

theorem choice_of_mem {T : Nat} {Q : Finset (Nat × Nat × Nat)} (hQ : Q ∈ choices trips.toFinset row T) : Choice trips (trips.map row) T Q := by
  rw [mem_choices] at hQ
  have e0 : ∀ v, (classOf Q row v).card = min T (classOf trips.toFinset row v).card := by
    intro v
    by_cases hv : v ∈ trips.toFinset.image row
    · exact hQ.2 v hv
    · have h1 : classOf trips.toFinset row v = ∅ := by
        rw [Finset.eq_empty_iff_forall_notMem]
        intro x hx
        rw [mem_classOf] at hx
        exact hv (hx.2 ▸ Finset.mem_image_of_mem row hx.1)
      have h2 : classOf Q row v = ∅ := by
        rw [Finset.eq_empty_iff_forall_notMem]
        intro x hx
        rw [mem_classOf] at hx
        exact hv (hx.2 ▸ Finset.mem_image_of_mem row (hQ.1 hx.1))
      rw [h1, h2]
      simp
  refine ⟨fun q hq => List.mem_toFinset.mp (hQ.1 hq), fun v => ?_⟩
  rw [count_class hn row v, ← e0 v]
  have hz : trips.zip (trips.map row) = trips.map (fun t => (t, row t)) := by
    clear hn hQ e0
    induction trips with
    | nil => rfl
    | cons a l ih => simp [ih]
  have e : classOf Q row v = (trips.filter (fun t => row t = v ∧ t ∈ Q)).toFinset := by
    ext x
    rw [mem_classOf, List.mem_toFinset, List.mem_filter, decide_eq_true_iff]
    exact ⟨fun h => ⟨List.mem_toFinset.mp (hQ.1 h.1), h.2, h.1⟩, fun h => ⟨h.2.2, h.2.1⟩⟩
  rw [hz, List.filter_map, List.length_map, e, List.toFinset_card_of_nodup (hn.filter _)]
  rfl

theorem choiceProb_eq (T : Nat) : choiceProb (trips.map row) T = 1 / ((choices trips.toFinset row T).card : ℝ) := by
  have e : (trips.map row).toFinset = trips.toFinset.image row := by
    ext x
    simp
  unfold choiceProb
  rw [card_choices, e, Finset.prod_div_distrib, Finset.prod_const_one]
  congr 1
  push_cast
  refine Finset.prod_congr rfl fun v _ => ?_
  rw [count_class hn row v]

end

/-- what is written is a choice -/
theorem written_choice {T : Nat} (hT : T ≠ 0) {src : Nat → Src} (hl : ∀ j, (src j).Lawful) {N : Num} (ha : ArgsortLaw N.argsort) (hN : N.Exact) {L : List Tri} (hn : (L.map lab).Nodup) {K : List (Tri → Nat)} (hK : K ≠ [])
    (hprod : (nRegs (K.map (fun k => L.map k))).prod ≤ 2 ^ 53) (hfit : ∀ t, fitIntegerType ((nRegs (K.map (fun k => L.map k))).prod : Nat) false = .ok t → (L.length : Int) ≤ t.hi)
    {row : Nat × Nat × Nat → List Nat} (hrow : ∀ t ∈ L, row (lab t) = keyRow K t) {trips : List (Nat × Nat × Nat)} {p u : List Nat} (h : sortBlock N T src (L.map lab) (K.map (fun k => L.map k)) = .ok (trips, p, u)) :
    trips.Nodup ∧ trips.toFinset ∈ choices (L.map lab).toFinset row T := by
  obtain ⟨L', hsel, rfl, -⟩ := sortBlock_sel ha hN hl hK hprod (Or.inr hfit) h
  obtain ⟨q, hq1, hq2⟩ := hsel.select
  have hsub : ∀ t ∈ L', t ∈ L := by
    intro t ht
    obtain ⟨g1, g2⟩ := gather_inv t hq2
    rw [g2] at ht
    obtain ⟨i, hi, e⟩ := List.mem_map.mp ht
    have hi' := g1 i hi
    simp only [List.getD_eq_getElem?_getD, List.getElem?_eq_getElem hi', Option.getD_some] at e
    rw [← e]
    exact List.getElem_mem hi'
  have hnd : (L'.map lab).Nodup := by
    rcases L with _ | ⟨t0, L0⟩
    · rcases L' with _ | ⟨t, L'⟩
      · simp
      · exact absurd (hsub t (by simp)) (by simp)
    · obtain ⟨g1, g2⟩ := gather_inv t0 hq2
      rw [g2, List.map_map]
      refine List.Nodup.map_on ?_ hq1
      intro x hx y hy e
      have hx' := g1 x hx
      have hy' := g1 y hy
      simp only [Function.comp] at e
      rw [← getD_map' (t0 :: L0) lab t0 (lab t0) hx', ← getD_map' (t0 :: L0) lab t0 (lab t0) hy'] at e
      have hx2 : x < ((t0 :: L0).map lab).length := by rw [List.length_map]; exact hx'
      have hy2 : y < ((t0 :: L0).map lab).length := by rw [List.length_map]; exact hy'
      simp only [List.getD_eq_getElem?_getD, List.getElem?_eq_getElem hx2, List.getElem?_eq_getElem hy2, Option.getD_some] at e
      exact (List.Nodup.getElem_inj_iff hn).mp e
  refine ⟨hnd, ?_⟩
  rw [mem_choices]
  refine ⟨?_, fun v _ => ?_⟩
  · intro x hx
    rw [List.mem_toFinset] at hx ⊢
    obtain ⟨t, ht, rfl⟩ := List.mem_map.mp hx
    exact List.mem_map_of_mem (hsub t ht)
  · have hcl : ∀ M : List Tri, (∀ t ∈ M, t ∈ L) → (M.map lab).Nodup → (classOf (M.map lab).toFinset row v).card = (M.filter (fun t => keyRow K t == v)).length := by
      intro M hM hnM
      rw [← count_class hnM row v, List.map_map, List.count_eq_countP, List.countP_map, List.countP_eq_length_filter]
      congr 1
      refine List.filter_congr fun t ht => ?_
      simp only [Function.comp]
      rw [hrow t (hM t ht)]
    rw [hcl L' hsub hnd, hcl L (fun _ h => h) hn, hsel.count v]
    unfold keepCount
    rw [if_neg hT]

variable {Ω : Type} [Inhabited Ω] [MeasurableSpace Ω] {μ : Measure Ω} [IsProbabilityMeasure μ] {S : Nat → Ω → Src} {lo hi : ℝ} {T M : Nat}

section
variable (hF : FairDraw μ S lo hi T M) (hT : T ≠ 0) {N : Num} (ha : ArgsortLaw N.argsort) (hN : N.Exact) {L : List Tri} (hL : L ≠ []) (hn : (L.map lab).Nodup) {K : List (Tri → Nat)} (hK : K ≠ [])
    (hprod : (nRegs (K.map (fun k => L.map k))).prod ≤ 2 ^ 53) (hfit : ∀ t, fitIntegerType ((nRegs (K.map (fun k => L.map k))).prod : Nat) false = .ok t → (L.length : Int) ≤ t.hi) (hM : L.length ≤ M)
    {row : Nat × Nat × Nat → List Nat} (hrow : ∀ t ∈ L, row (lab t) = keyRow K t)
include hF hT ha hN hL hn hK hprod hfit hM hrow

/-- the probability of a choice -/
theorem kept_bounds {Q : Finset (Nat × Nat × Nat)} (hQ : Q ∈ choices (L.map lab).toFinset row T) :
    let sizes := runSizes (N.argsort (blockIndex N L K)) (blockIndex N L K)
    let p := (Measure.pi (fun _ : Fin sizes.length => μ)).real {ω | ∃ trips p u, sortBlock N T (runSrc S sizes (extend ω)) (L.map lab) (K.map (fun k => L.map k)) = .ok (trips, p, u) ∧ ∀ x, x ∈ trips ↔ x ∈ Q}
    sizes.length = ((L.map lab).toFinset.image row).card ∧ lo ^ ((L.map lab).toFinset.image row).card / ((choices (L.map lab).toFinset row T).card : ℝ) ≤ p ∧
      p ≤ hi ^ ((L.map lab).toFinset.image row).card / ((choices (L.map lab).toFinset row T).card : ℝ) := by
  have hrows : L.map (keyRow K) = (L.map lab).map row := by
    rw [List.map_map]
    exact List.map_congr_left fun t ht => (hrow t ht).symm
  have key := block_prob hF hT ha hN hL hn hK hprod hfit hM (Q := Q) (by rw [hrows]; exact choice_of_mem hn row hQ)
  dsimp only at key ⊢
  rw [hrows, choiceProb_eq hn row T] at key
  have e := toFinset_map_row (L.map lab) row
  rw [e] at key
  rw [← key.1]
  exact ⟨rfl, by rw [div_eq_mul_one_div]; exact key.2.1, by rw [div_eq_mul_one_div]; exact key.2.2⟩

/-- the probability of a set of choices -/
theorem kept_le (P : Finset (Nat × Nat × Nat) → Prop) [DecidablePred P] :
    let sizes := runSizes (N.argsort (blockIndex N L K)) (blockIndex N L K)
    (Measure.pi (fun _ : Fin sizes.length => μ)).real {ω | ∃ trips p u, sortBlock N T (runSrc S sizes (extend ω)) (L.map lab) (K.map (fun k => L.map k)) = .ok (trips, p, u) ∧ P trips.toFinset} ≤
      hi ^ ((L.map lab).toFinset.image row).card * (((choices (L.map lab).toFinset row T).filter P).card / ((choices (L.map lab).toFinset row T).card : ℝ)) := by
  intro sizes
  have hsub : {ω : Fin sizes.length → Ω | ∃ trips p u, sortBlock N T (runSrc S sizes (extend ω)) (L.map lab) (K.map (fun k => L.map k)) = .ok (trips, p, u) ∧ P trips.toFinset} ⊆
      ⋃ Q ∈ (choices (L.map lab).toFinset row T).filter P, {ω | ∃ trips p u, sortBlock N T (runSrc S sizes (extend ω)) (L.map lab) (K.map (fun k => L.map k)) = .ok (trips, p, u) ∧ ∀ x, x ∈ trips ↔ x ∈ Q} := by
    rintro ω ⟨trips, p, u, h1, h2⟩
    obtain ⟨-, hc⟩ := written_choice hT (fun j => hF.lawful _ _) ha hN hn hK hprod hfit hrow h1
    rw [mem_iUnion₂]
    exact ⟨trips.toFinset, Finset.mem_filter.mpr ⟨hc, h2⟩, trips, p, u, h1, fun x => List.mem_toFinset.symm⟩
  refine (measureReal_mono hsub (measure_ne_top _ _)).trans ((measureReal_biUnion_finset_le _ _).trans ?_)
  refine (Finset.sum_le_sum fun Q hQ => (kept_bounds hF hT ha hN hL hn hK hprod hfit hM hrow (Finset.mem_filter.mp hQ).1).2.2).trans_eq ?_
  rw [Finset.sum_const, nsmul_eq_mul]
  ring

theorem kept_ge (hm : ∀ (k : Nat) (s : Set (Fin k → Ω)), MeasurableSet s) (P : Finset (Nat × Nat × Nat) → Prop) [DecidablePred P] :
    let sizes := runSizes (N.argsort (blockIndex N L K)) (blockIndex N L K)
    lo ^ ((L.map lab).toFinset.image row).card * (((choices (L.map lab).toFinset row T).filter P).card / ((choices (L.map lab).toFinset row T).card : ℝ)) ≤
    (Measure.pi (fun _ : Fin sizes.length => μ)).real {ω | ∃ trips p u, sortBlock N T (runSrc S sizes (extend ω)) (L.map lab) (K.map (fun k => L.map k)) = .ok (trips, p, u) ∧ P trips.toFinset} := by
  intro sizes
  have hsub : (⋃ Q ∈ (choices (L.map lab).toFinset row T).filter P, {ω : Fin sizes.length → Ω | ∃ trips p u, sortBlock N T (runSrc S sizes (extend ω)) (L.map lab) (K.map (fun k => L.map k)) = .ok (trips, p, u) ∧ ∀ x, x ∈ trips ↔ x ∈ Q}) ⊆
      {ω | ∃ trips p u, sortBlock N T (runSrc S sizes (extend ω)) (L.map lab) (K.map (fun k => L.map k)) = .ok (trips, p, u) ∧ P trips.toFinset} := by
    intro ω hω
    rw [mem_iUnion₂] at hω
    obtain ⟨Q, hQ, trips, p, u, h1, h2⟩ := hω
    have e : trips.toFinset = Q := by
      ext x
      rw [List.mem_toFinset, h2]
    exact ⟨trips, p, u, h1, by rw [e]; exact (Finset.mem_filter.mp hQ).2⟩
  refine le_trans ?_ (measureReal_mono hsub (measure_ne_top _ _))
  rw [measureReal_biUnion_finset ?_ (fun Q _ => hm _ _)]
  · refine le_trans (le_of_eq ?_) (Finset.sum_le_sum fun Q hQ => (kept_bounds hF hT ha hN hL hn hK hprod hfit hM hrow (Finset.mem_filter.mp hQ).1).2.1)
    rw [Finset.sum_const, nsmul_eq_mul]
    ring
  · intro Q _ Q' _ hne
    rw [Function.onFun, Set.disjoint_left]
    rintro ω ⟨trips, p, u, h1, h2⟩ ⟨trips', p', u', h1', h2'⟩
    rw [h1] at h1'
    cases h1'
    exact hne (Finset.ext fun x => (h2 x).symm.trans (h2' x))

/-- the expectation of the mean of the kept triplets -/
theorem kept_mean (hm : ∀ (k : Nat) (s : Set (Fin k → Ω)), MeasurableSet s) {v : List Nat} (hv : v ∈ (L.map lab).toFinset.image row) {f : Nat × Nat × Nat → ℝ} (hf : ∀ x ∈ L.map lab, 0 ≤ f x) :
    let sizes := runSizes (N.argsort (blockIndex N L K)) (blockIndex N L K)
    let E := ∫ ω, keptMean f row v (sortBlock N T (runSrc S sizes (extend ω)) (L.map lab) (K.map (fun k => L.map k))) ∂(Measure.pi (fun _ : Fin sizes.length => μ))
    lo ^ ((L.map lab).toFinset.image row).card * groupMean f row v (L.map lab) ≤ E ∧ E ≤ hi ^ ((L.map lab).toFinset.image row).card * groupMean f row v (L.map lab) := by
  intro sizes
  set C := choices (L.map lab).toFinset row T with hC
  set ev : Finset (Nat × Nat × Nat) → Set (Fin sizes.length → Ω) := fun Q => {ω | ∃ trips p u, sortBlock N T (runSrc S sizes (extend ω)) (L.map lab) (K.map (fun k => L.map k)) = .ok (trips, p, u) ∧ ∀ x, x ∈ trips ↔ x ∈ Q} with hev
  have hX : ∀ ω : Fin sizes.length → Ω, keptMean f row v (sortBlock N T (runSrc S sizes (extend ω)) (L.map lab) (K.map (fun k => L.map k))) = ∑ Q ∈ C, (ev Q).indicator (fun _ => meanOn f (classOf Q row v)) ω := by
    intro ω
    cases hs : sortBlock N T (runSrc S sizes (extend ω)) (L.map lab) (K.map (fun k => L.map k)) with
    | error e =>
      unfold keptMean
      symm
      refine Finset.sum_eq_zero fun Q _ => Set.indicator_of_notMem ?_ _
      rintro ⟨trips, p, u, h1, -⟩
      rw [hs] at h1
      cases h1
    | ok o =>
      obtain ⟨trips, p, u⟩ := o
      obtain ⟨hnd, hc⟩ := written_choice hT (fun j => hF.lawful _ _) ha hN hn hK hprod hfit hrow hs
      unfold keptMean
      dsimp only
      rw [groupMean_eq f row v hnd, Finset.sum_eq_single_of_mem trips.toFinset hc]
      · rw [Set.indicator_of_mem]
        exact ⟨trips, p, u, hs, fun x => List.mem_toFinset.symm⟩
      · intro Q _ hne
        refine Set.indicator_of_notMem ?_ _
        rintro ⟨trips', p', u', h1, h2⟩
        rw [hs] at h1
        cases h1
        exact hne (Finset.ext fun x => (h2 x).symm.trans List.mem_toFinset.symm)
  have hE : ∫ ω, keptMean f row v (sortBlock N T (runSrc S sizes (extend ω)) (L.map lab) (K.map (fun k => L.map k))) ∂(Measure.pi (fun _ : Fin sizes.length => μ)) =
      ∑ Q ∈ C, (Measure.pi (fun _ : Fin sizes.length => μ)).real (ev Q) * meanOn f (classOf Q row v) := by
    simp only [hX]
    rw [integral_finset_sum]
    · refine Finset.sum_congr rfl fun Q _ => ?_
      rw [integral_indicator_const _ (hm _ _), smul_eq_mul]
    · intro Q _
      exact (integrable_const _).indicator (hm _ _)
  have hmean : ∑ Q ∈ C, meanOn f (classOf Q row v) = C.card * groupMean f row v (L.map lab) := by
    rw [groupMean_eq f row v hn]
    exact mean_choices hT hv f
  have hpos : (0 : ℝ) < C.card := by exact_mod_cast choices_card_pos
  have hnn : ∀ Q ∈ C, 0 ≤ meanOn f (classOf Q row v) := by
    intro Q hQ
    unfold meanOn
    refine div_nonneg (Finset.sum_nonneg fun x hx => hf x ?_) (by positivity)
    exact List.mem_toFinset.mp ((mem_choices.mp hQ).1 (mem_classOf.mp hx).1)
  rw [hE]
  exact weighted_mean C _ _ hmean hpos hnn fun Q hQ => (kept_bounds hF hT ha hN hL hn hK hprod hfit hM hrow (Q := Q) hQ).2

end

end ABX.Task
