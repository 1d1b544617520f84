import Verif.Spec.ThresholdRun
import Verif.Proofs.ThresholdRun
import Verif.Properties.ThresholdMean
/-!
C106: the scores of the results of an experiment with a threshold are unbiased estimates of the scores without threshold, and are rarely far from them.
-/
namespace ABX.Pipeline
open MeasureTheory Set Filter Topology ProbabilityTheory ExtSort ABX.Task Pairs SideOps Sampler Distances Score EndToEnd Analyze F64
variable {ρ φ δ : Type}

private theorem close_cast {x y : ℚ} (h : |x - y| ≤ 2 ^ (-52 : ℤ)) : |(x : ℝ) - (y : ℝ)| ≤ 2 ^ (-52 : ℤ) := by
  have h' : ((|x - y| : ℚ) : ℝ) ≤ ((2 ^ (-52 : ℤ) : ℚ) : ℝ) := Rat.cast_le.mpr h
  rw [Rat.cast_abs, Rat.cast_sub] at h'
  refine h'.trans (le_of_eq ?_)
  norm_num

/-- C106: let `o` be a row of the results without threshold.  With a threshold, the score of the row with the same labels is, up to 2^-52, a random variable `X` of the random numbers with which the block of the row is sampled, whatever all other choices
(the random numbers of the other blocks, the sorts, buffers, number of cpus, order of the jobs); the expectation of `X` is the score of `o`, up to 2^-52 and up to the factors of C103 for each of the `g` groups of the block; and the score differs
by more than `ε` from that of `o` with a probability of at most `1 / (4 threshold ε ^ 2)`, up to the factors of C103 and roundings.  That there is such a row is C79.  If the random numbers are used up, `X` is 0.
Missing: tasks without across column, for which the sampling is by item (C94), regressors of A, and the cases excluded in C08 and C77. -/
theorem C106_unbiased_partial {Ω : Type} [Inhabited Ω] [MeasurableSpace Ω] {μ : Measure Ω} [IsProbabilityMeasure μ] {Sr : Nat → Ω → Src} {lo hi : ℝ} {threshold B : Nat} (hF : FairDraw μ Sr lo hi threshold B) (hm : ∀ (k : Nat) (s : Set (Fin k → Ω)), MeasurableSet s)
    {e : Env} (he : e.Lawful) {a : Args ρ} (ha : a.OK) (hf : Spec'.KeptFirst a) {T : Task.Task ρ} (h : init e a = .ok T)
    (hpos : ∀ (i : Nat) (p : Nat × Row), a.db[i]? = some p → p.1 = i) (hfeat : a.feat.length = a.db.length)
    (hA : ∀ f ∈ a.regressors, Spec.readsA a.cols f = false) (hac : a.across ≠ []) (hsub : ∀ c ∈ a.across, c ∈ a.cols.across) {idx : DBFun Nat → List Val}
    (hidx : ∀ f ∈ allRegs e a, 0 < (idx f).length ∧ ∀ L ∈ T.levels, ∀ t ∈ tripsSpec a L.key, Spec.regValue a.cols f t < (idx f).length) (hnd : ∀ f ∈ allRegs e a, (idx f).Nodup)
    (hc : ((allRegs e a).map (fun f => (idx f).length)).prod ≤ 2 ^ 53) (hz : Sizes a T) (hthr : 0 < threshold)
    (hG : ∀ L ∈ T.levels, GroupFit threshold a.cols a.on a.across (allRegs e a) (tripsSpec a L.key)) {N : Num} (hN : ArgsortLaw N.argsort) (hE : N.Exact)
    (hB : ∀ L ∈ T.levels, ∀ t ∈ tripsSpec a L.key, ((tripsSpec a L.key).filter (Spec.sameBlock a.on a.across t)).length ≤ B)
    {getFeat : ρ → Except Err φ} {distance : φ → φ → Except Err δ} {lt : δ → δ → Bool} (hlt : ∀ x y, lt x y = true → lt y x = false) {c0 : Choices} (hl0 : c0.Lawful) {F0 : File} {S0 : List Int}
    (hr0 : Ran c0 e T getFeat distance lt F0 S0) {rows0 : List OutRow} (hrows0 : collapse c0.sortRows ((colRegs T.regressors).map idx) F0 S0 = .ok rows0) {o : OutRow} (ho : o ∈ rows0) :
    Estimated μ Sr lo hi threshold N e a T getFeat distance lt ((colRegs T.regressors).map idx) o := by
  have hS0 := small_of he ha hf h hz hl0.num hl0.bl1 hl0.bl2 hr0.file
  obtain ⟨hreg, L, hL, hLk, Q0, abx, os0, t, ht, -, q2, -, q4, hos0, htr0, hlab, hsc⟩ := row_written he ha hf h hpos hfeat hA hidx hc hz hl0 hlt hr0 hS0 hrows0 ho
  have hQ0 := q2 rfl
  have ht' := hQ0.mem_iff.mp ht
  have q4' := fun u (hu : u ∈ tripsSpec a L.key) => q4 u (hQ0.mem_iff.mpr hu)
  have hABX : T.regressors.ops .ABX = [] := by
    refine levelOut_abx hos0 ?_
    rintro rfl
    have : Q0 = [] := by simpa using htr0.symm
    rw [this] at ht
    cases ht
  obtain ⟨k, M, K, row, Bk, hk⟩ := task_block he ha h hL (positional he ha hf h hL) hABX ht'
  have hval : ∀ u ∈ tripsSpec a L.key, (Task.lab u ∈ M.map Task.lab ∧ row (Task.lab u) = row (Task.lab t)) ↔ (colRegs T.regressors).map (fun f => Spec.regValue a.cols f u) = (colRegs T.regressors).map (fun f => Spec.regValue a.cols f t) := fun u hu =>
    (Bk.group u hu).trans (sameGroup_iff he ha h hL hA hac hsub hreg ht' hu)
  have hfit := hG L hL t ht'
  rw [← Bk.comb, ← Bk.length] at hfit
  have hprod := hfit.1
  have hfit' := hfit.2.resolve_left (by omega)
  have hMB : M.length ≤ B := by rw [Bk.length]; exact hB L hL t ht'
  have hMm : ∀ x ∈ M.map Task.lab, ∃ u ∈ tripsSpec a L.key, Task.lab u = x := fun x hx => by
    obtain ⟨u, hu, -, e⟩ := (Bk.mem x).mp hx
    exact ⟨u, hu, e⟩
  have htM : Task.lab t ∈ M.map Task.lab := ((hval t ht').mpr rfl).1
  have hMne : M ≠ [] := by rintro rfl; simp at htM
  obtain ⟨tM, htM1, htM2⟩ := List.mem_map.mp htM
  let f : Nat × Nat × Nat → ℝ := fun x => match (tripsSpec a L.key).find? (fun w => Task.lab w == x) with | some w => (abx w : ℝ) | none => 0
  have hfv : ∀ u ∈ tripsSpec a L.key, f (Task.lab u) = (abx u : ℝ) := by
    intro u hu
    show (match (tripsSpec a L.key).find? (fun w => Task.lab w == Task.lab u) with | some w => (abx w : ℝ) | none => 0) = _
    cases hfd : (tripsSpec a L.key).find? (fun w => Task.lab w == Task.lab u) with
    | none =>
      have := List.find?_eq_none.mp hfd u hu
      simp at this
    | some w =>
      have := List.find?_some hfd
      rw [beq_iff_eq] at this
      rw [tripsSpec_lab (List.mem_of_find?_eq_some hfd) hu this]
  have hf01 : ∀ u ∈ M, 0 ≤ f (Task.lab u) ∧ f (Task.lab u) ≤ 1 := by
    intro u hu
    obtain ⟨w, hw, e⟩ := hMm _ (List.mem_map_of_mem (f := Task.lab) hu)
    rw [← e, hfv w hw]
    obtain ⟨_, _, _, _, _, -, -, -, -, -, e⟩ := q4' w hw
    rw [e]
    split_ifs <;> norm_num
  -- the mean of a part of the triplets
  have hmean : ∀ (trips : List (Nat × Nat × Nat)) (Q : List Tri), trips.Nodup → (∀ x ∈ trips, x ∈ M.map Task.lab) → Q.Nodup → (∀ u ∈ Q, u ∈ tripsSpec a L.key) → (∀ u ∈ tripsSpec a L.key, Task.lab u ∈ M.map Task.lab → (u ∈ Q ↔ Task.lab u ∈ trips)) →
      groupMean f row (row (Task.lab t)) trips = ((((Q.filter (fun u => (colRegs T.regressors).map (fun f => Spec.regValue a.cols f u) == (colRegs T.regressors).map (fun f => Spec.regValue a.cols f t))).map abx).sum /
        (Q.filter (fun u => (colRegs T.regressors).map (fun f => Spec.regValue a.cols f u) == (colRegs T.regressors).map (fun f => Spec.regValue a.cols f t))).length : ℚ) : ℝ) := by
    intro trips Q hn hsubM hQn hQs hiff
    refine groupMean_of hn (List.Nodup.map_on ?_ (hQn.filter _)) ?_ (fun u hu => hfv u (hQs u (List.mem_filter.mp hu).1))
    · intro u hu w hw e
      exact tripsSpec_lab (hQs u (List.mem_filter.mp hu).1) (hQs w (List.mem_filter.mp hw).1) e
    · intro x
      constructor
      · rintro ⟨hx, hxr⟩
        obtain ⟨u, hu, rfl⟩ := hMm x (hsubM x hx)
        refine List.mem_map_of_mem (List.mem_filter.mpr ⟨(hiff u hu (hsubM _ hx)).mpr hx, ?_⟩)
        rw [beq_iff_eq]
        exact (hval u hu).mp ⟨hsubM _ hx, hxr⟩
      · intro hx
        obtain ⟨u, hu, rfl⟩ := List.mem_map.mp hx
        obtain ⟨hu1, hu2⟩ := List.mem_filter.mp hu
        rw [beq_iff_eq] at hu2
        obtain ⟨m1, m2⟩ := (hval u (hQs u hu1)).mpr hu2
        exact ⟨(hiff u (hQs u hu1) m1).mp hu1, m2⟩
  have hm0 : |(o.score : ℝ) - groupMean f row (row (Task.lab t)) (M.map Task.lab)| ≤ 2 ^ (-52 : ℤ) := by
    rw [hmean (M.map Task.lab) (tripsSpec a L.key) Bk.nodup (fun x hx => hx) (tripsSpec_nodup a L.key) (fun u hu => hu) (fun u hu hx => ⟨fun _ => hx, fun _ => hu⟩)]
    exact close_cast (hsc _ (hQ0.symm.filter _)).2.1
  have hv : ∃ u ∈ M, K.map (fun k => k u) = row (Task.lab t) := ⟨tM, htM1, by rw [← htM2]; exact (Bk.rows tM htM1).symm⟩
  have hrowK : ∀ u ∈ M, row (u.1.1, u.2.1.1, u.2.2.1) = K.map (fun k => k u) := Bk.rows
  have hthr0 : threshold ≠ 0 := by omega
  obtain ⟨b1, b2⟩ := C104_unbiased_partial hF hthr0 hN hE hMne Bk.nodup Bk.ne hprod hfit' hMB hrowK hm hv (f := f) (fun u hu => (hf01 u hu).1)
  have b3 := fun (ε : ℝ) (hε : 0 < ε) => C104_precision_partial hF hthr0 hN hE hMne Bk.nodup Bk.ne hprod hfit' hMB hrowK hv (f := f) hf01 hε
  -- a run
  have hrun : ∀ ω o', Rerun threshold N e T getFeat distance lt ((colRegs T.regressors).map idx) Sr k (groupSizes N M K) ω o o' →
      ∃ trips p u, sortBlock N threshold (runSrc Sr (groupSizes N M K) (extend ω)) (M.map Task.lab) (K.map (fun k => M.map k)) = .ok (trips, p, u) ∧ |(o'.score : ℝ) - groupMean f row (row (Task.lab t)) trips| ≤ 2 ^ (-52 : ℤ) := by
    rintro ω o' ⟨c, F, S, rows, hl, rfl, hsrc, hr, hrows, ho', hol, hob⟩
    have hS := small_ofT he ha hf h hz hl.num hE hG hl.src hl.bl1 hl.bl2 hr.file
    obtain ⟨-, L', hL', hLk', Q, abx', os, t', ht1, r1, -, r3, r4, hos, htr, hlab', hsc'⟩ := row_written he ha hf h hpos hfeat hA hidx hc hz hl hlt hr hS hrows ho'
    have hLL : L' = L := List.inj_on_of_nodup_map (init_keys_nodup he ha h) hL' hL (by rw [hLk', hLk, hob])
    subst hLL
    have hvv := isLabels_inj (fun f hf => hnd f (hreg.mem_iff.mp hf)) (fun f hf => (hidx f (hreg.mem_iff.mp hf)).2 L' hL' t' (r1 t' ht1)) (fun f hf => (hidx f (hreg.mem_iff.mp hf)).2 L' hL' t ht')
      (by rw [← hol]; exact hlab') hlab
    obtain ⟨trips, q, ix, e1, e2⟩ := Bk.out hos
    have hsrc' : c.src L'.key k = runSrc Sr (groupSizes c.num M K) (extend ω) := by rw [hLk]; exact funext hsrc
    rw [hsrc'] at e1
    obtain ⟨w1, w2⟩ := written_choice hthr0 (fun j => hF.lawful _ _) hN hE Bk.nodup Bk.ne hprod hfit' Bk.rows e1
    refine ⟨trips, q, ix, e1, ?_⟩
    rw [hmean trips Q w1 (fun x hx => List.mem_toFinset.mp ((Spec.mem_choices.mp w2).1 (List.mem_toFinset.mpr hx))) (r3.fit hE (hG L' hL')).1 r1 ?_]
    · have hs := (hsc' _ (.refl _)).2.1
      rw [hvv] at hs
      rw [← List.map_congr_left (f := abx') (fun u hu => IsAbx.unique (r4 u (List.mem_filter.mp hu).1) (q4' u (r1 u (List.mem_filter.mp hu).1)))]
      exact close_cast hs
    · intro u hu hx
      rw [← e2 _ hx, htr, List.mem_map]
      constructor
      · exact fun hq => ⟨u, hq, rfl⟩
      · rintro ⟨w, hw, e⟩
        rw [← tripsSpec_lab (r1 w hw) hu e]
        exact hw
  have hm1 := abs_le.mp hm0
  refine ⟨k, groupSizes N M K, (M.map (fun t => K.map (fun k => k t))).toFinset.card, fun ω => keptMean f row (row (Task.lab t)) (sortBlock N threshold (runSrc Sr (groupSizes N M K) (extend ω)) (M.map Task.lab) (K.map (fun k => M.map k))),
    ⟨t, by rw [← hLk]; exact ht', hk hac, hlab, ?_⟩, ?_, ?_, ?_, ?_⟩
  · rw [← hLk, ← Bk.length]
    refine (List.toFinset_card_le _).trans ?_
    rw [List.length_map]
  · intro ω o' hR
    obtain ⟨trips, p, u, e1, e2⟩ := hrun ω o' hR
    show |(o'.score : ℝ) - keptMean f row (row (Task.lab t)) (sortBlock N threshold (runSrc Sr (groupSizes N M K) (extend ω)) (M.map Task.lab) (K.map (fun k => M.map k)))| ≤ _
    rw [e1]
    exact e2
  · refine le_trans ?_ b1
    refine mul_le_mul_of_nonneg_left ?_ (pow_nonneg hF.low.1 _)
    show (o.score : ℝ) - 2 ^ (-52 : ℤ) ≤ groupMean f row (row (Task.lab t)) (M.map Task.lab)
    linarith [hm1.2]
  · refine le_trans b2 ?_
    refine mul_le_mul_of_nonneg_left ?_ (pow_nonneg (zero_le_one.trans hF.high) _)
    show groupMean f row (row (Task.lab t)) (M.map Task.lab) ≤ (o.score : ℝ) + 2 ^ (-52 : ℤ)
    linarith [hm1.1]
  · intro ε hε
    refine le_trans (measureReal_mono ?_ (measure_ne_top _ _)) (b3 ε hε)
    rintro ω ⟨o', hR, hd⟩
    obtain ⟨trips, p, u, e1, e2⟩ := hrun ω o' hR
    refine ⟨trips, p, u, e1, ?_⟩
    show ε ≤ |groupMean f row (row (Task.lab t)) trips - groupMean f row (row (Task.lab t)) (M.map Task.lab)|
    generalize groupMean f row (row (Task.lab t)) trips = x at *
    generalize groupMean f row (row (Task.lab t)) (M.map Task.lab) = y at *
    have h1 : |(o'.score : ℝ) - o.score| ≤ |(o'.score : ℝ) - x| + |x - y| + |(o.score : ℝ) - y| := by
      have e : (o'.score : ℝ) - o.score = ((o'.score : ℝ) - x) + (x - y) + -((o.score : ℝ) - y) := by ring
      rw [e]
      refine (abs_add_le _ _).trans ?_
      rw [abs_neg]
      exact add_le_add_left (abs_add_le _ _) _
    generalize (2 : ℝ) ^ (-52 : ℤ) = r at *
    linarith

/-- C106 for the random numbers of the code (see `C103_chance_partial`): blocks of at most 255 triplets -/
theorem C106_chance_partial {e : Env} (he : e.Lawful) {a : Args ρ} (ha : a.OK) (hf : Spec'.KeptFirst a) {T : Task.Task ρ} (h : init e a = .ok T)
    (hpos : ∀ (i : Nat) (p : Nat × Row), a.db[i]? = some p → p.1 = i) (hfeat : a.feat.length = a.db.length)
    (hA : ∀ f ∈ a.regressors, Spec.readsA a.cols f = false) (hac : a.across ≠ []) (hsub : ∀ c ∈ a.across, c ∈ a.cols.across) {idx : DBFun Nat → List Val}
    (hidx : ∀ f ∈ allRegs e a, 0 < (idx f).length ∧ ∀ L ∈ T.levels, ∀ t ∈ tripsSpec a L.key, Spec.regValue a.cols f t < (idx f).length) (hnd : ∀ f ∈ allRegs e a, (idx f).Nodup)
    (hc : ((allRegs e a).map (fun f => (idx f).length)).prod ≤ 2 ^ 53) (hz : Sizes a T) {threshold : Nat} (hthr : 0 < threshold)
    (hB : ∀ L ∈ T.levels, ∀ t ∈ tripsSpec a L.key, Spec.combinations a.cols (allRegs e a) ((tripsSpec a L.key).filter (Spec.sameBlock a.on a.across t)) ≤ 2 ^ 53 ∧ ((tripsSpec a L.key).filter (Spec.sameBlock a.on a.across t)).length ≤ 255)
    {N : Num} (hN : ArgsortLaw N.argsort) (hE : N.Exact) {getFeat : ρ → Except Err φ} {distance : φ → φ → Except Err δ} {lt : δ → δ → Bool} (hlt : ∀ x y, lt x y = true → lt y x = false)
    {lo : ℝ} (h0 : 0 ≤ lo) (h1 : lo < (1 - (255 : ℝ) / 2 ^ 53) ^ 255) :
    ∀ᶠ R in atTop, ∀ (c0 : Choices) (F0 : File) (S0 : List Int) (rows0 : List OutRow) (o : OutRow), c0.Lawful → Ran c0 e T getFeat distance lt F0 S0 → collapse c0.sortRows ((colRegs T.regressors).map idx) F0 S0 = .ok rows0 → o ∈ rows0 →
      Estimated (draws 255 R) (fun c => drawSrc 255 R threshold c) lo ((1 + (255 : ℝ) / 2 ^ 53) ^ 255) threshold N e a T getFeat distance lt ((colRegs T.regressors).map idx) o := by
  refine (fairDraw_eventually (M := 255) (T := threshold) (by norm_num) h0 (by exact_mod_cast h1)).mono fun R hR c0 F0 S0 rows0 o hl0 hr0 hrows0 ho => ?_
  have hG : ∀ L ∈ T.levels, GroupFit threshold a.cols a.on a.across (allRegs e a) (tripsSpec a L.key) := fun L hL => GroupFit.small fun t ht => ⟨(hB L hL t ht).1, (hB L hL t ht).2.trans (by norm_num)⟩
  exact_mod_cast C106_unbiased_partial hR (draws_measurable R) he ha hf h hpos hfeat hA hac hsub hidx hnd hc hz hthr hG hN hE (fun L hL t ht => (hB L hL t ht).2) hlt hl0 hr0 hrows0 ho

/-! ### examples -/

theorem ex2_blocks {T : Task.Task Nat} (hT : init E0 ex2 = .ok T) : ∀ L ∈ T.levels, ∀ t ∈ tripsSpec ex2 L.key,
    Spec.combinations ex2.cols (allRegs E0 ex2) ((tripsSpec ex2 L.key).filter (Spec.sameBlock ex2.on ex2.across t)) ≤ 2 ^ 53 ∧ ((tripsSpec ex2 L.key).filter (Spec.sameBlock ex2.on ex2.across t)).length ≤ 255 := by
  have h : (match init E0 ex2 with
      | .ok T => T.levels.all (fun L => (tripsSpec ex2 L.key).all (fun t =>
        decide (Spec.combinations ex2.cols (allRegs E0 ex2) ((tripsSpec ex2 L.key).filter (Spec.sameBlock ex2.on ex2.across t)) ≤ 2 ^ 53) &&
        decide (((tripsSpec ex2 L.key).filter (Spec.sameBlock ex2.on ex2.across t)).length ≤ 255)))
      | _ => true) = true := by decide +kernel
  rw [hT] at h
  simp only [List.all_eq_true, Bool.and_eq_true, decide_eq_true_eq] at h
  exact h

/-- C106, example: the scores of the rows of the task `ex2` (of 4 and 1 triplets) and their estimates from two triplets; and there are experiments with a threshold as considered in the theorem, here with random numbers that are always those of `src0` -/
example : ∃ T F S rows, init E0 ex2 = .ok T ∧ Ran (choices0 3 7) E0 T (fun r => .ok (r * r)) (fun f g => .ok (f % (g + 2) : Nat)) (fun x y => decide (x < y)) F S ∧
    collapse insArgsort ((colRegs T.regressors).map (fun _ => labels0)) F S = .ok rows ∧ rows ≠ [] ∧
    (∀ o ∈ rows, ∀ (k : List Val) (sizes : List Nat) (ω : Fin sizes.length → Unit), ∃ o', Rerun 2 N0 E0 T (fun r => .ok (r * r)) (fun f g => .ok (f % (g + 2) : Nat)) (fun x y => decide (x < y)) ((colRegs T.regressors).map (fun _ => labels0)) (fun _ _ => src0) k sizes ω o o') ∧
    ∀ᶠ R in atTop, ∀ o ∈ rows, Estimated (draws 255 R) (fun c => drawSrc 255 R 2 c) (1 / 2) ((1 + (255 : ℝ) / 2 ^ 53) ^ 255) 2 N0 E0 ex2 T (fun r => .ok (r * r)) (fun f g => .ok (f % (g + 2) : Nat)) (fun x y => decide (x < y))
      ((colRegs T.regressors).map (fun _ => labels0)) o := by
  obtain ⟨F, hF, d1, d2⟩ := ex2_file
  obtain ⟨T, h1, h2⟩ := run_ok hF
  obtain ⟨F', hF', d1', d2'⟩ := ex2_file2
  obtain ⟨T', h1', h2'⟩ := run_ok hF'
  rw [h1] at h1'
  cases h1'
  have hS : Small E0 T F := ex2_small h1 (by rw [d1]; decide)
  have hS' : Small E0 T F' := ex2_small h1 (by rw [d1']; decide)
  have hsq : ∀ L ∈ T.levels, ∀ p ∈ L.frame, p.1 < 94906265 := fun L hL p hp => by have := ex2_labels h1 L hL p hp; omega
  have hne : F.bys ≠ [] := by
    obtain ⟨total, t, tb, bouts, K⟩ := generate_ok (by omega) (by omega) h2
    intro h0
    rw [K.bys, List.map_eq_nil_iff] at h0
    have := congrArg List.length d2
    rw [K.index, h0] at this
    simp [intervals] at this
  obtain ⟨S, hr, hl, -⟩ := ran_exists ex2_ok h1 h2 hS hsq hne (by rw [d1]; decide) (n := 3) (m := 7) (by omega) (by omega) (g := fun r => r * r) (d := fun f g => f % (g + 2))
  obtain ⟨S', hr', hl', -⟩ := ran_exists ex2_ok h1 h2' hS' hsq (by rw [d2']; simp) (by rw [d1']; decide) (n := 2) (m := 3) (by omega) (by omega) (g := fun r => r * r) (d := fun f g => f % (g + 2))
  have hlt : ∀ x y : Nat, decide (x < y) = true → decide (y < x) = false := by intro x y h; simp at h ⊢; omega
  have hidx : ∀ f ∈ allRegs E0 ex2, 0 < labels0.length ∧ ∀ L ∈ T.levels, ∀ t ∈ tripsSpec ex2 L.key,
      Spec.regValue ex2.cols f t < labels0.length := fun f hf => ⟨by decide, fun L hL t ht => ex2_regs h1 f hf L hL t ht⟩
  obtain ⟨rows, rows', r1, r2, r3⟩ := C79_rows_partial E0_lawful ex2_ok (.of_not_bare (by intro f hf; cases hf)) h1 ex2_pos (by decide +kernel) (by intro f hf; cases hf) (by decide) (by decide)
    (idx := fun _ => labels0) hidx (by decide +kernel) (ex2_sizes h1) (threshold := 2) (by omega) (ex2_fit h1 2) (choices0_lawful (n := 3) (m := 7) (by omega)) (choices0_lawful (n := 2) (m := 3) (by omega)) N0_exact hlt hr hr'
  have hb : (1 / 2 : ℝ) < (1 - (255 : ℝ) / 2 ^ 53) ^ 255 := by
    have := one_add_mul_le_pow (a := -((255 : ℝ) / 2 ^ 53)) (by norm_num) 255
    rw [← sub_eq_add_neg] at this
    refine lt_of_lt_of_le ?_ this
    norm_num
  refine ⟨T, F, S, rows, h1, hr, r1, ?_, ?_, ?_⟩
  · rintro rfl
    obtain ⟨outs, a1, -, -, a4, a5⟩ := C77_results_partial E0_lawful ex2_ok (.of_not_bare (by intro f hf; cases hf)) h1 ex2_pos (by decide +kernel) (.inl (by intro f hf; cases hf)) (idx := fun _ => labels0) hidx (by decide +kernel) (ex2_sizes h1)
      (choices0_lawful (n := 3) (m := 7) (by omega)) hlt hr
    have e := (Except.ok.inj (r1.symm.trans a1)).symm
    obtain ⟨key, ks, hks⟩ := List.exists_cons_of_ne_nil hne
    have hk := (a4 key).mp (by rw [hks]; exact List.mem_cons_self ..)
    rw [hks] at a5
    cases a5 with
    | cons x _ =>
      obtain ⟨abx, -, combos, -, c2, c3⟩ := x
      obtain ⟨t, ht⟩ := List.exists_mem_of_ne_nil _ hk.2
      have hm := (c2 _).mpr ⟨t, ht, rfl⟩
      rw [List.flatten_cons, List.append_eq_nil_iff] at e
      rw [e.1] at c3
      cases c3
      cases hm
  · intro o ho k sizes ω
    obtain ⟨j, hj, rfl⟩ := List.getElem_of_mem ho
    have hj' : j < rows'.length := by rw [← r3.length_eq]; exact hj
    have e := (List.forall₂_iff_get.mp r3).2 j hj hj'
    exact ⟨rows'[j], choices0 2 3, F', S', rows', choices0_lawful (by omega), rfl, fun _ => rfl, hr', r2, List.getElem_mem hj', e.1, e.2.1⟩
  · refine (C106_chance_partial E0_lawful ex2_ok (.of_not_bare (by intro f hf; cases hf)) h1 ex2_pos (by decide +kernel) (by intro f hf; cases hf) (by decide) (by decide)
      (idx := fun _ => labels0) hidx (fun _ _ => by decide +kernel) (by decide +kernel) (ex2_sizes h1) (threshold := 2) (by omega) (ex2_blocks h1) insArgsort_law N0_exact hlt (by norm_num) hb).mono fun R hR o ho =>
      hR _ F S rows o (choices0_lawful (by omega)) hr r1 ho

#print axioms C106_chance_partial
#print axioms C106_unbiased_partial

end ABX.Pipeline
