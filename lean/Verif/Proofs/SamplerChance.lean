import Verif.Spec.SamplerChance
import Verif.Proofs.SamplerUniform
/-!
Lemmas for C102: the distribution of a call of `simple_sample`.
-/
namespace ABX.Sampler
open ABX.Spec MeasureTheory Set Filter Topology ProbabilityTheory

theorem drawOf_length {R k N : Nat} (v : Fin R → Fin k → Fin N) {i j : Nat} (hi : i < R) (hj : j ≤ k) : (drawOf v i j).length = j := by
  unfold drawOf
  rw [dif_pos hi, List.length_map, List.length_take, List.length_ofFn]
  omega

theorem chanceSrc_lawful (M R N K n : Nat) (w : Chance M R) : (chanceSrc M R N K n w).Lawful := by
  have hp : ∀ {k n : Nat} (v : Fin R → Fin k → Fin n), (∀ N' i j, (padDraw v N' i j).length = j) ∧ ∀ N' i j, 0 < N' → ∀ x ∈ padDraw v N' i j, x < N' := by
    intro k n v
    constructor
    · intro N' i j
      unfold padDraw
      split
      · rename_i h
        exact drawOf_length v h.1 h.2.1
      · simp
    · intro N' i j h0 x hx
      unfold padDraw at hx
      split at hx
      · rename_i h
        rw [h.2.2]
        exact drawOf_lt v i j x hx
      · rw [List.eq_of_mem_replicate hx]
        exact h0
  have hz : (∀ _N' _i j : Nat, (List.replicate j 0).length = j) ∧ ∀ N' _i j : Nat, 0 < N' → ∀ x ∈ List.replicate j 0, x < N' :=
    ⟨fun _ _ j => by simp, fun N' _ j h0 x hx => by rw [List.eq_of_mem_replicate hx]; exact h0⟩
  constructor
  · intro i
    unfold chanceSrc
    dsimp only
    split
    · unfold stream
      split
      · exact Fin.isLt _
      · positivity
    · positivity
  · intro N' i j
    unfold chanceSrc
    dsimp only
    split
    · split
      · exact (hp _).1 N' i j
      · exact hz.1 N' i j
    · exact hz.1 N' i j
  · intro N' i j
    unfold chanceSrc
    dsimp only
    split
    · split
      · exact (hp _).2 N' i j
      · exact hz.2 N' i j
    · exact hz.2 N' i j

theorem rejectionLoop_pad {R k N : Nat} (v : Fin R → Fin k → Fin N) : ∀ fuel i s, i + fuel = R → rejectionLoop k (padDraw v N) fuel i s = rejectionLoop k (drawOf v) fuel i s
  | 0, i, s, _ => by
    unfold rejectionLoop
    rfl
  | fuel + 1, i, s, h => by
    unfold rejectionLoop
    by_cases h0 : k - s.length > 0
    · rw [if_pos h0, if_pos h0]
      dsimp only
      rw [rejectionLoop_pad v fuel (i + 1) _ (by omega)]
      unfold padDraw
      rw [if_pos ⟨by omega, by omega, rfl⟩]
    · rw [if_neg h0, if_neg h0]

theorem rejection_pad {R k N : Nat} (v : Fin R → Fin k → Fin N) : rejection k N (padDraw v N) R = rejection k N (drawOf v) R := by
  unfold rejection
  rw [rejectionLoop_pad v R 0 [] (by omega)]

theorem knuthLoop_more (N n : Nat) (u : Nat → Nat) : ∀ f t m r, knuthLoop N n u f t m = .ok r → ∀ g, f ≤ g → knuthLoop N n u g t m = .ok r := by
  intro f
  induction f with
  | zero =>
    intro t m r hr g hg
    unfold knuthLoop at hr
    split at hr
    · cases hr
    · rename_i h
      cases hr
      unfold knuthLoop
      rw [if_neg h]
  | succ f ih =>
    intro t m r hr g hg
    obtain ⟨g, rfl⟩ : ∃ g', g = g' + 1 := ⟨g - 1, by omega⟩
    unfold knuthLoop at hr ⊢
    by_cases hm : m < n
    · rw [if_pos hm] at hr ⊢
      dsimp only at hr ⊢
      by_cases hit : ((N : Int) - t) * u t < ((n : Int) - m) * 2 ^ 53
      · rw [if_pos hit] at hr ⊢
        cases hq : knuthLoop N n u f (t + 1) (m + 1) with
        | error e => rw [hq] at hr; cases hr
        | ok q => rw [hq] at hr; rw [ih _ _ q hq g (by omega)]; exact hr
      · rw [if_neg hit] at hr ⊢
        exact ih _ _ r hr g (by omega)
    · rw [if_neg hm] at hr ⊢
      exact hr

theorem knuth_more {n N : Nat} (h : n ≤ N) (u : Nat → Nat) (hu : ∀ i, u i < 2 ^ 53) {R : Nat} (hR : N ≤ R) : knuth n N u R = knuth n N u N := by
  obtain ⟨s, h1, -⟩ := C39_knuth_sample n N h u hu N (le_refl _)
  rw [h1]
  exact knuthLoop_more N n u N 0 0 s h1 R hR

theorem stream_lt {N : Nat} (u : Fin N → Fin (2 ^ 53)) (i : Nat) : stream u i < 2 ^ 53 := by
  unfold stream
  split
  · exact Fin.isLt _
  · positivity

/-- whether the random numbers for a chunk of `n` items lead to the sample `l` -/
def swrEvent (R n : Nat) (l : List Nat) (hl : l.length < n + 1) : Set ((Fin n → Fin (2 ^ 53)) × ((k : Fin (n + 1)) → Fin R → Fin k.val → Fin n)) :=
  if n > 100 ∧ 10 * l.length < 6 * n then {b | rejection l.length n (drawOf (b.2 ⟨l.length, hl⟩)) R = .ok l} else {b | knuth l.length n (stream b.1) n = .ok l}

theorem simple_event {M R : Nat} {s : IS} {n : Nat} {l : List Nat} (hs : s.K ≤ s.N) (hN : 0 < n) (hn : n ≤ s.N) (hn' : n < M + 1) (hR : M ≤ R) (hl1 : StrictInc l) (hl2 : ∀ x ∈ l, x < n) (hl : l.length < n + 1) (w : Chance M R) :
    (∃ s', s.simpleSample n (chanceSrc M R s.N s.K n w) = .ok (s', l)) ↔
    hypergeometric s.N s.K n (hyperSrc s.N s.K n (rounds w.1) R) = .ok (l.length : Nat) ∧ w.2 ⟨n, hn'⟩ ∈ swrEvent R n l hl := by
  have hsame : hypergeometric s.N s.K n (chanceSrc M R s.N s.K n w) = hypergeometric s.N s.K n (hyperSrc s.N s.K n (rounds w.1) R) := rfl
  unfold IS.simpleSample
  rw [hsame]
  cases hk : hypergeometric s.N s.K n (hyperSrc s.N s.K n (rounds w.1) R) with
  | error e => simp
  | ok k =>
    have hr := hypergeometric_range s.N s.K n _ (by omega) (by omega) (by omega) (by omega) (by omega) k hk
    obtain ⟨k, rfl⟩ := Int.eq_ofNat_of_zero_le (show 0 ≤ k by omega)
    have hkn : k < n + 1 := by omega
    have hu : (chanceSrc M R s.N s.K n w).u = stream (w.2 ⟨n, hn'⟩).1 := by
      unfold chanceSrc
      dsimp only
      rw [dif_pos hn']
    have hd : (chanceSrc M R s.N s.K n w).draw = padDraw ((w.2 ⟨n, hn'⟩).2 ⟨k, hkn⟩) := by
      unfold chanceSrc
      dsimp only
      rw [dif_pos hn']
      have hc : hyperCount s.N s.K n (hyperSrc s.N s.K n (rounds w.1) R) = k := by
        unfold hyperCount
        rw [hk]
        rfl
      generalize hyperCount s.N s.K n (hyperSrc s.N s.K n (rounds w.1) R) = c at hc
      subst hc
      rw [dif_pos hkn]
    have hf : (chanceSrc M R s.N s.K n w).fuel = R := rfl
    have hsw : sampleWithoutReplacement k n (chanceSrc M R s.N s.K n w) =
        if n > 100 ∧ 10 * k < 6 * n then rejection k n (drawOf ((w.2 ⟨n, hn'⟩).2 ⟨k, hkn⟩)) R else knuth k n (stream (w.2 ⟨n, hn'⟩).1) n := by
      unfold sampleWithoutReplacement
      rw [hu, hd, hf, rejection_pad, knuth_more (by omega) _ (stream_lt _) (by omega)]
    dsimp only
    rw [Int.toNat_natCast, hsw]
    constructor
    · rintro ⟨s', h⟩
      have hlen : l.length = k := by
        split at h
        · cases h
        · rename_i l' hl'
          cases h
          rw [← hsw] at hl'
          exact (swr_ok k n _ (chanceSrc_lawful M R _ _ n w) (by omega) _ hl').1
      subst hlen
      refine ⟨rfl, ?_⟩
      unfold swrEvent
      split at h
      · cases h
      · rename_i l' hl'
        cases h
        split
        · rename_i hc
          rw [if_pos hc] at hl'
          exact hl'
        · rename_i hc
          rw [if_neg hc] at hl'
          exact hl'
    · rintro ⟨h1, h2⟩
      have hlen : k = l.length := by
        have := Except.ok.inj h1
        omega
      subst hlen
      unfold swrEvent at h2
      refine ⟨{ s with N := s.N - n, K := s.K - l.length }, ?_⟩
      by_cases hc : n > 100 ∧ 10 * l.length < 6 * n
      · rw [if_pos hc] at h2 ⊢
        have h2 : rejection l.length n (drawOf ((w.2 ⟨n, hn'⟩).2 ⟨l.length, hl⟩)) R = .ok l := h2
        rw [h2]
      · rw [if_neg hc] at h2 ⊢
        have h2 : knuth l.length n (stream (w.2 ⟨n, hn'⟩).1) n = .ok l := h2
        rw [h2]

/-! ### probabilities -/

theorem uniform_real {α : Type} [Fintype α] [MeasurableSpace α] [MeasurableSingletonClass α] (P : α → Prop) [DecidablePred P] :
    (uniformOn (univ : Set α)).real {x | P x} = ((Finset.univ.filter P).card : ℝ) / Fintype.card α := by
  rw [measureReal_def, uniformOn_univ, ENNReal.toReal_div]
  congr 1
  rw [show {x | P x} = ((Finset.univ.filter P : Finset α) : Set α) by ext; simp, Measure.count_apply_finset]
  simp

theorem pi_eval_real {ι : Type} [Fintype ι] {α : ι → Type} [∀ i, MeasurableSpace (α i)] (μ : ∀ i, Measure (α i)) [∀ i, IsProbabilityMeasure (μ i)] (i : ι) (B : Set (α i)) :
    (Measure.pi μ).real {w | w i ∈ B} = (μ i).real B := by
  classical
  have h := Measure.pi_pi_finset (μ := μ) (fun j => if h : j = i then h ▸ B else univ) {i}
  rw [Finset.prod_singleton, dif_pos rfl] at h
  rw [measureReal_def, measureReal_def, ← h]
  congr 2
  ext w
  simp

/-- the method of `hypergeometric_sample` applies: the hat covers the distribution and all possible counts are below the upper bound -/
def Good (N K n : Nat) : Prop := Covered N (eff N K) (eff N n) ∧ ((min (eff N n) (eff N K) : Nat) : Int) < hyperUb N (eff N K) (eff N n)

theorem hyperProb_mono {N K n j : Nat} (hN : 2 ≤ N) (hK : K ≤ N) (hn : n ≤ N) (h1 : j ≤ K) (h2 : j ≤ n) (h3 : n - j ≤ N - K) : Monotone fun R => hyperProb N K n R j := by
  intro R R' hR
  have e : ∀ R, hyperProb N K n R j = rand2.real {p | trial N (eff N K) (eff N n) p = some (reduced N K n j : Int)} * ∑ r ∈ Finset.range R, rand2.real {p | trial N (eff N K) (eff N n) p = none} ^ r := by
    intro R
    unfold hyperProb
    rw [show {ω : Fin R → ℝ × ℝ | hypergeometric N K n (hyperSrc N K n (rounds ω) R) = .ok j} = {ω | firstOf (trial N (eff N K) (eff N n)) R ω = some (reduced N K n j : Int)} from by
      ext ω; exact hyper_ok hN hK hn h1 h2 h3 ω]
    rw [measureReal_def, firstOf_measure _ _ _ (measurable_trial N (eff N K) (eff N n) (reduced N K n j)), ENNReal.toReal_mul, ENNReal.toReal_sum (fun r _ => ENNReal.pow_ne_top (measure_ne_top _ _))]
    congr 1
    refine Finset.sum_congr rfl fun r _ => ?_
    rw [ENNReal.toReal_pow]
    rfl
  dsimp only
  rw [e, e]
  refine mul_le_mul_of_nonneg_left (Finset.sum_le_sum_of_subset_of_nonneg (Finset.range_mono hR) fun _ _ _ => pow_nonneg measureReal_nonneg _) measureReal_nonneg

theorem pmf_pos' {N K n k : Nat} (hK : K ≤ N) (hn : n ≤ N) (h1 : k ≤ K) (h2 : k ≤ n) (h3 : K - k ≤ N - n) : 0 < hyperPmf N K n k := by
  have h := setProb_eq hn hK h2 h1 h3
  have c : (0 : ℝ) < n.choose k := by exact_mod_cast Nat.choose_pos h2
  have c1 : (0 : ℝ) < (N - n).choose (K - k) := by exact_mod_cast Nat.choose_pos h3
  have c2 : (0 : ℝ) < N.choose K := by exact_mod_cast Nat.choose_pos hK
  have : 0 < hyperPmf N K n k / n.choose k := by
    rw [h]
    unfold setProb
    positivity
  rw [div_pos_iff] at this
  rcases this with h | h
  · exact h.1
  · linarith [h.2]

theorem hyper_bounds {N K n k : Nat} (hn0 : 0 < n) (hK : K ≤ N) (hn : n ≤ N) (h1 : k ≤ K) (h2 : k ≤ n) (h3 : K - k ≤ N - n) (hg : 2 ≤ N → Good N K n) :
    (∀ R, hyperProb N K n R k ≤ hyperPmf N K n k) ∧ ∀ ε > 0, ∀ᶠ R in atTop, (1 - ε) * hyperPmf N K n k ≤ hyperProb N K n R k := by
  have hp := pmf_pos' hK hn h1 h2 h3
  rcases Nat.lt_or_ge N 2 with h | h
  · obtain rfl : N = 1 := by omega
    obtain rfl : n = 1 := by omega
    obtain rfl : k = K := by omega
    have e : ∀ R, hyperProb 1 k 1 R k = 1 := by
      intro R
      unfold hyperProb
      refine pi_univ rand2 _ fun ω => ?_
      show hypergeometric (1 : Nat) k (1 : Nat) _ = _
      simp [hypergeometric]
    have ep : hyperPmf 1 k 1 k = 1 := by
      obtain rfl | rfl : k = 0 ∨ k = 1 := by omega
      · simp [hyperPmf]
      · simp [hyperPmf]
    rw [ep]
    refine ⟨fun R => (e R).le, fun ε hε => Eventually.of_forall fun R => ?_⟩
    rw [e]
    linarith
  · obtain ⟨g1, g2⟩ := hg h
    have hl := C101_exact_partial h hK hn g1 h1 h2 (by omega) g2
    refine ⟨fun R => (hyperProb_mono h hK hn h1 h2 (by omega)).ge_of_tendsto hl R, fun ε hε => ?_⟩
    exact (hl.eventually (lt_mem_nhds (show (1 - ε) * hyperPmf N K n k < hyperPmf N K n k by nlinarith))).mono fun R h => h.le

theorem swr_bounds {M n k : Nat} (hn0 : 0 < n) (hnM : n ≤ M) (hM : M ≤ 2 ^ 53) (hk : k < n + 1) {ε : ℝ} (hε : 0 < ε) (hε1 : ε < 1) : ∀ᶠ R in atTop, ∀ l : List Nat, (hl : l.length = k) → StrictInc l → (∀ x ∈ l, x < n) →
    let p := ((uniformOn (univ : Set (Fin n → Fin (2 ^ 53)))).prod (Measure.pi fun k : Fin (n + 1) => uniformOn (univ : Set (Fin R → Fin k.val → Fin n)))).real (swrEvent R n l (by omega))
    (1 - ε) * (1 - (M : ℝ) / 2 ^ 53) ^ M ≤ p * n.choose k ∧ p * n.choose k ≤ (1 + (M : ℝ) / 2 ^ 53) ^ M := by
  have hD0 : 0 ≤ (1 - (M : ℝ) / 2 ^ 53) := by
    rw [sub_nonneg, div_le_one (by positivity)]
    exact_mod_cast hM
  have hD1 : (1 - (M : ℝ) / 2 ^ 53) ≤ 1 := by
    have : 0 ≤ (M : ℝ) / 2 ^ 53 := by positivity
    linarith
  have hE1 : 1 ≤ (1 + (M : ℝ) / 2 ^ 53) := by
    have : 0 ≤ (M : ℝ) / 2 ^ 53 := by positivity
    linarith
  have hDM : (1 - (M : ℝ) / 2 ^ 53) ^ M ≤ 1 := pow_le_one₀ hD0 hD1
  have hEM : 1 ≤ (1 + (M : ℝ) / 2 ^ 53) ^ M := one_le_pow₀ hE1
  have hD2 : 0 ≤ (1 - (M : ℝ) / 2 ^ 53) ^ M := pow_nonneg hD0 M
  have : Nonempty (Fin n) := ⟨⟨0, hn0⟩⟩
  by_cases hc : n > 100 ∧ 10 * k < 6 * n
  · have hlim : Tendsto (fun R => (2 : ℝ) ^ k * (1 - 1 / (2 * n)) ^ R) atTop (𝓝 0) := by
      have hn' : (1 : ℝ) ≤ n := by exact_mod_cast hn0
      have h1 : 0 < 1 / (2 * (n : ℝ)) := by positivity
      have h2 : 1 / (2 * (n : ℝ)) ≤ 1 := by
        rw [div_le_one (by positivity)]
        linarith
      have := (tendsto_pow_atTop_nhds_zero_of_lt_one (r := 1 - 1 / (2 * (n : ℝ))) (by linarith) (by linarith)).const_mul ((2 : ℝ) ^ k)
      rwa [mul_zero] at this
    refine (hlim.eventually (gt_mem_nhds hε)).mono fun R hR l hl hl1 hl2 => ?_
    dsimp only
    subst hl
    have hev : swrEvent R n l hk = univ ×ˢ {b | b ⟨l.length, hk⟩ ∈ {v : Fin R → Fin l.length → Fin n | rejection l.length n (drawOf v) R = .ok l}} := by
      unfold swrEvent
      rw [if_pos hc]
      ext b
      simp
    have hpi : (Measure.pi fun k : Fin (n + 1) => uniformOn (univ : Set (Fin R → Fin k.val → Fin n))).real {b | b ⟨l.length, hk⟩ ∈ {v : Fin R → Fin l.length → Fin n | rejection l.length n (drawOf v) R = .ok l}} = (uniformOn (univ : Set (Fin R → Fin l.length → Fin n))).real {v | rejection l.length n (drawOf v) R = .ok l} :=
      pi_eval_real (fun k : Fin (n + 1) => uniformOn (univ : Set (Fin R → Fin k.val → Fin n))) ⟨l.length, hk⟩ _
    rw [hev, measureReal_prod_prod, probReal_univ, one_mul, hpi, uniform_real]
    have hS : IsSample l.length n l := ⟨rfl, hl1, hl2⟩
    have hcard : (Fintype.card (Fin R → Fin l.length → Fin n) : ℝ) = ((n : ℝ) ^ l.length) ^ R := by
      rw [Fintype.card_fun, Fintype.card_fun, Fintype.card_fin, Fintype.card_fin, Fintype.card_fin]
      push_cast
      rfl
    have hpos : (0 : ℝ) < ((n : ℝ) ^ l.length) ^ R := by positivity
    rw [hcard]
    change _ ≤ (rejCount R l.length n l : ℝ) / _ * _ ∧ (rejCount R l.length n l : ℝ) / _ * _ ≤ _
    have key : 1 - ε ≤ (rejCount R l.length n l : ℝ) / ((n : ℝ) ^ l.length) ^ R * n.choose l.length ∧ (rejCount R l.length n l : ℝ) / ((n : ℝ) ^ l.length) ^ R * n.choose l.length ≤ 1 := by
      rw [div_mul_eq_mul_div, le_div_iff₀ hpos, div_le_one hpos]
      rcases Nat.eq_zero_or_pos l.length with h0 | h0
      · have hl0 : l = [] := List.eq_nil_of_length_eq_zero h0
        subst hl0
        have : rejCount R ([] : List Nat).length n [] = 1 := by
          unfold rejCount
          rw [Finset.filter_true_of_mem (fun v _ => by simp [rejection]), Finset.card_univ]
          simp
        rw [this]
        simp
        linarith
      · have ht := C65_rejection_total R l.length n h0 (by omega) l hS
        have ho := C65_rejection_returns R l.length n h0 (by omega)
        have ho' : (rejOpen R l.length n : ℝ) / ((n : ℝ) ^ l.length) ^ R ≤ 2 ^ l.length * (1 - 1 / (2 * n)) ^ R := by
          have := (Rat.cast_le (K := ℝ)).mpr ho
          push_cast at this
          exact this
        rw [div_le_iff₀ hpos] at ho'
        have ht' : (rejCount R l.length n l : ℝ) * n.choose l.length + rejOpen R l.length n = ((n : ℝ) ^ l.length) ^ R := by exact_mod_cast ht
        have hop : (0 : ℝ) ≤ rejOpen R l.length n := by positivity
        constructor
        · nlinarith
        · linarith
    exact ⟨(mul_le_of_le_one_right (by linarith) hDM).trans key.1, key.2.trans hEM⟩
  · refine Eventually.of_forall fun R l hl hl1 hl2 => ?_
    dsimp only
    subst hl
    have hev : swrEvent R n l hk = {u : Fin n → Fin (2 ^ 53) | knuth l.length n (stream u) n = .ok l} ×ˢ univ := by
      unfold swrEvent
      rw [if_neg hc]
      ext b
      simp
    rw [hev, measureReal_prod_prod, probReal_univ, mul_one, uniform_real]
    have hS : IsSample l.length n l := ⟨rfl, hl1, hl2⟩
    obtain ⟨k1, k2⟩ := C64_knuth_uniform l.length n (by omega) l hS
    have hcard : (Fintype.card (Fin n → Fin (2 ^ 53)) : ℝ) = ((2 : ℝ) ^ 53) ^ n := by
      rw [Fintype.card_fun, Fintype.card_fin, Fintype.card_fin]
      norm_num
    rw [hcard]
    have e : (((Finset.univ.filter (fun u : Fin n → Fin (2 ^ 53) => knuth l.length n (stream u) n = .ok l)).card : ℝ) / ((2 : ℝ) ^ 53) ^ n) = ((knuthProb l.length n l : ℚ) : ℝ) := by
      unfold knuthProb
      push_cast
      rfl
    rw [e]
    have k1' : (1 - (n : ℝ) / 2 ^ 53) ^ (n - l.length) ≤ ((knuthProb l.length n l : ℚ) : ℝ) * n.choose l.length := by
      have := (Rat.cast_le (K := ℝ)).mpr k1
      push_cast at this
      exact this
    have k2' : ((knuthProb l.length n l : ℚ) : ℝ) * n.choose l.length ≤ (1 + (n : ℝ) / 2 ^ 53) ^ l.length := by
      have := (Rat.cast_le (K := ℝ)).mpr k2
      push_cast at this
      exact this
    have hnM' : (n : ℝ) / 2 ^ 53 ≤ (M : ℝ) / 2 ^ 53 := by
      have : (n : ℝ) ≤ M := by exact_mod_cast hnM
      gcongr
    constructor
    · refine le_trans ?_ k1'
      calc (1 - ε) * (1 - (M : ℝ) / 2 ^ 53) ^ M ≤ (1 - (M : ℝ) / 2 ^ 53) ^ M := mul_le_of_le_one_left hD2 (by linarith)
        _ ≤ (1 - (M : ℝ) / 2 ^ 53) ^ (n - l.length) := pow_le_pow_of_le_one hD0 hD1 (by omega)
        _ ≤ (1 - (n : ℝ) / 2 ^ 53) ^ (n - l.length) := pow_le_pow_left₀ hD0 (by linarith) _
    · refine le_trans k2' ?_
      have h0 : 0 ≤ (n : ℝ) / 2 ^ 53 := by positivity
      calc (1 + (n : ℝ) / 2 ^ 53) ^ l.length ≤ (1 + (M : ℝ) / 2 ^ 53) ^ l.length := pow_le_pow_left₀ (by linarith) (by linarith) _
        _ ≤ (1 + (M : ℝ) / 2 ^ 53) ^ M := pow_le_pow_right₀ hE1 (by omega)

theorem rejTable_nonempty (R k n : Nat) (h : k < n + 1) : Nonempty (Fin R → Fin k → Fin n) := ⟨fun _ i => ⟨i.val, by omega⟩⟩

instance chance_part (M R : Nat) (m : Fin (M + 1)) : IsProbabilityMeasure ((uniformOn (univ : Set (Fin m.val → Fin (2 ^ 53)))).prod (Measure.pi fun k : Fin (m.val + 1) => uniformOn (univ : Set (Fin R → Fin k.val → Fin m.val)))) := by
  have : ∀ k : Fin (m.val + 1), IsProbabilityMeasure (uniformOn (univ : Set (Fin R → Fin k.val → Fin m.val))) := fun k => by
    have := rejTable_nonempty R k.val m.val k.isLt
    infer_instance
  infer_instance

instance chance_prob (M R : Nat) : IsProbabilityMeasure (chance M R) := by
  unfold chance
  infer_instance

theorem fair_eventually {M Kmax : Nat} (hM : M ≤ 2 ^ 53) (hg : ∀ N K n, 2 ≤ N → N ≤ M → K ≤ N → K ≤ Kmax → 0 < n → n ≤ N → Good N K n) {lo : ℝ} (h0 : 0 ≤ lo) (h1 : lo < (1 - (M : ℝ) / 2 ^ 53) ^ M) :
    ∀ᶠ R in atTop, Fair (chance M R) (fun N K n => chanceSrc M R N K n) lo ((1 + (M : ℝ) / 2 ^ 53) ^ M) M Kmax := by
  set D := (1 - (M : ℝ) / 2 ^ 53) ^ M with hD
  have hE1 : 1 ≤ (1 + (M : ℝ) / 2 ^ 53) := by
    have : 0 ≤ (M : ℝ) / 2 ^ 53 := by positivity
    linarith
  have hEM : 1 ≤ (1 + (M : ℝ) / 2 ^ 53) ^ M := one_le_pow₀ hE1
  have hD0 : 0 < D := lt_of_le_of_lt h0 h1
  have hD1 : D ≤ 1 := by
    refine pow_le_one₀ ?_ ?_
    · rw [sub_nonneg, div_le_one (by positivity)]
      exact_mod_cast hM
    · have : 0 ≤ (M : ℝ) / 2 ^ 53 := by positivity
      linarith
  have hq : lo / D < 1 := (div_lt_one hD0).mpr h1
  have hq0 : 0 ≤ lo / D := by positivity
  set ε := (1 - lo / D) / 2 with hε
  have hε0 : 0 < ε := by linarith
  have hε1 : ε < 1 := by linarith
  have hlo : lo ≤ (1 - ε) * ((1 - ε) * D) := by
    have : lo / D ≤ (1 - ε) * (1 - ε) := by nlinarith
    rw [div_le_iff₀ hD0] at this
    linarith
  have ev1 : ∀ᶠ R in atTop, ∀ N : Fin (M + 1), ∀ K : Fin (M + 1), ∀ n : Fin (M + 1), ∀ k : Fin (M + 1), 0 < n.val → K.val ≤ N.val → K.val ≤ Kmax → n.val ≤ N.val → k.val ≤ K.val → k.val ≤ n.val → K.val - k.val ≤ N.val - n.val →
      (1 - ε) * hyperPmf N K n k ≤ hyperProb N K n R k := by
    refine eventually_all.mpr fun N => eventually_all.mpr fun K => eventually_all.mpr fun n => eventually_all.mpr fun k => ?_
    by_cases h : 0 < n.val ∧ K.val ≤ N.val ∧ K.val ≤ Kmax ∧ n.val ≤ N.val ∧ k.val ≤ K.val ∧ k.val ≤ n.val ∧ K.val - k.val ≤ N.val - n.val
    · obtain ⟨a1, a2, a3, a4, a5, a6, a7⟩ := h
      refine ((hyper_bounds a1 a2 a4 a5 a6 a7 fun h2 => hg N K n h2 (by omega) a2 a3 a1 a4).2 ε hε0).mono fun R hR => ?_
      intros
      exact hR
    · exact Eventually.of_forall fun R b1 b2 b3 b4 b5 b6 b7 => absurd ⟨b1, b2, b3, b4, b5, b6, b7⟩ h
  have ev2 : ∀ᶠ R in atTop, ∀ n : Fin (M + 1), ∀ k : Fin (n.val + 1), 0 < n.val → ∀ l : List Nat, (hl : l.length = k.val) → StrictInc l → (∀ x ∈ l, x < n.val) →
      let p := ((uniformOn (univ : Set (Fin n.val → Fin (2 ^ 53)))).prod (Measure.pi fun k : Fin (n.val + 1) => uniformOn (univ : Set (Fin R → Fin k.val → Fin n.val)))).real (swrEvent R n.val l (by omega))
      (1 - ε) * D ≤ p * n.val.choose k.val ∧ p * n.val.choose k.val ≤ (1 + (M : ℝ) / 2 ^ 53) ^ M := by
    refine eventually_all.mpr fun n => eventually_all.mpr fun k => ?_
    by_cases h : 0 < n.val
    · exact (swr_bounds h (by omega) hM k.isLt hε0 hε1).mono fun R hR _ => hR
    · exact Eventually.of_forall fun R b => absurd b h
  filter_upwards [ev1, ev2, eventually_ge_atTop M] with R hR1 hR2 hRM
  refine ⟨fun N K n w => chanceSrc_lawful M R N K n w, ⟨h0, (h1.le).trans hD1⟩, hEM, ?_⟩
  intro s n l hN hK' hK hn0 hn hl1 hl2 hl3 hl4
  dsimp only
  have hlen := length_le_below hl1 hl2
  have hn' : n < M + 1 := by omega
  have hset : {w | ∃ s', s.simpleSample n (chanceSrc M R s.N s.K n w) = .ok (s', l)} =
      {ω | hypergeometric s.N s.K n (hyperSrc s.N s.K n (rounds ω) R) = .ok (l.length : Nat)} ×ˢ {v | v ⟨n, hn'⟩ ∈ swrEvent R n l (by omega)} := by
    ext w
    exact simple_event hK hn0 hn hn' hRM hl1 hl2 (by omega) w
  have hp1 := hR1 ⟨s.N, by omega⟩ ⟨s.K, by omega⟩ ⟨n, hn'⟩ ⟨l.length, by omega⟩ hn0 hK hK' hn hl3 hlen hl4
  have hp2 := (hyper_bounds hn0 hK hn hl3 hlen hl4 fun h2 => hg _ _ _ h2 hN hK hK' hn0 hn).1 R
  have hq' := hR2 ⟨n, hn'⟩ ⟨l.length, by dsimp only; omega⟩ hn0 l rfl hl1 hl2
  dsimp only at hp1 hq'
  have := chance_part M R
  have hpi : (Measure.pi fun n : Fin (M + 1) => (uniformOn (univ : Set (Fin n.val → Fin (2 ^ 53)))).prod (Measure.pi fun k : Fin (n.val + 1) => uniformOn (univ : Set (Fin R → Fin k.val → Fin n.val)))).real {v | v ⟨n, hn'⟩ ∈ swrEvent R n l (by omega)} =
      ((uniformOn (univ : Set (Fin n → Fin (2 ^ 53)))).prod (Measure.pi fun k : Fin (n + 1) => uniformOn (univ : Set (Fin R → Fin k.val → Fin n)))).real (swrEvent R n l (by omega)) :=
    pi_eval_real (fun n : Fin (M + 1) => (uniformOn (univ : Set (Fin n.val → Fin (2 ^ 53)))).prod (Measure.pi fun k : Fin (n.val + 1) => uniformOn (univ : Set (Fin R → Fin k.val → Fin n.val)))) ⟨n, hn'⟩ _
  rw [hset, chance, measureReal_prod_prod, hpi]
  have hc : (0 : ℝ) < n.choose l.length := by exact_mod_cast Nat.choose_pos hlen
  have hpmf := pmf_pos' hK hn hl3 hlen hl4
  change lo * _ ≤ hyperProb s.N s.K n R l.length * _ ∧ hyperProb s.N s.K n R l.length * _ ≤ _
  generalize ((uniformOn (univ : Set (Fin n → Fin (2 ^ 53)))).prod (Measure.pi fun k : Fin (n + 1) => uniformOn (univ : Set (Fin R → Fin k.val → Fin n)))).real (swrEvent R n l (by omega)) = q at hq' ⊢
  have hH : 0 ≤ hyperProb s.N s.K n R l.length := measureReal_nonneg
  have hD' : 0 ≤ (1 - ε) * D := mul_nonneg (by linarith) hD0.le
  constructor
  · rw [mul_div_assoc', div_le_iff₀ hc, mul_assoc]
    calc lo * hyperPmf s.N s.K n l.length ≤ (1 - ε) * ((1 - ε) * D) * hyperPmf s.N s.K n l.length := mul_le_mul_of_nonneg_right hlo hpmf.le
      _ = ((1 - ε) * hyperPmf s.N s.K n l.length) * ((1 - ε) * D) := by ring
      _ ≤ hyperProb s.N s.K n R l.length * (q * n.choose l.length) := mul_le_mul hp1 hq'.1 hD' hH
  · rw [mul_div_assoc', le_div_iff₀ hc, mul_assoc, mul_comm (_ ^ M)]
    exact mul_le_mul hp2 hq'.2 (hD'.trans hq'.1) hpmf.le

end ABX.Sampler
