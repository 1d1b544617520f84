import Verif.Proofs.SamplerUniform
import Verif.Proofs.SamplerChance
/-!
C102: the incremental sampler draws every set of `K` of the `N` items with the same probability, however the population is cut into calls of `sample`.
-/
namespace ABX.Sampler
open ABX.Spec MeasureTheory Filter Topology Set

/-- the probability that the calls of `sample` with the sizes `ns`, put together, give the items `t`: a population of `N` items of which `K` are to be sampled, `relative_indexing=False` and the random numbers of the calls of `simple_sample` independent of each other
(there are at most `N` of them in a call) -/
noncomputable def drawProb {Ω : Type} [Inhabited Ω] [MeasurableSpace Ω] (μ : Measure Ω) (S : Nat → Nat → Nat → Ω → Src) (N K : Nat) (step : Option Nat) (ns t : List Nat) : ℝ :=
  (Measure.pi (fun _ : Fin ns.length => Measure.pi (fun _ : Fin N => μ))).real
    {ω | ∃ s s' ls, IS.create N K step false = .ok s ∧ s.samples (callsOf S s ns (fun j => extend (extend ω j))) = .ok (s', ls) ∧ ls.flatten = t}

theorem create_ok {N K : Nat} {step : Option Nat} (hK : K ≤ N) (hs : step = none → 0 < K) : ∃ st, IS.create N K step false = .ok ⟨N, K, N, false, st⟩ := by
  unfold IS.create
  rw [if_neg (by omega)]
  cases step with
  | some s => exact ⟨s, rfl⟩
  | none =>
    have := hs rfl
    dsimp only
    rw [if_neg (by omega)]
    exact ⟨_, rfl⟩

/-- C102 for random numbers with which `simple_sample` is fair up to the factors `lo` and `hi`: every set `t` of `K` of the `N` items is drawn with the probability `1 / C(N, K)`, up to these factors.
The calls may have any positive sizes, as long as they go through the population (line 82 cuts the last one).

Not covered: random numbers other than those described by `Fair`; floating point (C66). -/
theorem C102_uniform_partial {Ω : Type} [Inhabited Ω] [MeasurableSpace Ω] {μ : Measure Ω} [IsProbabilityMeasure μ] {S : Nat → Nat → Nat → Ω → Src} {lo hi : ℝ} {N K : Nat} (hF : Fair μ S lo hi N K)
    {step : Option Nat} (hs : step = none → 0 < K) (hK : K ≤ N) (ns : List Nat) (hns : Exhausts N ns) (t : List Nat) (ht1 : t.Pairwise (· < ·)) (ht2 : ∀ x ∈ t, x < N) (ht3 : t.length = K) :
    (lo ^ N) ^ ns.length / N.choose K ≤ drawProb μ S N K step ns t ∧ drawProb μ S N K step ns t ≤ (hi ^ N) ^ ns.length / N.choose K := by
  obtain ⟨st, hc⟩ := create_ok hK hs
  have h := samples_prob (μ := μ) hF (R := N) ns ⟨N, K, N, false, st⟩ t (le_refl _) (le_refl _) ⟨hK, le_refl _⟩ rfl hns (le_refl _) ht1 (fun x hx => ⟨by simp, ht2 x hx⟩) ht3
  dsimp only at h
  have e : drawProb μ S N K step ns t = (Measure.pi (fun _ : Fin ns.length => Measure.pi (fun _ : Fin N => μ))).real
      {ω | ∃ s' ls, IS.samples ⟨N, K, N, false, st⟩ (callsOf S ⟨N, K, N, false, st⟩ ns (fun j => extend (extend ω j))) = .ok (s', ls) ∧ ls.flatten = t} := by
    unfold drawProb
    congr 1
    ext ω
    constructor
    · rintro ⟨s, s', ls, h1, h2⟩
      rw [hc] at h1
      cases h1
      exact ⟨s', ls, h2⟩
    · rintro ⟨s', ls, h2⟩
      exact ⟨_, s', ls, hc, h2⟩
  rw [e, div_eq_mul_one_div, div_eq_mul_one_div (_ ^ ns.length)]
  exact h

/-- C102, the exact case: if `simple_sample` is fair, the probability is `1 / C(N, K)`; it does not depend on the sizes of the calls nor on the set -/
theorem C102_exact_partial {Ω : Type} [Inhabited Ω] [MeasurableSpace Ω] {μ : Measure Ω} [IsProbabilityMeasure μ] {S : Nat → Nat → Nat → Ω → Src} {N K : Nat} (hF : Fair μ S 1 1 N K)
    {step : Option Nat} (hs : step = none → 0 < K) (hK : K ≤ N) (ns : List Nat) (hns : Exhausts N ns) (t : List Nat) (ht1 : t.Pairwise (· < ·)) (ht2 : ∀ x ∈ t, x < N) (ht3 : t.length = K) :
    drawProb μ S N K step ns t = 1 / N.choose K := by
  have h := C102_uniform_partial hF hs hK ns hns t ht1 ht2 ht3
  rw [one_pow, one_pow] at h
  exact le_antisymm h.2 h.1

noncomputable instance chance_inhabited (M R : Nat) : Inhabited (Chance M R) := ⟨fun _ => (0, 0), fun _ => (fun _ => 0, fun k _ i => ⟨i.val, by omega⟩)⟩

/-- C102 for the random numbers of the code: independent uniform numbers, in the loops of `hypergeometric_sample` and `rejection_sampling` for at most `R` rounds.
If the method of `hypergeometric_sample` applies to all populations, numbers of items and chunks that can occur (see C101), then for all large enough `R` every set of `K` of the `N` items is drawn with the probability `1 / C(N, K)`, up to factors near 1
that are due to `np.random.rand` giving one of `2 ^ 53` numbers in `Knuth_sampling`. -/
theorem C102_chance_partial {N K : Nat} (hN : N ≤ 2 ^ 53) (hK : K ≤ N) (hg : ∀ N' K' n, 2 ≤ N' → N' ≤ N → K' ≤ N' → K' ≤ K → 0 < n → n ≤ N' → Good N' K' n)
    {step : Option Nat} (hs : step = none → 0 < K) {lo : ℝ} (h0 : 0 ≤ lo) (h1 : lo < (1 - (N : ℝ) / 2 ^ 53) ^ N) :
    ∀ᶠ R in atTop, ∀ ns, Exhausts N ns → ∀ t : List Nat, t.Pairwise (· < ·) → (∀ x ∈ t, x < N) → t.length = K →
      (lo ^ N) ^ ns.length / N.choose K ≤ drawProb (chance N R) (chanceSrc N R) N K step ns t ∧
      drawProb (chance N R) (chanceSrc N R) N K step ns t ≤ (((1 + (N : ℝ) / 2 ^ 53) ^ N) ^ N) ^ ns.length / N.choose K :=
  (fair_eventually hN hg h0 h1).mono fun _ hR ns hns t ht1 ht2 ht3 => C102_uniform_partial hR hs hK ns hns t ht1 ht2 ht3

theorem ub_gt {N K n : Nat} (hN : 0 < N) (hK : K ≤ N) (hn : n ≤ N) {m : Nat} (hm : m ≤ 9) : ((m : Nat) : Int) < hyperUb N K n := by
  refine lt_of_le_of_lt (by exact_mod_cast hm : (m : Int) ≤ 9) ?_
  unfold hyperUb
  rw [Int.lt_iff_add_one_le, Int.le_floor]
  have := sqrt_half_ge (variance_nonneg (N := N) (K := K) (n := n) (by omega) (by omega) (by omega))
  have h0 : 0 ≤ average N K n := by unfold average; positivity
  unfold hyperA
  norm_num
  norm_num at this
  linarith

theorem covered_zero {N n : Nat} (hN : 2 ≤ N) (hn : n ≤ N) : Covered N 0 n := by
  have hb : 2 ≤ hyperB N 0 n := hyperB_ge (by omega) (by omega) (by omega)
  intro k hk
  obtain rfl : k = 0 := by omega
  rw [Nat.div_eq_of_lt (by omega)]
  have hp : hyperPmf N 0 n 0 = 1 := by
    unfold hyperPmf
    have : (0 : ℝ) < N.choose n := by exact_mod_cast Nat.choose_pos hn
    simp [this.ne']
  rw [hp]
  norm_num
  nlinarith

theorem good_one {N K n : Nat} (hN : 2 ≤ N) (hK : K ≤ 1) (hn : n ≤ N) : Good N K n := by
  have hh := eff_half (N := N) (K := n)
  have he : eff N K = K := by unfold eff; omega
  refine ⟨?_, ?_⟩
  · rw [he]
    obtain rfl | rfl : K = 0 ∨ K = 1 := by omega
    · exact covered_zero hN (by omega)
    · exact covered_one hN hh
  · exact ub_gt (by omega) (by omega) (by omega) (by rw [he]; omega)

/-- C102 without a condition on the method: one item of `N` is drawn, each with the probability `1 / N` -/
theorem C102_one {N : Nat} (hN0 : 0 < N) (hN : N ≤ 2 ^ 53) (step : Option Nat) {lo : ℝ} (h0 : 0 ≤ lo) (h1 : lo < (1 - (N : ℝ) / 2 ^ 53) ^ N) :
    ∀ᶠ R in atTop, ∀ ns, Exhausts N ns → ∀ x < N,
      (lo ^ N) ^ ns.length / N ≤ drawProb (chance N R) (chanceSrc N R) N 1 step ns [x] ∧
      drawProb (chance N R) (chanceSrc N R) N 1 step ns [x] ≤ (((1 + (N : ℝ) / 2 ^ 53) ^ N) ^ N) ^ ns.length / N := by
  refine (C102_chance_partial (K := 1) (step := step) hN hN0 (fun N' K' n a _ _ b _ c => good_one a b c) (fun _ => one_pos) h0 h1).mono fun R hR ns hns x hx => ?_
  have := hR ns hns [x] (by simp) (by simpa using hx) rfl
  rwa [Nat.choose_one_right] at this

theorem good_small {N K n : Nat} (hN : 2 ≤ N) (hN5 : N ≤ 5) (hK : K ≤ N) (hn : n ≤ N) : Good N K n := by
  have h1 := eff_half (N := N) (K := n)
  have h2 := eff_half (N := N) (K := K)
  refine ⟨?_, ub_gt (by omega) (by omega) (by omega) (by omega)⟩
  generalize eff N K = K at h2
  generalize eff N n = n at h1
  rcases Nat.lt_or_ge K 2 with h | h
  · obtain rfl | rfl : K = 0 ∨ K = 1 := by omega
    · exact covered_zero hN (by omega)
    · exact covered_one hN h1
  · obtain rfl : K = 2 := by omega
    have hb : 2 ≤ hyperB N 2 n := hyperB_ge (by omega) (by omega) (by omega)
    have hb2 : 1 ≤ (hyperB N 2 n / 2) ^ 2 := by nlinarith
    have key : ∀ k ≤ min n 2, (|(k : ℝ) - n * (2 : Nat) / N| + 1 / 2) ^ 2 * hyperPmf N 2 n k ≤ hyperPmf N 2 n ((n + 1) * (2 + 1) / (N + 2)) := by
      intro k hk
      have hn2 : n ≤ 2 := by omega
      have hk2 : k ≤ 2 := by omega
      obtain rfl | rfl : N = 4 ∨ N = 5 := by omega
      all_goals
        interval_cases n <;> interval_cases k <;> first | omega | (norm_num [hyperPmf, Nat.choose, abs_of_neg, abs_of_pos])
    intro k hk
    exact (key k hk).trans (le_mul_of_one_le_left (by unfold hyperPmf; positivity) hb2)

/-- C102 without a condition on the method: for populations of at most 5 items, every set of any number of them -/
theorem C102_small {N K : Nat} (hN : N ≤ 5) (hK : K ≤ N) {step : Option Nat} (hs : step = none → 0 < K) {lo : ℝ} (h0 : 0 ≤ lo) (h1 : lo < (1 - (N : ℝ) / 2 ^ 53) ^ N) :
    ∀ᶠ R in atTop, ∀ ns, Exhausts N ns → ∀ t : List Nat, t.Pairwise (· < ·) → (∀ x ∈ t, x < N) → t.length = K →
      (lo ^ N) ^ ns.length / N.choose K ≤ drawProb (chance N R) (chanceSrc N R) N K step ns t ∧
      drawProb (chance N R) (chanceSrc N R) N K step ns t ≤ (((1 + (N : ℝ) / 2 ^ 53) ^ N) ^ N) ^ ns.length / N.choose K :=
  C102_chance_partial (by omega) hK (fun _ _ _ a b c _ _ d => good_small a (by omega) c d) hs h0 h1

/-- C102, example: two of five items, drawn by calls of `sample(3)`: the probability of the second and the fifth item is between 0.0999 and 0.1001 -/
example : ∀ᶠ R in atTop, 0.0999 ≤ drawProb (chance 5 R) (chanceSrc 5 R) 5 2 none [3, 3] [1, 4] ∧ drawProb (chance 5 R) (chanceSrc 5 R) 5 2 none [3, 3] [1, 4] ≤ 0.1001 := by
  refine (C102_small (N := 5) (K := 2) (step := none) (lo := 0.9999) (le_refl _) (by norm_num) (fun _ => by norm_num) (by norm_num) (by norm_num)).mono fun R hR => ?_
  obtain ⟨a, b⟩ := hR [3, 3] (by simp [Exhausts]) [1, 4] (by simp) (by simp) rfl
  refine ⟨le_trans ?_ a, b.trans ?_⟩
  · norm_num [Nat.choose]
  · norm_num [Nat.choose]

theorem chunkSrc_lawful' {Ω : Type} [Inhabited Ω] {S : Nat → Nat → Nat → Ω → Src} (hS : ∀ N K n w, (S N K n w).Lawful) (c : Nat) : ∀ i s n (ω : Nat → Ω), (chunkSrc S c s n ω i).Lawful
  | 0, _, _, _ => hS _ _ _ _
  | i + 1, s, n, ω => by
    unfold chunkSrc
    split
    · exact chunkSrc_lawful' hS c i _ _ _
    · exact hS _ _ _ _

/-- C102 is false when the upper bound of line 166 is too low (C101): 20 of 400 items are sampled by calls of `sample(20)` and `sample(380)`; the first 20 items are never the sample, although they should be with the probability `1 / C(400, 20)` -/
theorem C102_violated (R : Nat) : drawProb (chance 400 R) (chanceSrc 400 R) 400 20 none [20, 380] (List.range 20) = 0 ∧ Exhausts 400 [20, 380] := by
  refine ⟨?_, by simp [Exhausts]⟩
  unfold drawProb
  convert measureReal_empty
  rw [Set.eq_empty_iff_forall_notMem]
  rintro ω ⟨s, s', ls, hc, h, ht⟩
  have hs : s = ⟨400, 20, 400, false, 10 ^ 4 * 400 / 20⟩ := by
    have : IS.create 400 20 none false = .ok ⟨400, 20, 400, false, 10 ^ 4 * 400 / 20⟩ := rfl
    rw [this] at hc
    exact (Except.ok.inj hc).symm
  have hinv : ISInv s := by rw [hs]; exact ⟨by simp, by simp⟩
  have hN : s.N = 400 := by rw [hs]
  have hK : s.K = 20 := by rw [hs]
  have hrel : s.relative = false := by rw [hs]
  have hini : s.initialN = 400 := by rw [hs]
  have hlaw := chunkSrc_lawful' (Ω := Chance 400 R) (S := chanceSrc 400 R) (fun N K n w => chanceSrc_lawful 400 R N K n w)
  generalize hω : (fun j => extend (extend ω j)) = ω' at h
  unfold callsOf IS.samples IS.samplesBy at h
  cases h1 : s.sample 20 (callSrc (chanceSrc 400 R) s 20 (ω' 0)) with
  | error e => rw [h1] at h; cases h
  | ok p =>
    obtain ⟨s1, l1⟩ := p
    rw [h1] at h
    dsimp only at h
    unfold callsOf IS.samplesBy at h
    dsimp only at h
    obtain ⟨l10, d1, e1⟩ := sample_ok s hinv 20 (by norm_num) _ (fun i => hlaw _ _ _ _ _) s1 l1 h1
    rw [hrel, if_neg (by simp), hini, hN] at e1
    have e1' : l1 = l10 := by rw [e1]; simp
    subst e1'
    have hm : min 20 s.N = 20 := by rw [hN]; rfl
    rw [hm] at d1
    cases h2 : s1.sample 380 (callSrc (chanceSrc 400 R) s1 380 (ω' 1)) with
    | error e =>
      rw [show ω' (0 + 1) = ω' 1 from rfl, h2] at h
      cases h
    | ok p =>
      obtain ⟨s2, l2⟩ := p
      rw [show ω' (0 + 1) = ω' 1 from rfl, h2] at h
      dsimp only [callsOf, IS.samplesBy] at h
      cases h
      obtain ⟨l20, d2, e2⟩ := sample_ok s1 d1.inv 380 (by norm_num) _ (fun i => hlaw _ _ _ _ _) _ l2 h2
      rw [d1.rel, hrel, if_neg (by simp), d1.init, hini, show s1.N = 380 by have := d1.N; omega] at e2
      have ht : l1 ++ l2 = List.range 20 := by simpa using ht
      have h20 : l2 = [] := by
        rw [List.eq_nil_iff_forall_not_mem]
        intro x hx
        have hx1 : x ∈ List.range 20 := by rw [← ht]; exact List.mem_append_right _ hx
        rw [List.mem_range] at hx1
        rw [e2] at hx
        obtain ⟨y, -, hy⟩ := List.mem_map.mp hx
        omega
      rw [h20, List.append_nil] at ht
      have hlen : l1.length = 20 := by rw [ht, List.length_range]
      have hsimple : ∃ s', s.simpleSample 20 (chanceSrc 400 R s.N s.K 20 (ω' 0 0)) = .ok (s', l1) := by
        unfold IS.sample at h1
        have hk : ¬ min 20 s.N * s.K > 10 ^ 5 * s.N := by rw [hN, hK]; norm_num
        dsimp only at h1
        rw [if_neg (by omega : ¬ 20 > s.N), if_neg (by omega : ¬ s.N = 0), if_neg (by rw [hN, hK]; norm_num), callSrc_simple hk, hm] at h1
        split at h1
        · cases h1
        · rename_i s' l' hs'
          rw [hrel, hini, hN] at h1
          simp at h1
          obtain ⟨-, rfl⟩ := h1
          exact ⟨_, hs'⟩
      obtain ⟨s', hsimple⟩ := hsimple
      unfold IS.simpleSample at hsimple
      rw [hN, hK] at hsimple
      cases hk : hypergeometric (400 : Nat) (20 : Nat) (20 : Nat) (chanceSrc 400 R 400 20 20 (ω' 0 0)) with
      | error e => rw [hk] at hsimple; cases hsimple
      | ok k =>
        rw [hk] at hsimple
        dsimp only at hsimple
        have hr := hypergeometric_range (400 : Nat) (20 : Nat) (20 : Nat) _ (by norm_num) (by norm_num) (by norm_num) (by norm_num) (by norm_num) k hk
        split at hsimple
        · cases hsimple
        · rename_i l' hl'
          cases hsimple
          have := (swr_ok k.toNat 20 _ (chanceSrc_lawful 400 R _ _ _ _) (by omega) _ hl').1
          have : k = (20 : Nat) := by omega
          rw [this] at hk
          exact C101_violated.2 R _ hk

end ABX.Sampler

#print axioms ABX.Sampler.C102_violated
#print axioms ABX.Sampler.C102_uniform_partial
#print axioms ABX.Sampler.C102_exact_partial
#print axioms ABX.Sampler.C102_chance_partial
#print axioms ABX.Sampler.C102_one
#print axioms ABX.Sampler.C102_small
