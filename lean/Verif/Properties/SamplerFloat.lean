import Verif.Proofs.SamplerFloat
import Verif.Properties.SamplerProb
/-!
Property C90: the sampler with the comparisons made in float64 (Model/SamplerFloat.lean).

In the rest of the development the sampler compares exactly (Model/Sampler.lean).  Here: the two decide differently for at most one of the 2^53
values of `np.random.rand()`, every run of the float algorithm is a run of the exact one on another stream (so what is proved for all
streams holds for the code), and the bounds on the probabilities of the samples hold with slightly larger exponents.
-/
namespace ABX.Sampler
open F64

/-- specification: with exact arithmetic, `k * (r / 2^53) < a` -/
def ExactTake (k a r : Nat) : Prop := (k : ℚ) * (r / 2 ^ 53) < a

/-- C90: the decision of line 230 when `k` records remain, of which `a` are to be taken.  Whatever is taken in float64 is taken with exact
arithmetic, and there is at most one value of `np.random.rand()` for which they differ. -/
theorem C90_decision (N n t m : Nat) (hN : N ≤ 2 ^ 53) (ht : t ≤ N) (hm : m ≤ n) (hn : n - m ≤ N - t) :
    (∀ u : Nat → Nat, takes N n u t m = true → ExactTake (N - t) (n - m) (u t)) ∧
    (∀ u v : Nat → Nat, (ExactTake (N - t) (n - m) (u t) ∧ takes N n u t m = false) → (ExactTake (N - t) (n - m) (v t) ∧ takes N n v t m = false) → u t = v t) := by
  constructor
  · intro u h
    exact exact_iff.mp (takes_exact hN ht hm (by omega) h)
  · have key : ∀ u v : Nat → Nat, takes N n u t m = false → ExactTake (N - t) (n - m) (v t) → ¬ u t < v t := by
      intro u v hu hv hlt
      have h1 := takes_differ hN ht hm hu
      have h2 := exact_iff.mpr hv
      have h3 : (N - t) * u t + (N - t) ≤ (N - t) * v t := by
        rw [← Nat.mul_succ]
        exact Nat.mul_le_mul_left _ hlt
      generalize (N - t) * u t = X at *
      generalize (N - t) * v t = Y at *
      generalize N - t = k at *
      generalize n - m = a at *
      norm_num at h1 h2
      omega
    rintro u v ⟨u1, u2⟩ ⟨v1, v2⟩
    have := key u v u2 v1
    have := key v u v2 u1
    omega

/-- C90: every run of `Knuth_sampling(n, N)` in float64 is a run of the exact algorithm, on some stream of random numbers. -/
theorem C90_simulates (n N : Nat) (hN : N ≤ 2 ^ 53) (h : n ≤ N) (u : Nat → Nat) (hu : ∀ i, u i < 2 ^ 53) :
    ∃ u' : Nat → Nat, (∀ i, u' i < 2 ^ 53) ∧ ∀ fuel, knuthF n N u fuel = knuth n N u' fuel := by
  obtain ⟨u', h1, h2⟩ := knuthLoopF_sim hN hu N 0 0 (by omega) (by omega) (by omega) (by omega)
  exact ⟨u', h1, fun fuel => h2 u' (fun _ _ => rfl) fuel⟩

/-- C90: in particular it returns, after at most `N` draws, `n` strictly increasing indices below `N`. -/
theorem C90_knuth (n N : Nat) (hN : N ≤ 2 ^ 53) (h : n ≤ N) (u : Nat → Nat) (hu : ∀ i, u i < 2 ^ 53) (fuel : Nat) (hf : N ≤ fuel) :
    ∃ s, knuthF n N u fuel = .ok s ∧ IsSample n N s := by
  obtain ⟨u', h1, h2⟩ := C90_simulates n N hN h u hu
  rw [h2]
  exact C39_knuth_sample n N h u' h1 fuel hf

/-- the proportion of streams of `N` random numbers for which `Knuth_sampling(n, N)` returns `s` in float64 -/
noncomputable def knuthProbF (n N : Nat) (s : List Nat) : ℚ :=
  ((Finset.univ.filter (fun u : Fin N → Fin (2 ^ 53) => knuthF n N (stream u) N = .ok s)).card : ℚ) / (2 ^ 53) ^ N

/-- the number of random numbers for which a record is (or is not) taken in float64 -/
noncomputable def nbDrawsF (k a : Nat) (b : Bool) : Nat :=
  (Finset.univ.filter (fun x : Fin (2 ^ 53) => (b = true ↔ rnd ((k : ℚ) * ((x.val : ℚ) / 2 ^ 53)) < (a : ℚ)))).card

theorem nbDrawsF_false (k a : Nat) : nbDrawsF k a false = 2 ^ 53 - nbDrawsF k a true := by
  unfold nbDrawsF
  simp only [Bool.false_eq_true, false_iff, true_iff]
  rw [← Finset.compl_filter, Finset.card_compl, Fintype.card_fin]

theorem nbDrawsF_true {k a : Nat} (hk : 0 < k) (hkM : k ≤ 2 ^ 53) (ha : a ≤ k) :
    nbDrawsF k a true ≤ nbDraws (2 ^ 53) k a true ∧ nbDraws (2 ^ 53) k a true ≤ nbDrawsF k a true + 1 := by
  obtain ⟨d1, d2⟩ := C90_decision k a 0 0 hkM (by omega) (by omega) (by omega)
  have e1 : ∀ x : Nat, (rnd ((k : ℚ) * ((x : ℚ) / 2 ^ 53)) < (a : ℚ) ↔ takes k a (fun _ => x) 0 0 = true) := by
    intro x
    rw [takes_def (fun _ => x) hkM (by omega) (by omega)]
    simp
  have e2 : ∀ x : Nat, k * x < a * 2 ^ 53 ↔ ExactTake (k - 0) (a - 0) x := by
    intro x
    exact exact_iff
  unfold nbDrawsF nbDraws
  simp only [true_iff]
  constructor
  · apply Finset.card_le_card
    intro x
    simp only [Finset.mem_filter, Finset.mem_univ, true_and]
    intro hx
    rw [e2]
    exact d1 (fun _ => x.val) ((e1 _).mp hx)
  · set F := Finset.univ.filter (fun x : Fin (2 ^ 53) => rnd ((k : ℚ) * ((x.val : ℚ) / 2 ^ 53)) < (a : ℚ)) with hF
    set E := Finset.univ.filter (fun x : Fin (2 ^ 53) => k * x.val < a * 2 ^ 53) with hE
    have h1 : (E \ F).card ≤ 1 := by
      rw [Finset.card_le_one]
      have hm : ∀ x : Fin (2 ^ 53), x ∈ E \ F → ExactTake (k - 0) (a - 0) x.val ∧ takes k a (fun _ => x.val) 0 0 = false := by
        intro x hx
        rw [Finset.mem_sdiff, hE, hF, Finset.mem_filter, Finset.mem_filter, e1, e2] at hx
        exact ⟨hx.1.2, by simpa using hx.2⟩
      intro x hx y hy
      exact Fin.ext (d2 (fun _ => x.val) (fun _ => y.val) (hm x hx) (hm y hy))
    have h2 := Finset.card_le_card_sdiff_add_card (s := E) (t := F)
    omega

/-- C90: every set of `n` indices below `N` is returned by `Knuth_sampling(n, N)` with probability 1 / (N choose n), up to a factor between
(1 - N/2^53)^N and (1 + N/2^53)^N, which is due to the finite precision of `np.random.rand` and of the comparison. -/
theorem C90_uniform (n N : Nat) (hN : N ≤ 2 ^ 53) (s : List Nat) (h : IsSample n N s) :
    (1 - (N : ℚ) / 2 ^ 53) ^ N ≤ knuthProbF n N s * N.choose n ∧ knuthProbF n N s * N.choose n ≤ (1 + (N : ℚ) / 2 ^ 53) ^ N := by
  obtain ⟨hl, hi, hb⟩ := h
  have hbef : ∀ i, before s i ≤ n := by
    intro i
    rw [← hl]
    unfold before
    exact List.length_filter_le _ _
  have hcond : ∀ (u : Nat → Nat) (i : Nat), i < N → ((0 + before s i < n ∧ takes N n u i (0 + before s i) = true) ↔
      rnd (((N - i : Nat) : ℚ) * ((u i : ℚ) / 2 ^ 53)) < ((n - before s i : Nat) : ℚ)) := by
    intro u i hiN
    rw [Nat.zero_add, takes_def u hN hiN.le (hbef i)]
    constructor
    · exact fun h => h.2
    · intro h
      refine ⟨?_, h⟩
      rcases Nat.lt_or_ge (before s i) n with h' | h'
      · exact h'
      · exfalso
        rw [show n - before s i = 0 by omega] at h
        have : (0 : ℚ) ≤ rnd (((N - i : Nat) : ℚ) * ((u i : ℚ) / 2 ^ 53)) := rnd_nonneg (by positivity)
        rw [Nat.cast_zero] at h
        exact absurd h (not_lt.mpr this)
  have e : (Finset.univ.filter (fun u : Fin N → Fin (2 ^ 53) => knuthF n N (stream u) N = .ok s)) =
      Fintype.piFinset (fun i : Fin N => Finset.univ.filter (fun x : Fin (2 ^ 53) =>
        (decide (0 + i.val ∈ s) = true ↔ rnd (((N - i.val : Nat) : ℚ) * ((x.val : ℚ) / 2 ^ 53)) < ((n - before s (0 + i.val) : Nat) : ℚ)))) := by
    ext u
    simp only [Finset.mem_filter, Finset.mem_univ, true_and, Fintype.mem_piFinset, decide_eq_true_eq, Nat.zero_add]
    unfold knuthF
    rw [knuthLoopF_iff N n (stream u) N 0 0 s (by omega) (by omega) (by omega) hi (fun x hx => ⟨Nat.zero_le _, hb x hx⟩) (by omega)]
    constructor
    · intro h i
      have := h i.val (Nat.zero_le _) i.isLt
      rw [hcond _ _ i.isLt] at this
      simpa [stream, i.isLt] using this
    · intro h i _ hiN
      have := h ⟨i, hiN⟩
      rw [hcond _ _ hiN]
      simpa [stream, hiN] using this
  have hP : knuthProbF n N s = ∏ i : Fin N, (nbDrawsF (N - i) (n - before s (0 + i)) (decide (0 + i.val ∈ s)) : ℚ) / (2 ^ 53 : Nat) := by
    unfold knuthProbF
    rw [e, Fintype.card_piFinset, Finset.prod_div_distrib, Finset.prod_const, Finset.card_univ, Fintype.card_fin]
    push_cast
    rfl
  rw [hP]
  have hC : ∀ k a, 0 < k → k ≤ N → a ≤ k → a * 2 ^ 53 ≤ nbDrawsF k a true * k + k ∧ nbDrawsF k a true * k ≤ a * 2 ^ 53 + k ∧ nbDrawsF k a true ≤ 2 ^ 53 := by
    intro k a hk hkN hak
    obtain ⟨f1, f2⟩ := nbDrawsF_true hk (by omega) hak
    obtain ⟨x1, x2, x3⟩ := nbDraws_true (M := 2 ^ 53) hk hak
    have g1 := Nat.mul_le_mul_right k f1
    have g2 := Nat.mul_le_mul_right k f2
    rw [Nat.add_mul, Nat.one_mul] at g2
    exact ⟨by omega, by omega, by omega⟩
  have := prod_boundsF (2 ^ 53) N nbDrawsF (by positivity) hN hC nbDrawsF_false N (Nat.le_refl _) 0 n s hi (fun x hx => ⟨Nat.zero_le _, by simpa using hb x hx⟩) hl
  push_cast at this ⊢
  exact this

/-- C90: no sample is excluded. -/
theorem C90_every_sample (n N : Nat) (hN : N < 2 ^ 53) (s : List Nat) (h : IsSample n N s) :
    ∃ u : Nat → Nat, (∀ i, u i < 2 ^ 53) ∧ knuthF n N u N = .ok s := by
  obtain ⟨h1, -⟩ := C90_uniform n N hN.le s h
  have hpos : (0 : ℚ) < (1 - (N : ℚ) / 2 ^ 53) ^ N := by
    apply pow_pos
    rw [sub_pos, div_lt_one (by positivity)]
    exact_mod_cast hN
  have hne : (Finset.univ.filter (fun u : Fin N → Fin (2 ^ 53) => knuthF n N (stream u) N = .ok s)).Nonempty := by
    rw [Finset.nonempty_iff_ne_empty]
    intro he
    unfold knuthProbF at h1
    rw [he] at h1
    simp only [Finset.card_empty, Nat.cast_zero, zero_div, zero_mul] at h1
    linarith
  obtain ⟨u, hu⟩ := hne
  refine ⟨stream u, ?_, (Finset.mem_filter.mp hu).2⟩
  intro i
  unfold stream
  split
  · exact Fin.isLt _
  · norm_num

/-- C90: `n / float(N) < 0.6` (line 209) decides what exact arithmetic decides, for `N` up to 2^50. -/
theorem C90_choice (n N : Nat) (hN : 0 < N) (hN' : N ≤ 2 ^ 50) (h : n ≤ N) : few n N = true ↔ (n : ℚ) / N < 6 / 10 := by
  have hb : (2 : ℕ) ^ 50 ≤ 2 ^ 53 := by norm_num
  unfold few
  rw [decide_eq_true_eq, rnd_nat' (by omega), rnd_nat' (by omega)]
  have hNq : (0 : ℚ) < N := by exact_mod_cast hN
  constructor
  · intro hlt
    by_contra hc
    exact absurd hlt (not_lt.mpr (rnd_mono (not_lt.mp hc)))
  · intro hlt
    have e1 := (abs_le.mp (rnd_err ((n : ℚ) / N))).2
    have e2 := (abs_le.mp (rnd_err ((6 : ℚ) / 10))).1
    rw [abs_of_nonneg (by positivity)] at e1 e2
    have hz : (2 : ℚ) ^ (-53 : ℤ) = 1 / 2 ^ 53 := by rw [zpow_neg]; norm_num
    rw [hz] at e1 e2
    have g : (n : ℚ) / N + 1 / (5 * N) ≤ 6 / 10 := by
      rw [div_lt_div_iff₀ hNq (by norm_num)] at hlt
      have h5 : n * 10 < 6 * N := by exact_mod_cast hlt
      have h6 : 5 * n + 1 ≤ 3 * N := by omega
      have h7 : 5 * (n : ℚ) + 1 ≤ 3 * N := by exact_mod_cast h6
      rw [show (n : ℚ) / N + 1 / (5 * N) = (5 * n + 1) / (5 * N) by field_simp, div_le_iff₀ (by positivity)]
      linarith
    have g2 : (1 : ℚ) / (5 * 2 ^ 50) ≤ 1 / (5 * N) := by
      apply one_div_le_one_div_of_le (by positivity)
      have : (N : ℚ) ≤ 2 ^ 50 := by exact_mod_cast hN'
      linarith
    have g3 : (n : ℚ) / N * (1 / 2 ^ 53) ≤ 6 / 10 * (1 / 2 ^ 53) := by
      apply mul_le_mul_of_nonneg_right hlt.le (by positivity)
    norm_num at e1 e2 g g2 g3 ⊢
    linarith

/-- C90: `sample_without_replacement(n, N)` in float64 is `sample_without_replacement(n, N)` with exact comparisons, on some other random numbers. -/
theorem C90_dispatch (n N : Nat) (hN : N ≤ 2 ^ 50) (h : n ≤ N) (src : Src) (hl : src.Lawful) :
    ∃ src' : Src, src'.Lawful ∧ sampleWithoutReplacementF n N src = sampleWithoutReplacement n N src' := by
  have hb : (2 : ℕ) ^ 50 ≤ 2 ^ 53 := by norm_num
  obtain ⟨u', h1, h2⟩ := C90_simulates n N (by omega) h src.u hl.u
  refine ⟨{ src with u := u' }, ⟨h1, hl.drawLen, hl.drawLt⟩, ?_⟩
  unfold sampleWithoutReplacementF sampleWithoutReplacement
  dsimp only
  have hc : (N > 100 ∧ few n N = true) ↔ (N > 100 ∧ 10 * n < 6 * N) := by
    apply and_congr_right
    intro hN0
    rw [C90_choice n N (by omega) hN h, div_lt_div_iff₀ (by exact_mod_cast (by omega : 0 < N)) (by norm_num)]
    constructor
    · intro h; have : n * 10 < 6 * N := by exact_mod_cast h
      omega
    · intro h; have : n * 10 < 6 * N := by omega
      exact_mod_cast this
  by_cases c : N > 100 ∧ 10 * n < 6 * N
  · rw [if_pos c, if_pos (hc.mpr c)]
  · rw [if_neg c, if_neg (fun h => c (hc.mp h)), h2]

theorem swrF_ok (n N : Nat) (hN : N ≤ 2 ^ 53) (src : Src) (hl : src.Lawful) (hn : n ≤ N) (s : List Nat)
    (h : sampleWithoutReplacementF n N src = .ok s) : IsSample n N s := by
  unfold sampleWithoutReplacementF at h
  split at h
  · rename_i c
    unfold rejection at h
    by_cases h0 : n = 0
    · rw [if_pos h0] at h; cases h; simp [h0, IsSample]
    · rw [if_neg h0, if_neg (by omega)] at h
      obtain ⟨r1, r2, r3, _⟩ := rejectionLoop_inv n N (src.draw N) (hl.drawLen N) (fun i k => hl.drawLt N i k (by omega)) src.fuel 0 [] s
        List.Pairwise.nil (by simp) (by simp) h
      exact ⟨r2, r1, r3⟩
  · obtain ⟨u', h1, h2⟩ := C90_simulates n N hN hn src.u hl.u
    rw [h2] at h
    -- the exact algorithm on a population that is sampled by Knuth's method
    have hk := swr_ok n N { src with u := u' } ⟨h1, hl.drawLen, hl.drawLt⟩ hn
    unfold sampleWithoutReplacement at hk
    by_cases c : N > 100 ∧ 10 * n < 6 * N
    · obtain ⟨r, hr1, hr2⟩ := C39_knuth_sample n N hn u' h1 (max N src.fuel) (by omega)
      have : s = r := by
        have key : ∀ f f' t m x y, f ≤ f' → knuthLoop N n u' f t m = .ok x → knuthLoop N n u' f' t m = .ok y → x = y := by
          intro f
          induction f with
          | zero =>
            intro f' t m x y _ hx hy
            unfold knuthLoop at hx hy
            split at hx
            · cases hx
            · rename_i hc
              rw [if_neg hc] at hy
              cases hx; cases hy; rfl
          | succ f ih =>
            intro f' t m x y hf hx hy
            obtain ⟨f', rfl⟩ : ∃ g, f' = g + 1 := ⟨f' - 1, by omega⟩
            unfold knuthLoop at hx hy
            by_cases hc : m < n
            · rw [if_pos hc] at hx hy
              dsimp only at hx hy
              by_cases hd : ((N : Int) - t) * u' t < ((n : Int) - m) * 2 ^ 53
              · rw [if_pos hd] at hx hy
                cases hx' : knuthLoop N n u' f (t + 1) (m + 1) with
                | error e => rw [hx'] at hx; cases hx
                | ok x' =>
                  cases hy' : knuthLoop N n u' f' (t + 1) (m + 1) with
                  | error e => rw [hy'] at hy; cases hy
                  | ok y' =>
                    rw [hx'] at hx; rw [hy'] at hy
                    cases hx; cases hy
                    rw [ih f' _ _ _ _ (by omega) hx' hy']
              · rw [if_neg hd] at hx hy
                exact ih f' _ _ _ _ (by omega) hx hy
            · rw [if_neg hc] at hx hy
              cases hx; cases hy; rfl
        exact key src.fuel (max N src.fuel) 0 0 s r (by omega) h hr1
      rw [this]
      exact hr2
    · rw [if_neg c] at hk
      obtain ⟨k1, k2, k3⟩ := hk s h
      exact ⟨k1, k2, k3⟩

/-- C90: whenever `sample_without_replacement(n, N)` returns, with float64 comparisons, it returns a sample. -/
theorem C90_dispatch_sample (n N : Nat) (hN : N ≤ 2 ^ 53) (h : n ≤ N) (src : Src) (hl : src.Lawful) (s : List Nat)
    (hs : sampleWithoutReplacementF n N src = .ok s) : IsSample n N s := swrF_ok n N hN src hl h s hs

theorem simpleSampleF_ok (s : IS) (hN : s.N ≤ 2 ^ 53) (hs : ISInv s) (n : Nat) (hn : n ≤ s.N) (hne : ¬ (s.N = 1 ∧ n = 0 ∧ s.K = 1))
    (src : Src) (hl : src.Lawful) (s' : IS) (l : List Nat)
    (h : s.simpleSampleF n src = .ok (s', l)) : Drawn s s' n l := by
  unfold IS.simpleSampleF at h
  cases hk : hypergeometric s.N s.K n src with
  | error e => rw [hk] at h; cases h
  | ok k =>
    rw [hk] at h
    dsimp only at h
    have hkn := hs.kn
    have hr := hypergeometric_range s.N s.K n src (by omega) (by omega) (by omega) (by omega) (by omega) k hk
    cases hw : sampleWithoutReplacementF k.toNat n src with
    | error e => rw [hw] at h; cases h
    | ok l' =>
      rw [hw] at h
      cases h
      obtain ⟨w1, w2, w3⟩ := swrF_ok k.toNat n (by omega) src hl (by omega) _ hw
      have := hs.ni
      exact ⟨by simp; omega, by simp; omega, ⟨by simp; omega, by simp; omega⟩, rfl, rfl, w2, w3⟩

theorem chunksF_ok (c : Nat) (hc : 0 < c) (src : Nat → Src) (hl : ∀ i, (src i).Lawful) (fuel : Nat) :
    ∀ (s : IS) (n i : Nat), s.N ≤ 2 ^ 53 → ISInv s → n ≤ s.N →
    ∀ s' l, IS.chunksF src c fuel s n i = .ok (s', l) →
    ∃ l0, l = l0.map (· + i * c) ∧ Drawn s s' n l0 := by
  induction fuel with
  | zero =>
    intro s n i hN hs hn s' l h
    unfold IS.chunksF at h
    by_cases h0 : n > 0
    · rw [if_pos h0] at h; cases h
    · rw [if_neg h0] at h; cases h
      exact ⟨[], rfl, ⟨by omega, by simp, hs, rfl, rfl, List.Pairwise.nil, by simp⟩⟩
  | succ f ih =>
    intro s n i hN hs hn s' l h
    unfold IS.chunksF at h
    by_cases h0 : n > 0
    · rw [if_pos h0] at h
      dsimp only at h
      cases h1 : s.simpleSampleF (min c n) (src i) with
      | error e => rw [h1] at h; cases h
      | ok p =>
        obtain ⟨s1, l1⟩ := p
        rw [h1] at h
        dsimp only at h
        cases h2 : IS.chunksF src c f s1 (n - min c n) (i + 1) with
        | error e => rw [h2] at h; cases h
        | ok q =>
          obtain ⟨s2, l2⟩ := q
          rw [h2] at h
          cases h
          have d1 := simpleSampleF_ok s hN hs (min c n) (by omega) (by omega) (src i)
            (hl i) s1 l1 h1
          obtain ⟨l20, e1, d2⟩ := ih s1 (n - min c n) (i + 1) (by have := d1.N; omega) d1.inv (by have := d1.N; omega) _ l2 h2
          have hz : l20 ≠ [] → c ≤ n := by
            intro hne
            by_contra hcn
            cases l20 with
            | nil => exact hne rfl
            | cons x xs =>
              have := d2.lt x (by simp)
              omega
          refine ⟨l1 ++ l20.map (· + c), ?_, ?_⟩
          · rw [e1, List.map_append, List.map_map]
            congr 1
            apply List.map_congr_left
            intro x _
            simp only [Function.comp, Nat.add_mul, Nat.one_mul]
            omega
          · refine ⟨?_, ?_, d2.inv, d2.init.trans d1.init, d2.rel.trans d1.rel, ?_, ?_⟩
            · have := d1.N; have := d2.N; omega
            · have := d1.K; have := d2.K; simp; omega
            · refine StrictInc.append_shift d1.inc (d2.inc.map_add c) (a := c) ?_ ?_
              · intro x hx; have := d1.lt x hx; omega
              · intro x hx; simp at hx; omega
            · intro x hx
              rcases List.mem_append.mp hx with hx | hx
              · have := d1.lt x hx; omega
              · obtain ⟨y, hy, rfl⟩ := List.mem_map.mp hx
                have h3 := d2.lt y hy
                have h4 := hz (List.ne_nil_of_mem hy)
                omega
    · rw [if_neg h0] at h; cases h
      exact ⟨[], rfl, ⟨by omega, by simp, hs, rfl, rfl, List.Pairwise.nil, by simp⟩⟩

theorem chunkSize_pos {N K : Nat} (hN : N ≤ 2 ^ 53) (hK : 0 < K) (h : K ≤ N) : 0 < chunkSize N K := by
  have hKq : (0 : ℚ) < K := by exact_mod_cast hK
  unfold chunkSize
  rw [rnd_nat' (n := K) (by omega)]
  have h1 : (N : ℚ) ≤ rnd ((10 ^ 5 * N : Nat) : ℚ) := by
    have := rnd_mono (p := (N : ℚ)) (q := ((10 ^ 5 * N : Nat) : ℚ)) (by exact_mod_cast (by omega : N ≤ 10 ^ 5 * N))
    rwa [rnd_nat' hN] at this
  have h2 : (1 : ℚ) ≤ rnd ((10 ^ 5 * N : Nat) : ℚ) / K := by
    rw [le_div_iff₀ hKq, one_mul]
    exact le_trans (by exact_mod_cast h) h1
  have h3 := rnd_mono h2
  have h4 : rnd (1 : ℚ) = 1 := by exact_mod_cast rnd_nat' (n := 1) (by norm_num)
  rw [h4] at h3
  exact Nat.floor_pos.mpr h3

theorem sampleF_ok (s : IS) (hN : s.N ≤ 2 ^ 53) (hs : ISInv s) (n : Nat) (hn : 0 < n) (src : Nat → Src) (hl : ∀ i, (src i).Lawful)
    (s' : IS) (l : List Nat) (h : s.sampleF n src = .ok (s', l)) :
    ∃ l0, Drawn s s' (min n s.N) l0 ∧ l = if s.relative then l0 else l0.map (· + (s.initialN - s.N)) := by
  unfold IS.sampleF at h
  dsimp only at h
  have hmin : (if n > s.N then s.N else n) = min n s.N := by
    split <;> omega
  rw [hmin] at h
  by_cases h0 : s.N = 0
  · rw [if_pos h0] at h; cases h
  · rw [if_neg h0] at h
    by_cases hk : expected (min n s.N) s.K s.N > 10 ^ 5
    · rw [if_pos hk] at h
      have hK : 0 < s.K := by
        rcases Nat.eq_zero_or_pos s.K with h | h
        · exfalso
          have h1 : rnd (0 : ℚ) = 0 := by exact_mod_cast rnd_nat' (n := 0) (by norm_num)
          rw [h, expected] at hk
          simp only [Nat.mul_zero, Nat.cast_zero, h1, zero_div] at hk
          norm_num at hk
        · exact h
      have hc := chunkSize_pos hN hK hs.kn
      cases hr : IS.chunksF src (chunkSize s.N s.K) (min n s.N) s (min n s.N) 0 with
      | error e => rw [hr] at h; cases h
      | ok p =>
        obtain ⟨s1, l1⟩ := p
        rw [hr] at h
        cases h
        obtain ⟨l0, e1, d⟩ := chunksF_ok _ hc src hl _ s (min n s.N) 0 hN hs (by omega) _ l1 hr
        have : l1 = l0 := by rw [e1]; simp
        subst this
        exact ⟨l1, d, by dsimp only⟩
    · rw [if_neg hk] at h
      cases hr : s.simpleSampleF (min n s.N) (src 0) with
      | error e => rw [hr] at h; cases h
      | ok p =>
        obtain ⟨s1, l1⟩ := p
        rw [hr] at h
        cases h
        exact ⟨l1, simpleSampleF_ok s hN hs _ (by omega) (by omega) (src 0) (hl 0) _ l1 hr, by dsimp only⟩

/-- C90: the statement of C42 for the float64 sampler.  For every `K ≤ N ≤ 2^53`, every sequence of positive chunk sizes and every random stream
such that all the calls return, the indices returned are strictly increasing over the whole run, the `i`-th result lies in the `i`-th requested
window, and if the run exhausts the population exactly `K` indices were drawn.  Missing: empty chunks (`C42_violated_empty_chunk`). -/
theorem C90_incremental_partial (N K : Nat) (hN : N ≤ 2 ^ 53) (step : Option Nat) (s : IS) (hc : IS.create N K step false = .ok s)
    (calls : List (Nat × (Nat → Src))) (hcalls : ∀ c ∈ calls, 0 < c.1 ∧ ∀ i, (c.2 i).Lawful)
    (s' : IS) (ls : List (List Nat)) (h : IS.samplesBy IS.sampleF s calls = .ok (s', ls)) :
    ls.flatten.Pairwise (· < ·) ∧ (∀ x ∈ ls.flatten, x < N) ∧ ls.flatten.length ≤ K ∧ ls.length = calls.length ∧
    (∀ p ∈ ls.zip (windows N 0 (calls.map (·.1))), ∀ x ∈ p.1, p.2.1 ≤ x ∧ x < p.2.2) ∧
    (N ≤ (calls.map (·.1)).sum → ls.flatten.length = K) := by
  unfold IS.create at hc
  by_cases hk : K ≤ N
  · rw [if_neg (by simpa using hk)] at hc
    have hs : s.N = N ∧ s.K = K ∧ s.initialN = N ∧ s.relative = false := by
      cases step with
      | some st => cases hc; simp
      | none =>
        dsimp only at hc
        by_cases h0 : K = 0
        · rw [if_pos h0] at hc; cases hc
        · rw [if_neg h0] at hc; cases hc; simp
    obtain ⟨a, b, c, d⟩ := hs
    obtain ⟨i1, i2, i3, i4, i5, i6, i7, i8, i9, i10⟩ := samplesBy_ok (fun s => s.N ≤ 2 ^ 53) IS.sampleF (fun s s' h1 h2 => h2.trans h1)
      (fun s h1 h2 => sampleF_ok s h1 h2) calls s (by simpa [a] using hN) ⟨by omega, by omega⟩ d hcalls s' ls h
    rw [a, c] at i8 i5
    refine ⟨i4, fun x hx => by have := i5 x hx; omega, by omega, i7, by simpa using i8, ?_⟩
    intro hsum
    have : s'.K = 0 := by
      have := i1.kn
      by_cases hz : s'.N = 0
      · omega
      · have h10 := i10 hz
        omega
    omega
  · rw [if_pos (by simpa using hk)] at hc; cases hc

/-! ### cases -/

/-- 31 records of which 4 are to be taken: the random number for which the two decisions differ -/
example : ExactTake 31 4 1162219258676257 ∧ takes 31 4 (fun _ => 1162219258676257) 0 0 = false := by
  constructor
  · unfold ExactTake; norm_num
  · decide +kernel

/-- so the samples differ on the stream that starts with it -/
example : knuthF 4 31 (fun i => if i = 0 then 1162219258676257 else 0) 31 = .ok [1, 2, 3, 4] ∧
    knuth 4 31 (fun i => if i = 0 then 1162219258676257 else 0) 31 = .ok [0, 1, 2, 3] := by
  constructor <;> decide +kernel

/-- 59 out of 101 are drawn by rejection, 61 are not -/
example : few 59 101 = true ∧ few 61 101 = false := by decide +kernel

/-- a run: 6 items, 3 of them drawn in two calls -/
def exSrcF (k : Int) : Src := ⟨fun _ => (k, true), 100, fun _ => 2 ^ 52, fun _ _ k => List.replicate k 0, 10⟩

example : (IS.create 6 3 (some 3) false).bind (fun s => (IS.samplesBy IS.sampleF s [(3, fun _ => exSrcF 1), (3, fun _ => exSrcF 0)]).map (·.2)) = .ok [[2], [3, 5]] := by
  decide +kernel

#print axioms C90_decision
#print axioms C90_simulates
#print axioms C90_knuth
#print axioms C90_uniform
#print axioms C90_every_sample
#print axioms C90_choice
#print axioms C90_dispatch
#print axioms C90_dispatch_sample
#print axioms C90_incremental_partial

end ABX.Sampler
