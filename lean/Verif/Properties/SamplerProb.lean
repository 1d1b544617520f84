import Verif.Proofs.SamplerRej
/-!
Properties C64 and C65: the samples are uniform.

Probabilities are proportions of finitely many equally likely streams: `np.random.rand()` returns one of the 2^53 numbers `r / 2^53`,
`np.random.randint(0, N, k)` returns `k` of the numbers 0 .. N-1.  Independence of successive draws is what counting all
streams (functions) means.
-/
namespace ABX.Sampler

/-- a finite stream of numbers below 2^53 as an infinite one -/
def stream {N : Nat} (u : Fin N → Fin (2 ^ 53)) (i : Nat) : Nat := if h : i < N then (u ⟨i, h⟩).val else 0

/-- the proportion of streams of `N` random numbers for which `Knuth_sampling(n, N)` returns `s` -/
noncomputable def knuthProb (n N : Nat) (s : List Nat) : ℚ :=
  ((Finset.univ.filter (fun u : Fin N → Fin (2 ^ 53) => knuth n N (stream u) N = .ok s)).card : ℚ) / (2 ^ 53) ^ N

/-- C64: every set of `n` indices below `N` is returned by `Knuth_sampling(n, N)` with probability 1 / (N choose n), up to a
factor between (1 - N/2^53)^(N-n) and (1 + N/2^53)^n, which is due to the finite precision of `np.random.rand`. -/
theorem C64_knuth_uniform (n N : Nat) (hN : N ≤ 2 ^ 53) (s : List Nat) (h : IsSample n N s) :
    (1 - (N : ℚ) / 2 ^ 53) ^ (N - n) ≤ knuthProb n N s * N.choose n ∧ knuthProb n N s * N.choose n ≤ (1 + (N : ℚ) / 2 ^ 53) ^ n := by
  obtain ⟨hl, hi, hb⟩ := h
  have e : (Finset.univ.filter (fun u : Fin N → Fin (2 ^ 53) => knuth n N (stream u) N = .ok s)) =
      Fintype.piFinset (fun i : Fin N => Finset.univ.filter (fun x : Fin (2 ^ 53) =>
        (decide (0 + i.val ∈ s) = true ↔ (N - i.val) * x.val < (n - before s (0 + i.val)) * 2 ^ 53))) := by
    ext u
    simp only [Finset.mem_filter, Finset.mem_univ, true_and, Fintype.mem_piFinset, decide_eq_true_eq, Nat.zero_add]
    unfold knuth
    rw [knuthLoop_iff N n (stream u) N 0 0 s (by omega) (by omega) (by omega) hi (fun x hx => ⟨Nat.zero_le _, hb x hx⟩) (by omega)]
    constructor
    · intro h i
      have := h i.val (Nat.zero_le _) i.isLt
      simpa [stream, i.isLt] using this
    · intro h i _ hiN
      have := h ⟨i, hiN⟩
      simpa [stream, hiN] using this
  have hP : knuthProb n N s = ∏ i : Fin N, (nbDraws (2 ^ 53) (N - i) (n - before s (0 + i)) (decide (0 + i.val ∈ s)) : ℚ) / (2 ^ 53 : Nat) := by
    unfold knuthProb
    rw [e, Fintype.card_piFinset, Finset.prod_div_distrib, Finset.prod_const, Finset.card_univ, Fintype.card_fin]
    push_cast
    rfl
  rw [hP]
  have := prod_bounds (2 ^ 53) N (by positivity) hN N (Nat.le_refl _) 0 n s hi (fun x hx => ⟨Nat.zero_le _, by simpa using hb x hx⟩) hl
  push_cast at this ⊢
  exact this

/-- C64: so no set of indices is more than (1 + N/2^53)^n / (1 - N/2^53)^(N-n) times as likely as another. -/
theorem C64_knuth_ratio (n N : Nat) (hN : N ≤ 2 ^ 53) (s s' : List Nat) (h : IsSample n N s) (h' : IsSample n N s') :
    knuthProb n N s * (1 - (N : ℚ) / 2 ^ 53) ^ (N - n) ≤ knuthProb n N s' * (1 + (N : ℚ) / 2 ^ 53) ^ n := by
  have hnN : n ≤ N := by
    have := length_le_of_inc N s 0 h.2.1 (fun x hx => ⟨Nat.zero_le _, h.2.2 x hx⟩)
    rw [h.1] at this
    omega
  obtain ⟨-, a2⟩ := C64_knuth_uniform n N hN s h
  obtain ⟨b1, -⟩ := C64_knuth_uniform n N hN s' h'
  have hc : (0 : ℚ) < N.choose n := by exact_mod_cast Nat.choose_pos hnN
  have hp : 0 ≤ knuthProb n N s := by unfold knuthProb; positivity
  have hp' : 0 ≤ knuthProb n N s' := by unfold knuthProb; positivity
  have : knuthProb n N s * N.choose n * (1 - (N : ℚ) / 2 ^ 53) ^ (N - n) ≤ (1 + (N : ℚ) / 2 ^ 53) ^ n * (knuthProb n N s' * N.choose n) := by
    have hq : 0 ≤ (1 - (N : ℚ) / 2 ^ 53) ^ (N - n) := by
      apply pow_nonneg
      rw [sub_nonneg, div_le_one (by positivity)]
      exact_mod_cast hN
    exact mul_le_mul a2 b1 hq (by positivity)
  have e : (knuthProb n N s' * (1 + (N : ℚ) / 2 ^ 53) ^ n - knuthProb n N s * (1 - (N : ℚ) / 2 ^ 53) ^ (N - n)) * N.choose n ≥ 0 := by
    have := sub_nonneg.mpr this
    calc _ ≤ _ := this
      _ = _ := by ring
  have := nonneg_of_mul_nonneg_left e hc
  linarith

/-- the number of tables of draws (R rounds) for which `rejection_sampling(n, N)` returns `s` -/
noncomputable def rejCount (R n N : Nat) (s : List Nat) : Nat :=
  (Finset.univ.filter (fun v : Fin R → Fin n → Fin N => rejection n N (drawOf v) R = .ok s)).card

open scoped Classical in
/-- the number of tables of draws (R rounds) for which it does not return -/
noncomputable def rejOpen (R n N : Nat) : Nat :=
  (Finset.univ.filter (fun v : Fin R → Fin n → Fin N => ¬ ∃ s : List Nat, rejection n N (drawOf v) R = .ok s)).card

/-- C65: any two sets of `n` indices below `N` are returned by `rejection_sampling(n, N)` for the same number of tables of draws: the
sample is uniform. -/
theorem C65_rejection_uniform (R n N : Nat) (s s' : List Nat) (h : IsSample n N s) (h' : IsSample n N s') :
    rejCount R n N s = rejCount R n N s' := by
  have key : ∀ s s', IsSample n N s → IsSample n N s' → rejCount R n N s ≤ rejCount R n N s' := by
    intro s s' h h'
    obtain ⟨σ, hσ⟩ := rel_exists h h'
    unfold rejCount
    refine Finset.card_le_card_of_injOn (fun v i j => σ (v i j)) ?_ ?_
    · intro v hv
      simp only [Finset.coe_filter, Finset.mem_univ, true_and, Set.mem_ofPred_eq] at hv ⊢
      exact rejection_rel v hσ hv
    · intro v _ w _ hvw
      funext i j
      exact σ.injective (congrFun (congrFun hvw i) j)
  exact Nat.le_antisymm (key s s' h h') (key s' s h' h)

/-- C65: the probability that the sample is not complete after `R` rounds is at most 2^n (1 - 1/(2N))^R, which tends to 0:
`rejection_sampling` returns with probability one. -/
theorem C65_rejection_returns (R n N : Nat) (hn : 0 < n) (hN : n ≤ N) :
    (rejOpen R n N : ℚ) / (N ^ n) ^ R ≤
      2 ^ n * (1 - 1 / (2 * N)) ^ R := by
  have hNq : (0 : ℚ) < N := by exact_mod_cast (by omega : 0 < N)
  have e : rejOpen R n N ≤ nbOpen R n N [] := by
    unfold nbOpen rejOpen
    apply Finset.card_le_card
    intro v
    simp only [Finset.mem_filter, Finset.mem_univ, true_and]
    intro hv
    unfold rejection at hv
    rw [if_neg (by omega), if_neg (by omega)] at hv
    have : ∀ fuel i s r, rejectionLoop n (drawOf v) fuel i s = .error r → r = .diverge := by
      intro fuel
      induction fuel with
      | zero =>
        intro i s r hr
        rw [rejectionLoop] at hr
        split at hr
        · cases hr; rfl
        · cases hr
      | succ fuel ih =>
        intro i s r hr
        rw [rejectionLoop] at hr
        split at hr
        · exact ih _ _ _ hr
        · cases hr
    cases hr : rejectionLoop n (drawOf v) R 0 [] with
    | ok s => exact absurd ⟨s, rfl⟩ (hr ▸ hv)
    | error r => rw [this _ _ _ _ hr]
  rw [div_le_iff₀ (by positivity)]
  have hb := nbOpen_bound n N hN R [] .nil (by simp)
  have e' : (rejOpen R n N : ℚ) ≤ nbOpen R n N [] := by
    exact_mod_cast e
  refine e'.trans (hb.trans (le_of_eq ?_))
  rw [mul_pow]
  simp only [List.length_nil, Nat.sub_zero]
  ring

/-- C65: the proportions add up: the samples of size `n` share, in equal parts, all the tables of draws but those for which the sample is
not complete. -/
theorem C65_rejection_total (R n N : Nat) (hn : 0 < n) (hN : n ≤ N) (s : List Nat) (h : IsSample n N s) :
    rejCount R n N s * N.choose n + rejOpen R n N = (N ^ n) ^ R := by
  classical
  unfold rejOpen
  have hcard : (Finset.univ : Finset (Fin R → Fin n → Fin N)).card = (N ^ n) ^ R := by
    rw [Finset.card_univ, Fintype.card_fun, Fintype.card_fun, Fintype.card_fin, Fintype.card_fin, Fintype.card_fin]
  rw [← hcard, ← Finset.card_filter_add_card_filter_not (s := Finset.univ) (fun v : Fin R → Fin n → Fin N => ∃ s : List Nat, rejection n N (drawOf v) R = .ok s)]
  congr 1
  have isS : ∀ (v : Fin R → Fin n → Fin N) r, rejection n N (drawOf v) R = .ok r → IsSample n N r := rejection_drawOf
  have hmaps : Set.MapsTo (fun v : Fin R → Fin n → Fin N => match rejection n N (drawOf v) R with | .ok r => r.toFinset | .error _ => ∅)
      (Finset.univ.filter (fun v : Fin R → Fin n → Fin N => ∃ s : List Nat, rejection n N (drawOf v) R = .ok s)) ((Finset.range N).powersetCard n) := by
    intro v hv
    simp only [Finset.coe_filter, Finset.mem_univ, true_and, Set.mem_ofPred_eq] at hv
    obtain ⟨r, hr⟩ := hv
    obtain ⟨h1, h2, h3⟩ := isS v r hr
    simp only [hr]
    rw [Finset.mem_coe, Finset.mem_powersetCard]
    refine ⟨?_, by rw [List.toFinset_card_of_nodup (h2.imp (fun h => Nat.ne_of_lt h)), h1]⟩
    intro x hx
    exact Finset.mem_range.mpr (h3 x (List.mem_toFinset.mp hx))
  rw [Finset.card_eq_sum_card_fiberwise hmaps]
  have hf : ∀ t ∈ (Finset.range N).powersetCard n, ((Finset.univ.filter (fun v : Fin R → Fin n → Fin N => ∃ s : List Nat, rejection n N (drawOf v) R = .ok s)).filter
      (fun v => (match rejection n N (drawOf v) R with | .ok r => r.toFinset | .error _ => ∅) = t)).card = rejCount R n N s := by
    intro t ht
    obtain ⟨t1, t2⟩ := Finset.mem_powersetCard.mp ht
    have hts : IsSample n N (t.sort (· ≤ ·)) := by
      refine ⟨by rw [Finset.length_sort, t2], ?_, ?_⟩
      · exact (Finset.sortedLT_sort t).pairwise
      · intro x hx
        exact Finset.mem_range.mp (t1 ((Finset.mem_sort _).mp hx))
    rw [C65_rejection_uniform R n N s _ h hts]
    unfold rejCount
    congr 1
    ext v
    simp only [Finset.mem_filter, Finset.mem_univ, true_and]
    constructor
    · rintro ⟨⟨r, hr⟩, hv⟩
      rw [hr] at hv ⊢
      obtain ⟨h1, h2, h3⟩ := isS v r hr
      congr 1
      apply inc_ext h2 hts.2.1
      intro x
      rw [Finset.mem_sort, ← hv, List.mem_toFinset]
    · intro hv
      refine ⟨⟨_, hv⟩, ?_⟩
      rw [hv]
      simp
  rw [Finset.sum_congr rfl hf, Finset.sum_const, Finset.card_powersetCard, Finset.card_range, smul_eq_mul, Nat.mul_comm]

/-! ### cases -/

/-- the samples of two out of four -/
example : IsSample 2 4 [0, 3] ∧ IsSample 2 4 [1, 2] := by
  constructor <;> (unfold IsSample; decide)

/-- two tables of draws with two rounds that lead to these samples -/
example : rejection 2 4 (drawOf (fun i _ => if i.val = 0 then 3 else 0 : Fin 2 → Fin 2 → Fin 4)) 2 = .ok [0, 3] ∧
    rejection 2 4 (drawOf (fun i _ => if i.val = 0 then 1 else 2 : Fin 2 → Fin 2 → Fin 4)) 2 = .ok [1, 2] := by decide

/-- the probability of each pair out of four is 1/6 up to a factor of 1 ± 2^-50 -/
example : (1 - (4 : ℚ) / 2 ^ 53) ^ 2 ≤ knuthProb 2 4 [0, 3] * 6 ∧ knuthProb 2 4 [0, 3] * 6 ≤ (1 + (4 : ℚ) / 2 ^ 53) ^ 2 := by
  have h := C64_knuth_uniform 2 4 (by norm_num) [0, 3] (by unfold IsSample; decide)
  have e : (Nat.choose 4 2 : ℚ) = 6 := by norm_num [Nat.choose]
  rw [e] at h
  exact_mod_cast h

#print axioms C64_knuth_uniform
#print axioms C64_knuth_ratio
#print axioms C65_rejection_uniform
#print axioms C65_rejection_returns
#print axioms C65_rejection_total

end ABX.Sampler
