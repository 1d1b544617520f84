import Verif.Proofs.Hyper
/-!
Lemmas for C101: mean and variance of the hypergeometric distribution.
-/
namespace ABX.Sampler
open ABX.Spec

theorem pmf_step {N K n k : Nat} (hn : n ≤ N) : ((k : ℝ) + 1) * hyperPmf (N + 1) (K + 1) (n + 1) (k + 1) = ((n + 1) * (K + 1) / (N + 1)) * hyperPmf N K n k := by
  unfold hyperPmf
  by_cases h : k ≤ n
  · rw [if_pos h, if_pos (by omega), Nat.add_sub_add_right, Nat.add_sub_add_right]
    have hc : (0 : ℝ) < N.choose n := by exact_mod_cast Nat.choose_pos hn
    have hc' : (0 : ℝ) < (N + 1).choose (n + 1) := by exact_mod_cast Nat.choose_pos (by omega : n + 1 ≤ N + 1)
    have e1 : ((N : ℝ) + 1) * N.choose n = (N + 1).choose (n + 1) * (n + 1) := by exact_mod_cast Nat.add_one_mul_choose_eq N n
    have e2 : ((K : ℝ) + 1) * K.choose k = (K + 1).choose (k + 1) * (k + 1) := by exact_mod_cast Nat.add_one_mul_choose_eq K k
    have hN : (0 : ℝ) < (N : ℝ) + 1 := by positivity
    rw [← mul_div_assoc, div_mul_div_comm, div_eq_div_iff hc'.ne' (by positivity)]
    calc ((k : ℝ) + 1) * (((K + 1).choose (k + 1) : ℝ) * (N - K).choose (n - k)) * (((N : ℝ) + 1) * N.choose n)
        = (((K + 1).choose (k + 1) : ℝ) * (k + 1)) * (N - K).choose (n - k) * (((N : ℝ) + 1) * N.choose n) := by ring
      _ = _ := by rw [← e2, e1]; ring
  · rw [if_neg h, if_neg (by omega)]
    simp

theorem pmf_mean {N K n m : Nat} (hK : K ≤ N) (hn : n ≤ N) (hm : min n K < m) : ∑ k ∈ Finset.range m, (k : ℝ) * hyperPmf N K n k = n * K / N := by
  obtain ⟨m, rfl⟩ : ∃ m', m = m' + 1 := ⟨m - 1, by omega⟩
  rw [Finset.sum_range_succ']
  rcases Nat.eq_zero_or_pos K with rfl | hK0
  · rw [Finset.sum_eq_zero]
    · simp
    · intro k _
      simp [hyperPmf]
  · rcases Nat.eq_zero_or_pos n with rfl | hn0
    · rw [Finset.sum_eq_zero]
      · simp
      · intro k _
        simp [hyperPmf]
    · obtain ⟨K, rfl⟩ : ∃ K', K = K' + 1 := ⟨K - 1, by omega⟩
      obtain ⟨n, rfl⟩ : ∃ n', n = n' + 1 := ⟨n - 1, by omega⟩
      obtain ⟨N, rfl⟩ : ∃ N', N = N' + 1 := ⟨N - 1, by omega⟩
      push_cast
      rw [Finset.sum_congr rfl fun k _ => pmf_step (N := N) (K := K) (n := n) (k := k) (by omega), ← Finset.mul_sum, pmf_sum (by omega) (by omega) (by omega)]
      simp

theorem pmf_mean2 {N K n m : Nat} (hK : K ≤ N) (hn : n ≤ N) (hm : min n K < m) : ∑ k ∈ Finset.range m, (k : ℝ) * (k - 1) * hyperPmf N K n k = n * K / N * ((n - 1) * (K - 1) / (N - 1)) := by
  obtain ⟨m, rfl⟩ : ∃ m', m = m' + 1 := ⟨m - 1, by omega⟩
  rw [Finset.sum_range_succ']
  rcases Nat.eq_zero_or_pos K with rfl | hK0
  · rw [Finset.sum_eq_zero]
    · simp
    · intro k _
      simp [hyperPmf]
  · rcases Nat.eq_zero_or_pos n with rfl | hn0
    · rw [Finset.sum_eq_zero]
      · simp
      · intro k _
        simp [hyperPmf]
    · obtain ⟨K, rfl⟩ : ∃ K', K = K' + 1 := ⟨K - 1, by omega⟩
      obtain ⟨n, rfl⟩ : ∃ n', n = n' + 1 := ⟨n - 1, by omega⟩
      obtain ⟨N, rfl⟩ : ∃ N', N = N' + 1 := ⟨N - 1, by omega⟩
      have e : ∀ k ∈ Finset.range m, ((k + 1 : Nat) : ℝ) * (((k + 1 : Nat) : ℝ) - 1) * hyperPmf (N + 1) (K + 1) (n + 1) (k + 1) = ((n + 1) * (K + 1) / (N + 1)) * (k * hyperPmf N K n k) := by
        intro k _
        have := pmf_step (N := N) (K := K) (n := n) (k := k) (by omega)
        push_cast
        linear_combination (k : ℝ) * this
      have hm' : ∑ k ∈ Finset.range m, (k : ℝ) * hyperPmf N K n k = n * K / N := by
        rcases Nat.lt_or_ge (min n K) m with h | h
        · exact pmf_mean (by omega) (by omega) h
        · omega
      rw [Finset.sum_congr rfl e, ← Finset.mul_sum, hm']
      push_cast
      simp

theorem pmf_variance {N K n m : Nat} (hN : 2 ≤ N) (hK : K ≤ N) (hn : n ≤ N) (hm : min n K < m) :
    ∑ k ∈ Finset.range m, ((k : ℝ) - n * K / N) ^ 2 * hyperPmf N K n k = n * K / N * ((N - K) / N) * ((N - n) / (N - 1)) := by
  have h0 := pmf_sum hK hn hm
  have h1 := pmf_mean hK hn hm
  have h2 := pmf_mean2 hK hn hm
  have e : ∀ k ∈ Finset.range m, ((k : ℝ) - n * K / N) ^ 2 * hyperPmf N K n k = (k : ℝ) * (k - 1) * hyperPmf N K n k + (1 - 2 * (n * K / N)) * (k * hyperPmf N K n k) + (n * K / N) ^ 2 * hyperPmf N K n k := by
    intro k _
    ring
  rw [Finset.sum_congr rfl e, Finset.sum_add_distrib, Finset.sum_add_distrib, ← Finset.mul_sum, ← Finset.mul_sum, h0, h1, h2]
  have hN' : (N : ℝ) ≠ 0 := by exact_mod_cast (by omega : N ≠ 0)
  have hN1 : (N : ℝ) - 1 ≠ 0 := by
    have : (2 : ℝ) ≤ N := by exact_mod_cast hN
    linarith
  field_simp
  ring

end ABX.Sampler
