import Verif.Spec.ScoreOrder
import Verif.Proofs.ChanceTask
/-!
Lemmas for C108: the rounding of a score keeps the order and the values 0, 1/2 and 1.
-/
namespace ABX.Pipeline
open ABX.Task Pairs SideOps Sampler Distances Score EndToEnd Analyze F64 ABX.Spec
variable {ρ φ δ ι : Type}

/-- a score, from the sum of the scores 1, 0, -1 of `n` triplets -/
def fscore (s : ℤ) (n : Nat) : ℚ := rnd (rnd ((s : ℚ) / n) + 1) / 2

theorem rnd_keep (m e : ℤ) (hm : |m| < 2 ^ 53) {q : ℚ} (hq : q = m * 2 ^ e) : rnd q = q := by rw [hq]; exact rnd_eq hm

theorem fscore_mono {s s' : ℤ} {n n' : Nat} (h : (s : ℚ) / n ≤ s' / n') : fscore s n ≤ fscore s' n' := by
  unfold fscore
  have := rnd_mono (add_le_add_left (rnd_mono h) 1)
  linarith

theorem inv_ge {n : Nat} (h0 : 0 < n) (h : n ≤ 2 ^ 52) : (2 : ℚ) ^ (-52 : ℤ) ≤ 1 / n := by
  have h1 : (0 : ℚ) < n := by exact_mod_cast h0
  have h2 : (n : ℚ) ≤ 2 ^ 52 := by exact_mod_cast h
  rw [le_div_iff₀ h1, zpow_neg, inv_mul_le_iff₀ (by positivity), mul_one]
  exact_mod_cast h2

theorem rnd_one : rnd 1 = 1 := by simpa using rnd_int (n := 1) (by norm_num)
theorem rnd_two : rnd 2 = 2 := by simpa using rnd_int (n := 2) (by norm_num)
theorem rnd_neg_one : rnd (-1) = -1 := by simpa using rnd_int (n := -1) (by norm_num)

theorem fscore_says {r w n : Nat} (h0 : 0 < n) (hn : n ≤ 2 ^ 52) (hrw : r + w ≤ n) : Says (fscore (r - w) n) r w n := by
  have hi := inv_ge h0 hn
  have hp : (0 : ℚ) < 2 ^ (-52 : ℤ) := two_zpow_pos _
  have h1 : (0 : ℚ) < n := by exact_mod_cast h0
  have div_le : ∀ {x y : ℤ}, x + 1 ≤ y → (x : ℚ) / n ≤ y / n - 2 ^ (-52 : ℤ) := by
    intro x y hxy
    have : (x : ℚ) + 1 ≤ y := by exact_mod_cast hxy
    have h2 : (x : ℚ) / n + 1 / n ≤ y / n := by rw [← add_div]; exact div_le_div_of_nonneg_right this h1.le
    linarith
  have nn : (n : ℚ) / n = 1 := div_self h1.ne'
  -- values
  have v1 : fscore n n = 1 := by
    unfold fscore
    rw [show (((n : ℤ) : ℚ)) = n by norm_num, nn, rnd_one]
    norm_num [rnd_two]
  have v0 : fscore (-n) n = 0 := by
    unfold fscore
    rw [show (((-n : ℤ) : ℚ)) = -n by norm_num, neg_div, nn, rnd_neg_one]
    norm_num [rnd_zero]
  have vh : fscore 0 n = 1 / 2 := by
    unfold fscore
    norm_num [rnd_zero, rnd_one]
  -- bounds
  have u1 : ∀ s : ℤ, s < n → fscore s n < 1 := by
    intro s hs
    have d := div_le (x := s) (y := n) (by omega)
    rw [show (((n : ℤ) : ℚ)) = n by norm_num, nn] at d
    have a := rnd_mono d
    rw [rnd_keep (2 ^ 52 - 1) (-52) (q := 1 - 2 ^ (-52 : ℤ)) (by norm_num) (by norm_num)] at a
    have b := rnd_mono (add_le_add_left a 1)
    rw [rnd_keep (2 ^ 53 - 1) (-52) (q := 1 - 2 ^ (-52 : ℤ) + 1) (by norm_num) (by norm_num)] at b
    unfold fscore
    linarith
  have l0 : ∀ s : ℤ, -n < s → 0 < fscore s n := by
    intro s hs
    have d := div_le (x := -n) (y := s) (by omega)
    rw [show (((-n : ℤ) : ℚ)) = -n by norm_num, neg_div, nn] at d
    have d' : -1 + (2 : ℚ) ^ (-52 : ℤ) ≤ s / n := by linarith
    have a := rnd_mono d'
    rw [rnd_keep (-2 ^ 52 + 1) (-52) (q := -1 + 2 ^ (-52 : ℤ)) (by norm_num) (by norm_num)] at a
    have b := rnd_mono (add_le_add_left a 1)
    rw [rnd_keep 1 (-52) (q := -1 + 2 ^ (-52 : ℤ) + 1) (by norm_num) (by norm_num)] at b
    unfold fscore
    linarith
  have uh : ∀ s : ℤ, s < 0 → fscore s n < 1 / 2 := by
    intro s hs
    have d := div_le (x := s) (y := 0) (by omega)
    rw [Int.cast_zero, zero_div, zero_sub] at d
    have a := rnd_mono d
    rw [rnd_keep (-1) (-52) (q := -2 ^ (-52 : ℤ)) (by norm_num) (by norm_num)] at a
    have b := rnd_mono (add_le_add_left a 1)
    rw [rnd_keep (2 ^ 52 - 1) (-52) (q := -2 ^ (-52 : ℤ) + 1) (by norm_num) (by norm_num)] at b
    unfold fscore
    linarith
  have lh : ∀ s : ℤ, 0 < s → 1 / 2 < fscore s n := by
    intro s hs
    have d := div_le (x := 0) (y := s) (by omega)
    rw [Int.cast_zero, zero_div] at d
    have d' : (2 : ℚ) ^ (-52 : ℤ) ≤ s / n := by linarith
    have a := rnd_mono d'
    rw [rnd_keep 1 (-52) (q := 2 ^ (-52 : ℤ)) (by norm_num) (by norm_num)] at a
    have b := rnd_mono (add_le_add_left a 1)
    rw [rnd_keep (2 ^ 52 + 1) (-52) (q := 2 ^ (-52 : ℤ) + 1) (by norm_num) (by norm_num)] at b
    unfold fscore
    linarith
  refine ⟨⟨fun h => ?_, fun h => ?_⟩, ⟨fun h => ?_, fun h => ?_⟩, ⟨fun h => ?_, fun h => ?_⟩, ⟨fun h => ?_, fun h => ?_⟩⟩
  · by_contra hne
    exact absurd h (u1 _ (by omega)).ne
  · rw [show ((r : ℤ) - w) = n by omega, v1]
  · by_contra hne
    exact absurd h (l0 _ (by omega)).ne'
  · rw [show ((r : ℤ) - w) = -n by omega, v0]
  · rcases lt_trichotomy r w with hh | hh | hh
    · exact absurd h (uh _ (by omega)).ne
    · exact hh
    · exact absurd h (lh _ (by omega)).ne'
  · rw [show ((r : ℤ) - w) = 0 by omega, vh]
  · by_contra hne
    rcases (not_lt.mp hne).lt_or_eq with hh | hh
    · exact absurd h (uh _ (by omega)).le.not_gt
    · rw [show ((r : ℤ) - w) = 0 by omega, vh] at h
      exact lt_irrefl _ h
  · exact lh _ (by omega)

theorem exactScore_eq {r w n : Nat} (h0 : 0 < n) : exactScore r w n = (((r - w : ℤ) : ℚ) / n + 1) / 2 := by
  have h1 : (n : ℚ) ≠ 0 := by exact_mod_cast h0.ne'
  unfold exactScore
  push_cast
  field_simp
  ring

theorem floatScore_eq {r w n : Nat} : floatScore r w n = fscore (r - w) n := by
  unfold floatScore fscore
  push_cast
  rfl

theorem floatScore_mono {r w n r' w' n' : Nat} (h0 : 0 < n) (h0' : 0 < n') (h : exactScore r w n ≤ exactScore r' w' n') : floatScore r w n ≤ floatScore r' w' n' := by
  rw [exactScore_eq h0, exactScore_eq h0'] at h
  rw [floatScore_eq, floatScore_eq]
  exact fscore_mono (by linarith)

theorem floatScore_close {r w n : Nat} (h0 : 0 < n) (hrw : r + w ≤ n) : |floatScore r w n - exactScore r w n| ≤ 2 ^ (-52 : ℤ) := by
  have h := (meanScore_err (l := List.replicate r 1 ++ List.replicate w (-1) ++ List.replicate (n - r - w) 0) (by
    intro x hx
    simp only [List.mem_append, List.mem_replicate] at hx
    rcases hx with (⟨-, rfl⟩ | ⟨-, rfl⟩) | ⟨-, rfl⟩ <;> simp)).1
  have hl : (List.replicate r (1 : ℤ) ++ List.replicate w (-1) ++ List.replicate (n - r - w) 0).length = n := by simp; omega
  have hs : (List.replicate r (1 : ℤ) ++ List.replicate w (-1) ++ List.replicate (n - r - w) 0).sum = (r : ℤ) - w := by simp; ring
  unfold Spec.meanScore at h
  rw [hl, hs] at h
  rw [floatScore_eq, exactScore_eq h0]
  exact h

theorem floatScore_strict {r w n r' w' n' : Nat} (h0 : 0 < n) (h0' : 0 < n') (hrw : r + w ≤ n) (hrw' : r' + w' ≤ n') (hn : n * n' < 2 ^ 50) :
    floatScore r w n < floatScore r' w' n' ↔ exactScore r w n < exactScore r' w' n' := by
  constructor
  · intro h
    by_contra hle
    exact absurd (floatScore_mono h0' h0 (not_lt.mp hle)) (not_le.mpr h)
  · intro h
    have a := abs_le.mp (floatScore_close h0 hrw)
    have b := abs_le.mp (floatScore_close h0' hrw')
    have p1 : (0 : ℚ) < n := by exact_mod_cast h0
    have p2 : (0 : ℚ) < n' := by exact_mod_cast h0'
    have gap : 1 / (2 * ((n : ℚ) * n')) ≤ exactScore r' w' n' - exactScore r w n := by
      have h' := h
      rw [exactScore_eq h0, exactScore_eq h0'] at h' ⊢
      have h2 : ((r - w : ℤ) : ℚ) / n < ((r' - w' : ℤ) : ℚ) / n' := by linarith
      rw [div_lt_div_iff₀ p1 p2] at h2
      have h3 : (r - w : ℤ) * n' + 1 ≤ (r' - w' : ℤ) * n := by exact_mod_cast h2
      have h4 : ((r - w : ℤ) : ℚ) * n' + 1 ≤ ((r' - w' : ℤ) : ℚ) * n := by exact_mod_cast h3
      have e : (((r' - w' : ℤ) : ℚ) / n' + 1) / 2 - (((r - w : ℤ) : ℚ) / n + 1) / 2 = (((r' - w' : ℤ) : ℚ) * n - ((r - w : ℤ) : ℚ) * n') / (2 * ((n : ℚ) * n')) := by field_simp; ring
      rw [e]
      exact div_le_div_of_nonneg_right (by linarith) (by positivity)
    have big : (2 : ℚ) ^ (-51 : ℤ) < 1 / (2 * ((n : ℚ) * n')) := by
      have hq : (n : ℚ) * n' < 2 ^ 50 := by exact_mod_cast hn
      rw [lt_div_iff₀ (by positivity), show (2 : ℚ) ^ (-51 : ℤ) = 1 / 2 ^ 51 by norm_num, div_mul_eq_mul_div, one_mul, div_lt_one (by positivity)]
      calc 2 * ((n : ℚ) * n') < 2 * 2 ^ 50 := by linarith
        _ = 2 ^ 51 := by norm_num
    have e2 : (2 : ℚ) ^ (-51 : ℤ) = 2 * 2 ^ (-52 : ℤ) := by norm_num
    rw [e2] at big
    generalize (2 : ℚ) ^ (-52 : ℤ) = ε at a b big
    linarith [a.1, a.2, b.1, b.2]

open Classical in
/-- the sum of the scores of triplets, by the numbers of right and wrong ones -/
theorem sum_counts {lt : δ → δ → Bool} (hlt : ∀ x y, lt x y = true → lt y x = false) {dist : ρ → ρ → Except Err δ} {recs : List ρ} {Q : List Tri} {abx : Tri → ℚ} (h : ∀ t ∈ Q, Spec.IsAbx lt dist recs t (abx t)) :
    (Q.map (fun t => 2 * abx t - 1)).sum = (rightCount lt dist recs Q : ℚ) - wrongCount lt dist recs Q ∧ rightCount lt dist recs Q + wrongCount lt dist recs Q ≤ Q.length := by
  unfold rightCount wrongCount
  induction Q with
  | nil => simp
  | cons t Q ih =>
    obtain ⟨i1, i2⟩ := ih (fun u hu => h u (List.mem_cons_of_mem _ hu))
    have ht := abx_nearerAt hlt (h t (List.mem_cons_self ..))
    have hx : ¬ (nearerAt lt dist recs t.1.1 t.2.1.1 t.2.2.1 ∧ nearerAt lt dist recs t.2.1.1 t.1.1 t.2.2.1) := by
      rintro ⟨⟨a, b, x, d, d', e1, e2, e3, e4, e5, e6⟩, ⟨a', b', x', f, f', g1, g2, g3, g4, g5, g6⟩⟩
      rw [e2] at g1; rw [e1] at g2; rw [e3] at g3
      cases g1; cases g2; cases g3
      rw [e5] at g4; rw [e4] at g5
      cases g4; cases g5
      rw [hlt _ _ e6] at g6
      cases g6
    rw [List.map_cons, List.sum_cons, i1, ht, List.countP_cons, List.countP_cons, List.length_cons]
    by_cases n1 : nearerAt lt dist recs t.1.1 t.2.1.1 t.2.2.1 <;> by_cases n2 : nearerAt lt dist recs t.2.1.1 t.1.1 t.2.2.1
    · exact absurd ⟨n1, n2⟩ hx
    · simp only [n1, n2, decide_true, decide_false, if_true, Bool.false_eq_true, if_false]
      refine ⟨by push_cast; ring, by omega⟩
    · simp only [n1, n2, decide_true, decide_false, if_true, Bool.false_eq_true, if_false]
      refine ⟨by push_cast; ring, by omega⟩
    · simp only [n1, n2, decide_false, Bool.false_eq_true, if_false]
      refine ⟨by push_cast; ring, by omega⟩

end ABX.Pipeline
