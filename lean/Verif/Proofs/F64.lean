import Verif.Model.F64
import Mathlib.Tactic.Linarith
import Mathlib.Tactic.Ring
import Mathlib.Tactic.FieldSimp
import Mathlib.Tactic.Positivity
import Mathlib.Tactic.NormNum
import Mathlib.Tactic.Push
/-! Laws of the rounding of float64. -/
namespace ABX.F64

theorem rne_err (q : ℚ) : |(rne q : ℚ) - q| ≤ 1 / 2 := by
  have h1 := Int.floor_le q
  have h2 := Int.lt_floor_add_one q
  unfold rne
  split
  · rw [abs_le]; constructor <;> linarith
  · split
    · push_cast; rw [abs_le]; constructor <;> linarith
    · have : q - ⌊q⌋ = 1 / 2 := by linarith
      split
      · rw [abs_le]; constructor <;> linarith
      · push_cast; rw [abs_le]; constructor <;> linarith

theorem rne_int (n : ℤ) : rne n = n := by
  unfold rne
  rw [Int.floor_intCast, sub_self, if_pos (by norm_num)]

theorem rne_nonneg {q : ℚ} (h : 0 ≤ q) : 0 ≤ rne q := by
  have : 0 ≤ ⌊q⌋ := Int.floor_nonneg.mpr h
  unfold rne
  split
  · exact this
  · split
    · omega
    · split <;> omega

/-- an integer bound is kept -/
theorem rne_le {q : ℚ} {n : ℤ} (h : q ≤ n) : rne q ≤ n := by
  have h1 : ⌊q⌋ ≤ n := by
    have := Int.floor_le q
    exact_mod_cast this.trans h
  rcases h1.lt_or_eq with h1 | h1
  · unfold rne
    split
    · omega
    · split
      · omega
      · split <;> omega
  · have h2 := Int.floor_le q
    have : q = n := by
      apply le_antisymm h
      rw [← h1]
      exact h2
    rw [this, rne_int]

theorem le_rne {q : ℚ} {n : ℤ} (h : (n : ℚ) ≤ q) : n ≤ rne q := by
  have h1 : n ≤ ⌊q⌋ := Int.le_floor.mpr h
  unfold rne
  split
  · omega
  · split
    · omega
    · split <;> omega

theorem two_zpow_pos (e : ℤ) : (0 : ℚ) < 2 ^ e := zpow_pos (by norm_num) e

theorem rnd_zero : rnd 0 = 0 := by unfold rnd; rw [if_pos rfl]

/-- relative error at most 2^-53 -/
theorem rnd_err (q : ℚ) : |rnd q - q| ≤ |q| * 2 ^ (-53 : ℤ) := by
  unfold rnd
  split
  · rename_i h; rw [h]; simp
  · rename_i h
    have hp := two_zpow_pos (ulp q)
    have h1 := rne_err (q / 2 ^ ulp q)
    have h2 : (rne (q / 2 ^ ulp q) : ℚ) * 2 ^ ulp q - q = ((rne (q / 2 ^ ulp q) : ℚ) - q / 2 ^ ulp q) * 2 ^ ulp q := by field_simp
    rw [h2, abs_mul, abs_of_pos hp]
    have h3 : ((2 : ℕ) : ℚ) ^ Int.log 2 |q| ≤ |q| := Int.zpow_log_le_self (by omega) (abs_pos.mpr h)
    have h4 : (2 : ℚ) ^ ulp q = 2 ^ Int.log 2 |q| * 2 ^ (-52 : ℤ) := by unfold ulp; rw [sub_eq_add_neg, zpow_add₀ (by norm_num)]
    calc |(rne (q / 2 ^ ulp q) : ℚ) - q / 2 ^ ulp q| * 2 ^ ulp q ≤ 1 / 2 * 2 ^ ulp q := by
          exact mul_le_mul_of_nonneg_right h1 hp.le
      _ = 2 ^ Int.log 2 |q| * 2 ^ (-53 : ℤ) := by rw [h4, show (-52 : ℤ) = 1 + -53 by norm_num, zpow_add₀ (by norm_num)]; ring
      _ ≤ |q| * 2 ^ (-53 : ℤ) := mul_le_mul_of_nonneg_right (by exact_mod_cast h3) (two_zpow_pos _).le

/-- numbers of 53 bits are kept -/
theorem rnd_eq {m : ℤ} {e : ℤ} (hm : |m| < 2 ^ 53) : rnd ((m : ℚ) * 2 ^ e) = (m : ℚ) * 2 ^ e := by
  by_cases h0 : m = 0
  · subst h0; simp [rnd_zero]
  have hq : (m : ℚ) * 2 ^ e ≠ 0 := mul_ne_zero (by exact_mod_cast h0) (two_zpow_pos e).ne'
  unfold rnd
  rw [if_neg hq]
  have hu : ulp ((m : ℚ) * 2 ^ e) ≤ e := by
    have h1 : |(m : ℚ) * 2 ^ e| < ((2 : ℕ) : ℚ) ^ (53 + e) := by
      rw [abs_mul, abs_of_pos (two_zpow_pos e), zpow_add₀ (by norm_num)]
      apply mul_lt_mul_of_pos_right _ (two_zpow_pos e)
      have : (|m| : ℚ) < 2 ^ 53 := by exact_mod_cast hm
      rw [show ((53 : ℤ)) = ((53 : ℕ) : ℤ) by norm_num, zpow_natCast]
      exact_mod_cast hm
    have := (Int.lt_zpow_iff_log_lt (by omega) (abs_pos.mpr hq)).mp h1
    unfold ulp
    omega
  obtain ⟨k, hk⟩ : ∃ k : ℕ, e = ulp ((m : ℚ) * 2 ^ e) + k := ⟨(e - ulp ((m : ℚ) * 2 ^ e)).toNat, by omega⟩
  generalize hu' : ulp ((m : ℚ) * 2 ^ e) = u at hk ⊢
  have hdiv : (m : ℚ) * 2 ^ e / 2 ^ u = ((m * 2 ^ k : ℤ) : ℚ) := by
    rw [hk, zpow_add₀ (by norm_num), zpow_natCast]
    push_cast
    field_simp
  rw [hdiv, rne_int, ← hdiv]
  field_simp

/-- integers up to 2^53 are kept -/
theorem rnd_int {n : ℤ} (h : |n| ≤ 2 ^ 53) : rnd n = n := by
  rcases h.lt_or_eq with h | h
  · have := rnd_eq (m := n) (e := 0) h
    simpa using this
  · have key : ∀ s : ℤ, |s| = 1 → n = s * 2 ^ 53 → rnd n = n := by
      intro s hs hn
      have := rnd_eq (m := s) (e := 53) (by rw [hs]; norm_num)
      rw [hn]
      have e : ((s * 2 ^ 53 : ℤ) : ℚ) = (s : ℚ) * 2 ^ (53 : ℤ) := by push_cast; norm_num
      rw [e]
      exact this
    rcases abs_choice n with h' | h'
    · exact key 1 (by norm_num) (by omega)
    · exact key (-1) (by norm_num) (by omega)

/-- powers of two bound -/
theorem rnd_le {q : ℚ} {k : ℤ} (h : |q| ≤ 2 ^ k) : |rnd q| ≤ 2 ^ k := by
  by_cases h0 : q = 0
  · rw [h0, rnd_zero, abs_zero]; exact (two_zpow_pos k).le
  unfold rnd
  rw [if_neg h0, abs_mul, abs_of_pos (two_zpow_pos _)]
  have hp := two_zpow_pos (ulp q)
  have hpos := abs_pos.mpr h0
  rcases h.lt_or_eq with h | h
  · have hl : Int.log 2 |q| < k := (Int.lt_zpow_iff_log_lt (by omega) hpos).mp (by exact_mod_cast h)
    have h1 : |q| < ((2 : ℕ) : ℚ) ^ (Int.log 2 |q| + 1) := Int.lt_zpow_succ_log_self (by omega) _
    have h2 : |q / 2 ^ ulp q| ≤ ((2 ^ 53 : ℤ) : ℚ) := by
      rw [abs_div, abs_of_pos hp, div_le_iff₀ hp]
      have : ((2 ^ 53 : ℤ) : ℚ) * 2 ^ ulp q = 2 ^ (Int.log 2 |q| + 1) := by
        unfold ulp
        rw [show Int.log 2 |q| + 1 = 53 + (Int.log 2 |q| - 52) by ring, zpow_add₀ (by norm_num)]
        norm_num
      rw [this]
      exact_mod_cast h1.le
    have h3 : |(rne (q / 2 ^ ulp q) : ℚ)| ≤ ((2 ^ 53 : ℤ) : ℚ) := by
      rw [abs_le] at h2 ⊢
      constructor
      · have := le_rne (q := q / 2 ^ ulp q) (n := -2 ^ 53) (by push_cast at h2 ⊢; exact h2.1)
        have : ((-2 ^ 53 : ℤ) : ℚ) ≤ (rne (q / 2 ^ ulp q) : ℚ) := by exact_mod_cast this
        push_cast at this ⊢
        exact this
      · exact_mod_cast rne_le h2.2
    calc |(rne (q / 2 ^ ulp q) : ℚ)| * 2 ^ ulp q ≤ ((2 ^ 53 : ℤ) : ℚ) * 2 ^ ulp q := mul_le_mul_of_nonneg_right h3 hp.le
      _ = 2 ^ (Int.log 2 |q| + 1) := by
        unfold ulp
        rw [show Int.log 2 |q| + 1 = 53 + (Int.log 2 |q| - 52) by ring, zpow_add₀ (by norm_num)]
        norm_num
      _ ≤ 2 ^ k := zpow_le_zpow_right₀ (by norm_num) (by omega)
  · have : rnd q = q := by
      rcases abs_choice q with h' | h'
      · have := rnd_eq (m := 1) (e := k) (by norm_num)
        rw [Int.cast_one, one_mul, ← h, h'] at this
        exact this
      · have := rnd_eq (m := -1) (e := k) (by norm_num)
        rw [Int.cast_neg, Int.cast_one, neg_mul, one_mul, ← h, h', neg_neg] at this
        exact this
    unfold rnd at this
    rw [if_neg h0] at this
    have h2 : |(rne (q / 2 ^ ulp q) : ℚ)| * 2 ^ ulp q = |(rne (q / 2 ^ ulp q) : ℚ) * 2 ^ ulp q| := by rw [abs_mul, abs_of_pos hp]
    rw [h2, this]
    exact h.le

theorem rnd_nonneg {q : ℚ} (h : 0 ≤ q) : 0 ≤ rnd q := by
  unfold rnd
  split
  · exact le_rfl
  · have hp := two_zpow_pos (ulp q)
    have := rne_nonneg (q := q / 2 ^ ulp q) (div_nonneg h hp.le)
    exact mul_nonneg (by exact_mod_cast this) hp.le

theorem rne_mono {p q : ℚ} (h : p ≤ q) : rne p ≤ rne q := by
  have hf : ⌊p⌋ ≤ ⌊q⌋ := Int.floor_le_floor h
  rcases hf.lt_or_eq with hf | hf
  · refine (rne_le (n := ⌊p⌋ + 1) ?_).trans ((show ⌊p⌋ + 1 ≤ ⌊q⌋ from hf).trans (le_rne (Int.floor_le q)))
    push_cast
    exact (Int.lt_floor_add_one p).le
  · unfold rne
    rw [hf]
    have : p - ⌊q⌋ ≤ q - ⌊q⌋ := by linarith
    split_ifs <;> first | omega | (exfalso; linarith)

theorem rnd_nonpos {q : ℚ} (h : q ≤ 0) : rnd q ≤ 0 := by
  unfold rnd
  split
  · exact le_rfl
  · have hp := two_zpow_pos (ulp q)
    have : rne (q / 2 ^ ulp q) ≤ 0 := rne_le (by rw [Int.cast_zero]; exact div_nonpos_of_nonpos_of_nonneg h hp.le)
    exact mul_nonpos_of_nonpos_of_nonneg (by exact_mod_cast this) hp.le

theorem le_rnd {q : ℚ} (h : 0 < q) : (2 : ℚ) ^ Int.log 2 q ≤ rnd q := by
  unfold rnd
  rw [if_neg h.ne']
  have hp := two_zpow_pos (ulp q)
  have hl : (2 : ℚ) ^ Int.log 2 q ≤ q := by exact_mod_cast Int.zpow_log_le_self (b := 2) (by norm_num) h
  have hu : ulp q = Int.log 2 q - 52 := by unfold ulp; rw [abs_of_pos h]
  have he : (2 : ℚ) ^ Int.log 2 q = 2 ^ (52 : ℕ) * 2 ^ ulp q := by
    rw [hu, ← zpow_natCast, ← zpow_add₀ (by norm_num)]
    congr 1
    norm_num
  have h1 : ((2 ^ 52 : ℤ) : ℚ) ≤ q / 2 ^ ulp q := by
    rw [le_div_iff₀ hp]
    rw [show ((2 ^ 52 : ℤ) : ℚ) = 2 ^ (52 : ℕ) by norm_num, ← he]
    exact hl
  have h2 := le_rne h1
  rw [he]
  apply mul_le_mul_of_nonneg_right _ hp.le
  exact_mod_cast h2

theorem rnd_le_neg {q : ℚ} (h : q < 0) : rnd q ≤ - (2 : ℚ) ^ Int.log 2 |q| := by
  unfold rnd
  rw [if_neg h.ne]
  have hp := two_zpow_pos (ulp q)
  have hl : (2 : ℚ) ^ Int.log 2 |q| ≤ |q| := by exact_mod_cast Int.zpow_log_le_self (b := 2) (by norm_num) (abs_pos.mpr h.ne)
  have he : (2 : ℚ) ^ Int.log 2 |q| = 2 ^ (52 : ℕ) * 2 ^ ulp q := by
    unfold ulp
    rw [← zpow_natCast, ← zpow_add₀ (by norm_num)]
    congr 1
    norm_num
  have h1 : q / 2 ^ ulp q ≤ ((-2 ^ 52 : ℤ) : ℚ) := by
    rw [div_le_iff₀ hp]
    rw [show ((-2 ^ 52 : ℤ) : ℚ) = - 2 ^ (52 : ℕ) by norm_num, neg_mul, ← he]
    rw [abs_of_neg h] at hl
    rw [abs_of_neg h]
    linarith
  have h2 := rne_le h1
  rw [he, ← neg_mul]
  apply mul_le_mul_of_nonneg_right _ hp.le
  exact_mod_cast h2

theorem log_mono {p q : ℚ} (hp : 0 < p) (h : p ≤ q) : Int.log 2 p ≤ Int.log 2 q := Int.log_mono_right hp h

/-- rounding is monotone -/
theorem rnd_mono {p q : ℚ} (h : p ≤ q) : rnd p ≤ rnd q := by
  rcases lt_trichotomy p 0 with hp | hp | hp
  · rcases lt_or_ge q 0 with hq | hq
    · have habs : |q| ≤ |p| := by rw [abs_of_neg hp, abs_of_neg hq]; linarith
      rcases (log_mono (abs_pos.mpr hq.ne) habs).lt_or_eq with hl | hl
      · refine (rnd_le_neg hp).trans ?_
        have h1 : |q| ≤ (2 : ℚ) ^ (Int.log 2 |q| + 1) := by exact_mod_cast (Int.lt_zpow_succ_log_self (b := 2) (by norm_num) |q|).le
        have h2 := rnd_le h1
        have h3 : (2 : ℚ) ^ (Int.log 2 |q| + 1) ≤ 2 ^ Int.log 2 |p| := zpow_le_zpow_right₀ (by norm_num) hl
        have h4 := neg_abs_le (rnd q)
        linarith
      · have hu : ulp p = ulp q := by unfold ulp; rw [hl]
        unfold rnd
        rw [if_neg hp.ne, if_neg hq.ne, hu]
        apply mul_le_mul_of_nonneg_right _ (two_zpow_pos _).le
        exact_mod_cast rne_mono (div_le_div_of_nonneg_right h (two_zpow_pos _).le)
    · exact (rnd_nonpos hp.le).trans (rnd_nonneg hq)
  · subst hp
    rw [rnd_zero]
    exact rnd_nonneg h
  · have hq : 0 < q := lt_of_lt_of_le hp h
    rcases (log_mono hp h).lt_or_eq with hl | hl
    · refine le_trans ?_ (le_rnd hq)
      have h1 : |p| ≤ (2 : ℚ) ^ (Int.log 2 p + 1) := by rw [abs_of_pos hp]; exact_mod_cast (Int.lt_zpow_succ_log_self (b := 2) (by norm_num) p).le
      have h2 := rnd_le h1
      have h3 : (2 : ℚ) ^ (Int.log 2 p + 1) ≤ 2 ^ Int.log 2 q := zpow_le_zpow_right₀ (by norm_num) hl
      exact (le_abs_self _).trans (h2.trans h3)
    · have hu : ulp p = ulp q := by unfold ulp; rw [abs_of_pos hp, abs_of_pos hq, hl]
      unfold rnd
      rw [if_neg hp.ne', if_neg hq.ne', hu]
      apply mul_le_mul_of_nonneg_right _ (two_zpow_pos _).le
      exact_mod_cast rne_mono (div_le_div_of_nonneg_right h (two_zpow_pos _).le)

end ABX.F64
