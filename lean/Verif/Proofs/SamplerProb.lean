import Verif.Properties.Sampler
import Mathlib.Data.Fintype.BigOperators
import Mathlib.Data.Nat.Choose.Basic
import Mathlib.Algebra.BigOperators.Fin
import Mathlib.Tactic.FieldSimp
import Mathlib.Tactic.Positivity
import Mathlib.Tactic.Linarith
import Mathlib.Tactic.Ring
/-! How many streams of random numbers lead to a sample. -/
namespace ABX.Sampler

/-- number of elements of `s` before `i` -/
def before (s : List Nat) (i : Nat) : Nat := (s.filter (· < i)).length

theorem before_cons_lt {t i : Nat} {s : List Nat} (h : t < i) : before (t :: s) i = before s i + 1 := by
  simp [before, h]

theorem before_all_ge {i : Nat} {s : List Nat} (h : ∀ x ∈ s, i ≤ x) : before s i = 0 := by
  unfold before
  rw [List.length_eq_zero_iff, List.filter_eq_nil_iff]
  intro x hx
  have := h x hx
  simp; omega

theorem before_le (s : List Nat) (i : Nat) : before s i ≤ s.length := List.length_filter_le _ _

/-- the streams that lead to a sample, record by record -/
theorem knuthLoop_iff (N n : Nat) (u : Nat → Nat) : ∀ fuel t m (s : List Nat), m ≤ n → t ≤ N → s.length = n - m → StrictInc s →
    (∀ x ∈ s, t ≤ x ∧ x < N) → N - t ≤ fuel →
    (knuthLoop N n u fuel t m = .ok s ↔
      ∀ i, t ≤ i → i < N → (i ∈ s ↔ (N - i) * u i < (n - m - before s i) * 2 ^ 53)) := by
  intro fuel
  induction fuel with
  | zero =>
    intro t m s hm ht hl hi hb hf
    have hs : s = [] := by
      cases s with
      | nil => rfl
      | cons x s => have := hb x (by simp); omega
    subst hs
    have : ¬ m < n := by simp at hl; omega
    rw [knuthLoop, if_neg this]
    simp only [true_iff]
    intro i h1 h2; omega
  | succ fuel ih =>
    intro t m s hm ht hl hi hb hf
    rw [knuthLoop]
    by_cases hmn : m < n
    · have htN : t < N := by
        cases s with
        | nil => simp at hl; omega
        | cons x s => have := hb x (by simp); omega
      rw [if_pos hmn]
      have hcond : (((N : Int) - t) * u t < ((n : Int) - m) * 2 ^ 53) ↔ (N - t) * u t < (n - m) * 2 ^ 53 := by
        rw [← Int.ofNat_lt]
        push_cast [Nat.cast_sub (by omega : t ≤ N), Nat.cast_sub hm]
        rfl
      have h0 : before s t = 0 := before_all_ge (fun x hx => (hb x hx).1)
      by_cases hts : t ∈ s
      · -- `t` is the head of `s`
        obtain ⟨s', rfl⟩ : ∃ s', s = t :: s' := by
          cases s with
          | nil => simp at hts
          | cons x s' =>
            have h1 := (hb x (by simp)).1
            rcases List.mem_cons.mp hts with rfl | h
            · exact ⟨s', rfl⟩
            · have := (List.pairwise_cons.mp hi).1 t h
              omega
        have hi' := List.pairwise_cons.mp hi
        have IH := ih (t + 1) (m + 1) s' (by omega) (by omega) (by simp at hl; omega) hi'.2
          (fun x hx => ⟨hi'.1 x hx, (hb x (by simp [hx])).2⟩) (by omega)
        have hns : t ∉ s' := fun h => by have := hi'.1 t h; omega
        by_cases hc : ((N : Int) - t) * u t < ((n : Int) - m) * 2 ^ 53
        · rw [if_pos hc]
          refine Iff.trans (b := knuthLoop N n u fuel (t + 1) (m + 1) = .ok s') ?_ (IH.trans ?_)
          · cases knuthLoop N n u fuel (t + 1) (m + 1) <;> simp
          constructor
          · intro h i h1 h2
            rcases Nat.eq_or_lt_of_le h1 with rfl | h1
            · simp only [h0, Nat.sub_zero, List.mem_cons, true_or, true_iff]
              exact hcond.mp hc
            · have := h i h1 h2
              rw [before_cons_lt h1, List.mem_cons]
              rw [show n - m - (before s' i + 1) = n - (m + 1) - before s' i by omega, ← this]
              constructor
              · rintro (rfl | h)
                · omega
                · exact h
              · exact Or.inr
          · intro h i h1 h2
            have := h i (by omega) h2
            rw [before_cons_lt (by omega), List.mem_cons] at this
            rw [show n - (m + 1) - before s' i = n - m - (before s' i + 1) by omega, ← this]
            constructor
            · exact Or.inr
            · rintro (rfl | h)
              · omega
              · exact h
        · rw [if_neg hc]
          constructor
          · intro h
            exfalso
            -- the result has no `t`
            have hlen : s'.length + 1 ≤ n - m := by simp at hl; omega
            have key : ∀ fuel t' m' r, knuthLoop N n u fuel t' m' = .ok r → ∀ x ∈ r, t' ≤ x := by
              intro fuel
              induction fuel with
              | zero =>
                intro t' m' r hr x hx
                rw [knuthLoop] at hr
                split at hr
                · cases hr
                · cases hr; simp at hx
              | succ fuel ih2 =>
                intro t' m' r hr x hx
                rw [knuthLoop] at hr
                split at hr
                · split at hr
                  · split at hr
                    · cases hr
                    · rename_i r' hr'
                      cases hr
                      rcases List.mem_cons.mp hx with rfl | hx
                      · exact Nat.le_refl _
                      · have := ih2 _ _ _ hr' x hx; omega
                  · have := ih2 _ _ _ hr x hx; omega
                · cases hr; simp at hx
            have := key _ _ _ _ h t (by simp)
            omega
          · intro h
            have := (h t (by omega) htN).mp (by simp)
            rw [h0, Nat.sub_zero] at this
            exact absurd (hcond.mpr this) hc
      · have hb' : ∀ x ∈ s, t + 1 ≤ x ∧ x < N := by
          intro x hx
          have := hb x hx
          have : x ≠ t := fun h => hts (h ▸ hx)
          omega
        by_cases hc : ((N : Int) - t) * u t < ((n : Int) - m) * 2 ^ 53
        · rw [if_pos hc]
          constructor
          · intro h
            split at h
            · cases h
            · cases h; simp at hts
          · intro h
            have := (h t (by omega) htN)
            rw [h0, Nat.sub_zero] at this
            exact absurd (this.mpr (hcond.mp hc)) hts
        · rw [if_neg hc, ih (t + 1) m s hm (by omega) hl hi hb' (by omega)]
          constructor
          · intro h i h1 h2
            rcases Nat.eq_or_lt_of_le h1 with rfl | h1
            · rw [h0, Nat.sub_zero]
              constructor
              · intro h; exact absurd h hts
              · intro h; exact absurd (hcond.mpr h) hc
            · exact h i h1 h2
          · intro h i h1 h2
            exact h i (by omega) h2
    · rw [if_neg hmn]
      have hs : s = [] := by rw [← List.length_eq_zero_iff]; omega
      subst hs
      simp only [true_iff]
      intro i h1 h2
      have : n - m - before [] i = 0 := by omega
      simp [this]

/-- number of random numbers among `M` for which a record is selected (`b`) or not, when `a` out of the `k` that are left are
to be selected -/
def nbDraws (M k a : Nat) (b : Bool) : Nat := (Finset.univ.filter (fun x : Fin M => (b = true ↔ k * x.val < a * M))).card

theorem card_fin_lt (M Q : Nat) (h : Q ≤ M) : (Finset.univ.filter (fun x : Fin M => x.val < Q)).card = Q := by
  have : (Finset.univ.filter (fun x : Fin M => x.val < Q)) = (Finset.univ : Finset (Fin Q)).map (Fin.castLEEmb h) := by
    ext x
    simp only [Finset.mem_filter, Finset.mem_univ, true_and, Finset.mem_map, Fin.castLEEmb_apply]
    constructor
    · intro hx; exact ⟨⟨x.val, hx⟩, rfl⟩
    · rintro ⟨y, rfl⟩; exact y.isLt
  rw [this, Finset.card_map, Finset.card_univ, Fintype.card_fin]

theorem nbDraws_true {M k a : Nat} (hk : 0 < k) (ha : a ≤ k) :
    a * M ≤ nbDraws M k a true * k ∧ nbDraws M k a true * k < a * M + k ∧ nbDraws M k a true ≤ M := by
  have hQ : ∀ x : Nat, k * x < a * M ↔ x < (a * M + k - 1) / k := by
    intro x
    rw [show x < (a * M + k - 1) / k ↔ x + 1 ≤ (a * M + k - 1) / k from Iff.rfl, Nat.le_div_iff_mul_le hk, Nat.succ_mul, Nat.mul_comm x k]
    omega
  have hle : (a * M + k - 1) / k ≤ M := by
    rw [← Nat.lt_succ_iff, Nat.div_lt_iff_lt_mul hk]
    have : a * M ≤ k * M := Nat.mul_le_mul_right _ ha
    have e : (M + 1) * k = k * M + k := by ring
    show _ < (M + 1) * k
    omega
  have e : nbDraws M k a true = (a * M + k - 1) / k := by
    unfold nbDraws
    simp only [true_iff, hQ]
    exact card_fin_lt M _ hle
  rw [e]
  have h1 := Nat.div_mul_le_self (a * M + k - 1) k
  have h2 := Nat.lt_div_mul_add (a := a * M + k - 1) hk
  refine ⟨by omega, by omega, hle⟩

theorem nbDraws_false {M k a : Nat} : nbDraws M k a false = M - nbDraws M k a true := by
  unfold nbDraws
  simp only [Bool.false_eq_true, false_iff, true_iff]
  rw [← Finset.compl_filter, Finset.card_compl, Fintype.card_fin]

/-- product of the proportions along a sample -/
theorem prod_bounds (M N : Nat) (hM : 0 < M) (hNM : N ≤ M) : ∀ k, k ≤ N → ∀ t a (s : List Nat), StrictInc s → (∀ x ∈ s, t ≤ x ∧ x < t + k) → s.length = a →
    ((1 : ℚ) - N / M) ^ (k - a) ≤ (∏ i : Fin k, (nbDraws M (k - i) (a - before s (t + i)) (decide (t + i.val ∈ s)) : ℚ) / M) * (k.choose a : ℚ) ∧
    (∏ i : Fin k, (nbDraws M (k - i) (a - before s (t + i)) (decide (t + i.val ∈ s)) : ℚ) / M) * (k.choose a : ℚ) ≤ (1 + N / M) ^ a := by
  intro k
  have hMq : (0 : ℚ) < M := by exact_mod_cast hM
  have hNMq : (N : ℚ) / M ≤ 1 := by rw [div_le_one hMq]; exact_mod_cast hNM
  have hN0 : (0 : ℚ) ≤ N / M := by positivity
  induction k with
  | zero =>
    intro _ t a s hi hb hl
    have : s = [] := by
      cases s with
      | nil => rfl
      | cons x s => have := hb x (by simp); omega
    subst this
    subst hl
    simp
  | succ k ih =>
    intro hkN t a s hi hb hl
    have hk1N : ((k : ℚ) + 1) / M ≤ N / M := by
      apply div_le_div_of_nonneg_right _ hMq.le
      exact_mod_cast hkN
    rw [Fin.prod_univ_succ]
    have h0 : before s t = 0 := before_all_ge (fun x hx => (hb x hx).1)
    simp only [Fin.val_zero, Nat.sub_zero, Nat.add_zero, h0, Fin.val_succ]
    by_cases hts : t ∈ s
    · obtain ⟨s', rfl⟩ : ∃ s', s = t :: s' := by
        cases s with
        | nil => simp at hts
        | cons x s' =>
          have h1 := (hb x (by simp)).1
          rcases List.mem_cons.mp hts with rfl | h
          · exact ⟨s', rfl⟩
          · have := (List.pairwise_cons.mp hi).1 t h
            omega
      have hi' := List.pairwise_cons.mp hi
      obtain ⟨a, rfl⟩ : ∃ b, a = b + 1 := ⟨s'.length, by simpa using hl.symm⟩
      have hl' : s'.length = a := by simpa using hl
      obtain ⟨ih1, ih2⟩ := ih (by omega) (t + 1) a s' hi'.2 (fun x hx => ⟨hi'.1 x hx, by have := (hb x (by simp [hx])).2; omega⟩) hl'
      have hP : (∏ i : Fin k, (nbDraws M (k + 1 - (i.val + 1)) (a + 1 - before (t :: s') (t + (i.val + 1))) (decide (t + (i.val + 1) ∈ t :: s')) : ℚ) / M) =
          ∏ i : Fin k, (nbDraws M (k - i) (a - before s' (t + 1 + i)) (decide (t + 1 + i.val ∈ s')) : ℚ) / M := by
        apply Finset.prod_congr rfl
        intro i _
        rw [before_cons_lt (by omega), show t + (i.val + 1) = t + 1 + i.val by omega, show k + 1 - (i.val + 1) = k - i.val by omega,
          show a + 1 - (before s' (t + 1 + i.val) + 1) = a - before s' (t + 1 + i.val) by omega]
        congr 3
        simp only [List.mem_cons, decide_eq_decide]
        constructor
        · rintro (h | h)
          · omega
          · exact h
        · exact Or.inr
      rw [hP]
      generalize (∏ i : Fin k, (nbDraws M (k - i) (a - before s' (t + 1 + i)) (decide (t + 1 + i.val ∈ s')) : ℚ) / M) = P at ih1 ih2 ⊢
      have hak : a ≤ k := by
        have := length_le_of_inc (t + 1 + k) s' (t + 1) hi'.2 (fun x hx => ⟨hi'.1 x hx, by have := (hb x (by simp [hx])).2; omega⟩)
        omega
      simp only [List.mem_cons, true_or, decide_true]
      obtain ⟨c1, c2, c3⟩ := nbDraws_true (M := M) (k := k + 1) (a := a + 1) (by omega) (by omega)
      generalize nbDraws M (k + 1) (a + 1) true = c at c1 c2 c3 ⊢
      have c1' : ((a : ℚ) + 1) * M ≤ c * (k + 1) := by exact_mod_cast c1
      have c2' : (c : ℚ) * (k + 1) ≤ (a + 1) * M + (k + 1) := by exact_mod_cast c2.le
      have hch : ((k + 1).choose (a + 1) : ℚ) = k.choose a * ((k + 1) / (a + 1)) := by
        have := Nat.add_one_mul_choose_eq k a
        have h : ((k : ℚ) + 1) * k.choose a = (k + 1).choose (a + 1) * (a + 1) := by exact_mod_cast this
        field_simp
        linarith
      rw [hch]
      have hr : (c : ℚ) / M * P * (k.choose a * ((k + 1) / (a + 1))) = (c * (k + 1) / (M * (a + 1))) * (P * k.choose a) := by
        field_simp
      rw [hr]
      have r1 : (1 : ℚ) ≤ c * (k + 1) / (M * (a + 1)) := by
        rw [le_div_iff₀ (by positivity)]; linarith
      have r2 : (c : ℚ) * (k + 1) / (M * (a + 1)) ≤ 1 + N / M := by
        refine le_trans ?_ (by linarith : (1 : ℚ) + (k + 1) / M ≤ 1 + N / M)
        rw [div_le_iff₀ (by positivity)]
        have : (1 + ((k : ℚ) + 1) / M) * (M * (a + 1)) = (a + 1) * M + (k + 1) * (a + 1) := by field_simp
        rw [this]
        have : (0 : ℚ) ≤ (k + 1) * a := by positivity
        nlinarith
      have hp0 : (0 : ℚ) ≤ (1 - (N : ℚ) / M) ^ (k - a) := pow_nonneg (by linarith) _
      constructor
      · rw [show k + 1 - (a + 1) = k - a by omega]
        calc (1 - (N : ℚ) / M) ^ (k - a) ≤ P * k.choose a := ih1
          _ = 1 * (P * k.choose a) := (one_mul _).symm
          _ ≤ _ := mul_le_mul_of_nonneg_right r1 (le_trans hp0 ih1)
      · rw [pow_succ, mul_comm]
        exact mul_le_mul ih2 r2 (by positivity) (by positivity)
    · have hb' : ∀ x ∈ s, t + 1 ≤ x ∧ x < t + 1 + k := by
        intro x hx
        have := hb x hx
        have : x ≠ t := fun h => hts (h ▸ hx)
        omega
      obtain ⟨ih1, ih2⟩ := ih (by omega) (t + 1) a s hi hb' hl
      have hak : a ≤ k := by
        have := length_le_of_inc (t + 1 + k) s (t + 1) hi hb'
        omega
      have hP : (∏ i : Fin k, (nbDraws M (k + 1 - (i.val + 1)) (a - before s (t + (i.val + 1))) (decide (t + (i.val + 1) ∈ s)) : ℚ) / M) =
          ∏ i : Fin k, (nbDraws M (k - i) (a - before s (t + 1 + i)) (decide (t + 1 + i.val ∈ s)) : ℚ) / M := by
        apply Finset.prod_congr rfl
        intro i _
        rw [show t + (i.val + 1) = t + 1 + i.val by omega, show k + 1 - (i.val + 1) = k - i.val by omega]
      rw [hP]
      generalize (∏ i : Fin k, (nbDraws M (k - i) (a - before s (t + 1 + i)) (decide (t + 1 + i.val ∈ s)) : ℚ) / M) = P at ih1 ih2 ⊢
      simp only [hts, decide_false]
      rw [nbDraws_false]
      obtain ⟨c1, c2, c3⟩ := nbDraws_true (M := M) (k := k + 1) (a := a) (by omega) (by omega)
      generalize nbDraws M (k + 1) a true = c at c1 c2 c3 ⊢
      have c1' : (a : ℚ) * M ≤ c * (k + 1) := by exact_mod_cast c1
      have c2' : (c : ℚ) * (k + 1) ≤ a * M + (k + 1) := by exact_mod_cast c2.le
      rw [Nat.cast_sub c3]
      have hka : (0 : ℚ) < k + 1 - a := by
        have : (a : ℚ) ≤ k := by exact_mod_cast hak
        linarith
      have hka1 : (1 : ℚ) ≤ k + 1 - a := by
        have : (a : ℚ) ≤ k := by exact_mod_cast hak
        linarith
      have hch : ((k + 1).choose a : ℚ) = k.choose a * ((k + 1) / (k + 1 - a)) := by
        have := Nat.choose_mul_succ_eq k a
        have h : (k.choose a : ℚ) * (k + 1) = (k + 1).choose a * (k + 1 - a) := by
          rw [show ((k : ℚ) + 1 - a) = ((k + 1 - a : Nat) : ℚ) by rw [Nat.cast_sub (by omega)]; push_cast; ring]
          exact_mod_cast this
        field_simp
        linarith
      rw [hch]
      have hr : ((M : ℚ) - c) / M * P * (k.choose a * ((k + 1) / (k + 1 - a))) = ((M - c) * (k + 1) / (M * (k + 1 - a))) * (P * k.choose a) := by
        field_simp
      rw [hr]
      have r2 : ((M : ℚ) - c) * (k + 1) / (M * (k + 1 - a)) ≤ 1 := by
        rw [div_le_one (by positivity)]; nlinarith
      have r1 : 1 - (N : ℚ) / M ≤ (M - c) * (k + 1) / (M * (k + 1 - a)) := by
        refine le_trans (by linarith : 1 - (N : ℚ) / M ≤ 1 - (k + 1) / M) ?_
        rw [le_div_iff₀ (by positivity)]
        have : (1 - ((k : ℚ) + 1) / M) * (M * (k + 1 - a)) = (k + 1 - a) * M - (k + 1) * (k + 1 - a) := by field_simp
        rw [this]
        have : (0 : ℚ) ≤ (k + 1) * (k + 1 - a - 1) := by
          apply mul_nonneg <;> linarith [show (0 : ℚ) ≤ k from by positivity]
        nlinarith
      have hp0 : (0 : ℚ) ≤ (1 - (N : ℚ) / M) ^ (k - a) := pow_nonneg (by linarith) _
      constructor
      · rw [show k + 1 - a = (k - a) + 1 by omega, pow_succ, mul_comm]
        exact mul_le_mul r1 ih1 hp0 (le_trans (by linarith) r1)
      · calc _ ≤ 1 * (P * k.choose a) := mul_le_mul_of_nonneg_right r2 (le_trans hp0 ih1)
          _ = P * k.choose a := one_mul _
          _ ≤ _ := ih2

end ABX.Sampler
