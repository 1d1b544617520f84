import Verif.Model.SamplerFloat
import Verif.Proofs.F64
import Verif.Proofs.SamplerProb
/-! The comparisons of the sampler in float64. -/
namespace ABX.Sampler
open F64

theorem rnd_nat' {n : Nat} (h : n ≤ 2 ^ 53) : rnd (n : ℚ) = n := by
  have := rnd_int (n := (n : ℤ)) (by rw [abs_of_nonneg (by positivity)]; exact_mod_cast h)
  simpa using this

theorem takes_def {N n t m : Nat} (u : Nat → Nat) (hN : N ≤ 2 ^ 53) (ht : t ≤ N) (hm : m ≤ n) :
    takes N n u t m = true ↔ rnd (((N - t : Nat) : ℚ) * ((u t : ℚ) / 2 ^ 53)) < ((n - m : Nat) : ℚ) := by
  unfold takes
  rw [decide_eq_true_eq, ← Nat.cast_sub ht, ← Nat.cast_sub hm, rnd_nat' (by omega)]

theorem exact_iff {k a r : Nat} : k * r < a * 2 ^ 53 ↔ (k : ℚ) * ((r : ℚ) / 2 ^ 53) < a := by
  rw [mul_div_assoc', div_lt_iff₀ (by positivity)]
  exact_mod_cast Iff.rfl

/-- the float decision implies the exact one -/
theorem takes_exact {N n t m : Nat} {u : Nat → Nat} (hN : N ≤ 2 ^ 53) (ht : t ≤ N) (hm : m ≤ n) (hn : n - m ≤ 2 ^ 53) (h : takes N n u t m = true) :
    (N - t) * u t < (n - m) * 2 ^ 53 := by
  rw [takes_def u hN ht hm] at h
  rw [exact_iff]
  by_contra hc
  have := rnd_mono (not_lt.mp hc)
  rw [rnd_nat' hn] at this
  exact absurd h (not_lt.mpr this)

/-- where they differ, the random number is in a short interval -/
theorem takes_differ {N n t m : Nat} {u : Nat → Nat} (hN : N ≤ 2 ^ 53) (ht : t ≤ N) (hm : m ≤ n) (h : takes N n u t m = false) :
    (n - m) * 2 ^ 53 * 2 ^ 53 ≤ (N - t) * u t * (2 ^ 53 + 1) := by
  have h' : ¬ rnd (((N - t : Nat) : ℚ) * ((u t : ℚ) / 2 ^ 53)) < ((n - m : Nat) : ℚ) := by
    rw [← takes_def u hN ht hm, h]; simp
  have he := rnd_err (((N - t : Nat) : ℚ) * ((u t : ℚ) / 2 ^ 53))
  have hq : (0 : ℚ) ≤ ((N - t : Nat) : ℚ) * ((u t : ℚ) / 2 ^ 53) := by positivity
  rw [abs_of_nonneg hq] at he
  have h1 := (abs_le.mp he).2
  have h2 : ((n - m : Nat) : ℚ) ≤ ((N - t : Nat) : ℚ) * ((u t : ℚ) / 2 ^ 53) * (1 + 2 ^ (-53 : ℤ)) := by linarith [not_lt.mp h']
  have h3 : ((n - m : Nat) : ℚ) * 2 ^ 53 * 2 ^ 53 ≤ ((N - t : Nat) : ℚ) * (u t : ℚ) * (2 ^ 53 + 1) := by
    have := mul_le_mul_of_nonneg_right h2 (show (0 : ℚ) ≤ 2 ^ 53 * 2 ^ 53 by positivity)
    have e : ((N - t : Nat) : ℚ) * ((u t : ℚ) / 2 ^ 53) * (1 + 2 ^ (-53 : ℤ)) * (2 ^ 53 * 2 ^ 53) = ((N - t : Nat) : ℚ) * (u t : ℚ) * (2 ^ 53 + 1) := by
      rw [show (2 : ℚ) ^ (-53 : ℤ) = 1 / 2 ^ 53 by rw [zpow_neg]; norm_num]
      field_simp
    rw [e] at this
    linarith
  exact_mod_cast h3

/-- a record is taken when all that remain are needed -/
theorem takes_last {N n t m : Nat} {u : Nat → Nat} (hN : N ≤ 2 ^ 53) (ht : t < N) (hm : m ≤ n) (hu : u t < 2 ^ 53) (h : n - m = N - t) : takes N n u t m = true := by
  cases hc : takes N n u t m with
  | true => rfl
  | false =>
    exfalso
    have := takes_differ hN ht.le hm hc
    rw [h] at this
    have h1 : (N - t) * u t * (2 ^ 53 + 1) ≤ (N - t) * ((2 ^ 53 - 1) * (2 ^ 53 + 1)) := by
      rw [Nat.mul_assoc]
      exact Nat.mul_le_mul_left _ (Nat.mul_le_mul_right _ (by omega))
    rw [Nat.mul_assoc] at this
    have h2 := Nat.le_of_mul_le_mul_left (this.trans h1) (by omega)
    revert h2
    norm_num

/-- the stream of the exact algorithm that makes the decisions of the float one -/
theorem knuthLoopF_sim {N n : Nat} {u : Nat → Nat} (hN : N ≤ 2 ^ 53) (hu : ∀ i, u i < 2 ^ 53) : ∀ k t m, N - t = k → m ≤ n → t ≤ N → n - m ≤ N - t →
    ∃ u' : Nat → Nat, (∀ i, u' i < 2 ^ 53) ∧ ∀ v, (∀ i, t ≤ i → v i = u' i) → ∀ fuel, knuthLoopF N n u fuel t m = knuthLoop N n v fuel t m := by
  intro k
  induction k with
  | zero =>
    intro t m hk hm ht hle
    refine ⟨fun _ => 0, by simp, ?_⟩
    intro v _ fuel
    unfold knuthLoopF knuthLoop
    rw [if_neg (by omega), if_neg (by omega)]
  | succ k ih =>
    intro t m hk hm ht hle
    by_cases hmn : m < n
    · cases hc : takes N n u t m with
      | true =>
        obtain ⟨u', h1, h2⟩ := ih (t + 1) (m + 1) (by omega) (by omega) (by omega) (by omega)
        refine ⟨fun i => if i = t then 0 else u' i, fun i => by dsimp only; split <;> [norm_num; exact h1 i], ?_⟩
        intro v hv fuel
        unfold knuthLoopF knuthLoop
        rw [if_pos hmn, if_pos hmn]
        cases fuel with
        | zero => rfl
        | succ fuel =>
          dsimp only
          rw [if_pos hc, if_pos (by rw [hv t (by omega)]; simp; omega)]
          rw [h2 v (fun i hi => by rw [hv i (by omega)]; dsimp only; rw [if_neg (by omega)]) fuel]
          cases knuthLoop N n v fuel (t + 1) (m + 1) <;> rfl
      | false =>
        have hlt : n - m < N - t := by
          rcases Nat.lt_or_ge (n - m) (N - t) with h | h
          · exact h
          · have := takes_last (u := u) hN (by omega : t < N) hm (hu t) (by omega)
            rw [hc] at this
            cases this
        obtain ⟨u', h1, h2⟩ := ih (t + 1) m (by omega) (by omega) (by omega) (by omega)
        refine ⟨fun i => if i = t then 2 ^ 53 - 1 else u' i, fun i => by dsimp only; split <;> [norm_num; exact h1 i], ?_⟩
        intro v hv fuel
        unfold knuthLoopF knuthLoop
        rw [if_pos hmn, if_pos hmn]
        cases fuel with
        | zero => rfl
        | succ fuel =>
          dsimp only
          rw [hc, if_neg (by simp), if_neg]
          · rw [h2 v (fun i hi => by rw [hv i (by omega)]; dsimp only; rw [if_neg (by omega)]) fuel]
          · rw [hv t (by omega)]
            dsimp only
            rw [if_pos rfl]
            have : ((2 ^ 53 - 1 : Nat) : Int) = 2 ^ 53 - 1 := by norm_num
            rw [this]
            omega
    · refine ⟨fun _ => 0, by simp, ?_⟩
      intro v _ fuel
      unfold knuthLoopF knuthLoop
      rw [if_neg hmn, if_neg hmn]

/-- the streams that lead to a sample, record by record -/
theorem knuthLoopF_iff (N n : Nat) (u : Nat → Nat) : ∀ fuel t m (s : List Nat), m ≤ n → t ≤ N → s.length = n - m → StrictInc s →
    (∀ x ∈ s, t ≤ x ∧ x < N) → N - t ≤ fuel →
    (knuthLoopF N n u fuel t m = .ok s ↔
      ∀ i, t ≤ i → i < N → (i ∈ s ↔ m + before s i < n ∧ takes N n u i (m + before s i) = true)) := by
  intro fuel
  induction fuel with
  | zero =>
    intro t m s hm ht hl hi hb hf
    have hs : s = [] := by
      cases s with
      | nil => rfl
      | cons x s => have := hb x (by simp); omega
    subst hs
    have : ¬ m < n := by simp at hl; omega
    rw [knuthLoopF, if_neg this]
    simp only [true_iff]
    intro i h1 h2; omega
  | succ fuel ih =>
    intro t m s hm ht hl hi hb hf
    rw [knuthLoopF]
    by_cases hmn : m < n
    · have htN : t < N := by
        cases s with
        | nil => simp at hl; omega
        | cons x s => have := hb x (by simp); omega
      rw [if_pos hmn]
      have h0 : before s t = 0 := before_all_ge (fun x hx => (hb x hx).1)
      by_cases hts : t ∈ s
      · obtain ⟨s', rfl⟩ : ∃ s', s = t :: s' := by
          cases s with
          | nil => simp at hts
          | cons x s' =>
            have h1 := (hb x (by simp)).1
            rcases List.mem_cons.mp hts with rfl | h
            · exact ⟨s', rfl⟩
            · have := (List.pairwise_cons.mp hi).1 t h
              omega
        have hi' := List.pairwise_cons.mp hi
        have IH := ih (t + 1) (m + 1) s' (by omega) (by omega) (by simp at hl; omega) hi'.2
          (fun x hx => ⟨hi'.1 x hx, (hb x (by simp [hx])).2⟩) (by omega)
        have hns : t ∉ s' := fun h => by have := hi'.1 t h; omega
        by_cases hc : takes N n u t m = true
        · rw [if_pos hc]
          refine Iff.trans (b := knuthLoopF N n u fuel (t + 1) (m + 1) = .ok s') ?_ (IH.trans ?_)
          · cases knuthLoopF N n u fuel (t + 1) (m + 1) <;> simp
          constructor
          · intro h i h1 h2
            rcases Nat.eq_or_lt_of_le h1 with rfl | h1
            · simp only [h0, Nat.add_zero, List.mem_cons, true_or, true_iff]
              exact ⟨hmn, hc⟩
            · have := h i h1 h2
              rw [before_cons_lt h1, List.mem_cons]
              rw [show m + (before s' i + 1) = m + 1 + before s' i by omega, ← this]
              constructor
              · rintro (rfl | h)
                · omega
                · exact h
              · exact Or.inr
          · intro h i h1 h2
            have := h i (by omega) h2
            rw [before_cons_lt (by omega), List.mem_cons] at this
            rw [show m + 1 + before s' i = m + (before s' i + 1) by omega, ← this]
            constructor
            · exact Or.inr
            · rintro (rfl | h)
              · omega
              · exact h
        · rw [if_neg hc]
          constructor
          · intro h
            exfalso
            have key : ∀ fuel t' m' r, knuthLoopF N n u fuel t' m' = .ok r → ∀ x ∈ r, t' ≤ x := by
              intro fuel
              induction fuel with
              | zero =>
                intro t' m' r hr x hx
                rw [knuthLoopF] at hr
                split at hr
                · cases hr
                · cases hr; simp at hx
              | succ fuel ih2 =>
                intro t' m' r hr x hx
                rw [knuthLoopF] at hr
                split at hr
                · split at hr
                  · split at hr
                    · cases hr
                    · rename_i r' hr'
                      cases hr
                      rcases List.mem_cons.mp hx with rfl | hx
                      · exact Nat.le_refl _
                      · have := ih2 _ _ _ hr' x hx; omega
                  · have := ih2 _ _ _ hr x hx; omega
                · cases hr; simp at hx
            have := key _ _ _ _ h t (by simp)
            omega
          · intro h
            have := (h t (by omega) htN).mp (by simp)
            rw [h0, Nat.add_zero] at this
            exact absurd this.2 hc
      · have hb' : ∀ x ∈ s, t + 1 ≤ x ∧ x < N := by
          intro x hx
          have := hb x hx
          have : x ≠ t := fun h => hts (h ▸ hx)
          omega
        by_cases hc : takes N n u t m = true
        · rw [if_pos hc]
          constructor
          · intro h
            split at h
            · cases h
            · cases h; simp at hts
          · intro h
            have := (h t (by omega) htN)
            rw [h0, Nat.add_zero] at this
            exact absurd (this.mpr ⟨hmn, hc⟩) hts
        · rw [if_neg hc, ih (t + 1) m s hm (by omega) hl hi hb' (by omega)]
          constructor
          · intro h i h1 h2
            rcases Nat.eq_or_lt_of_le h1 with rfl | h1
            · rw [h0, Nat.add_zero]
              constructor
              · intro h; exact absurd h hts
              · intro h; exact absurd h.2 hc
            · exact h i h1 h2
          · intro h i h1 h2
            exact h i (by omega) h2
    · rw [if_neg hmn]
      have hs : s = [] := by rw [← List.length_eq_zero_iff]; omega
      subst hs
      simp only [true_iff]
      intro i h1 h2
      simp only [List.not_mem_nil, false_iff]
      rintro ⟨h, -⟩
      exact hmn (by omega)

/-- product of the proportions along a sample, for any numbers `C k a b` of random numbers that are right up to one -/
theorem prod_boundsF (M N : Nat) (C : Nat → Nat → Bool → Nat) (hM : 0 < M) (hNM : N ≤ M)
    (hC : ∀ k a, 0 < k → k ≤ N → a ≤ k → a * M ≤ C k a true * k + k ∧ C k a true * k ≤ a * M + k ∧ C k a true ≤ M)
    (hC' : ∀ k a, C k a false = M - C k a true) : ∀ k, k ≤ N → ∀ t a (s : List Nat), StrictInc s → (∀ x ∈ s, t ≤ x ∧ x < t + k) → s.length = a →
    ((1 : ℚ) - N / M) ^ k ≤ (∏ i : Fin k, (C (k - i) (a - before s (t + i)) (decide (t + i.val ∈ s)) : ℚ) / M) * (k.choose a : ℚ) ∧
    (∏ i : Fin k, (C (k - i) (a - before s (t + i)) (decide (t + i.val ∈ s)) : ℚ) / M) * (k.choose a : ℚ) ≤ (1 + N / M) ^ k := by
  intro k
  have hMq : (0 : ℚ) < M := by exact_mod_cast hM
  have hNMq : (N : ℚ) / M ≤ 1 := by rw [div_le_one hMq]; exact_mod_cast hNM
  have hN0 : (0 : ℚ) ≤ N / M := by positivity
  induction k with
  | zero =>
    intro _ t a s hi hb hl
    have : s = [] := by
      cases s with
      | nil => rfl
      | cons x s => have := hb x (by simp); omega
    subst this
    subst hl
    simp
  | succ k ih =>
    intro hkN t a s hi hb hl
    have hk1N : ((k : ℚ) + 1) / M ≤ N / M := by
      apply div_le_div_of_nonneg_right _ hMq.le
      exact_mod_cast hkN
    have hp0 : (0 : ℚ) ≤ (1 - (N : ℚ) / M) ^ k := pow_nonneg (by linarith) _
    rw [Fin.prod_univ_succ]
    have h0 : before s t = 0 := before_all_ge (fun x hx => (hb x hx).1)
    simp only [Fin.val_zero, Nat.sub_zero, Nat.add_zero, h0, Fin.val_succ]
    by_cases hts : t ∈ s
    · obtain ⟨s', rfl⟩ : ∃ s', s = t :: s' := by
        cases s with
        | nil => simp at hts
        | cons x s' =>
          have h1 := (hb x (by simp)).1
          rcases List.mem_cons.mp hts with rfl | h
          · exact ⟨s', rfl⟩
          · have := (List.pairwise_cons.mp hi).1 t h
            omega
      have hi' := List.pairwise_cons.mp hi
      obtain ⟨a, rfl⟩ : ∃ b, a = b + 1 := ⟨s'.length, by simpa using hl.symm⟩
      have hl' : s'.length = a := by simpa using hl
      obtain ⟨ih1, ih2⟩ := ih (by omega) (t + 1) a s' hi'.2 (fun x hx => ⟨hi'.1 x hx, by have := (hb x (by simp [hx])).2; omega⟩) hl'
      have hP : (∏ i : Fin k, (C (k + 1 - (i.val + 1)) (a + 1 - before (t :: s') (t + (i.val + 1))) (decide (t + (i.val + 1) ∈ t :: s')) : ℚ) / M) =
          ∏ i : Fin k, (C (k - i) (a - before s' (t + 1 + i)) (decide (t + 1 + i.val ∈ s')) : ℚ) / M := by
        apply Finset.prod_congr rfl
        intro i _
        rw [before_cons_lt (by omega), show t + (i.val + 1) = t + 1 + i.val by omega, show k + 1 - (i.val + 1) = k - i.val by omega,
          show a + 1 - (before s' (t + 1 + i.val) + 1) = a - before s' (t + 1 + i.val) by omega]
        congr 3
        simp only [List.mem_cons, decide_eq_decide]
        constructor
        · rintro (h | h)
          · omega
          · exact h
        · exact Or.inr
      rw [hP]
      generalize (∏ i : Fin k, (C (k - i) (a - before s' (t + 1 + i)) (decide (t + 1 + i.val ∈ s')) : ℚ) / M) = P at ih1 ih2 ⊢
      have hak : a ≤ k := by
        have := length_le_of_inc (t + 1 + k) s' (t + 1) hi'.2 (fun x hx => ⟨hi'.1 x hx, by have := (hb x (by simp [hx])).2; omega⟩)
        omega
      simp only [List.mem_cons, true_or, decide_true]
      obtain ⟨c1, c2, c3⟩ := hC (k + 1) (a + 1) (by omega) (by omega) (by omega)
      generalize C (k + 1) (a + 1) true = c at c1 c2 c3 ⊢
      have c1' : ((a : ℚ) + 1) * M ≤ c * (k + 1) + (k + 1) := by exact_mod_cast c1
      have c2' : (c : ℚ) * (k + 1) ≤ (a + 1) * M + (k + 1) := by exact_mod_cast c2
      have hch : ((k + 1).choose (a + 1) : ℚ) = k.choose a * ((k + 1) / (a + 1)) := by
        have := Nat.add_one_mul_choose_eq k a
        have h : ((k : ℚ) + 1) * k.choose a = (k + 1).choose (a + 1) * (a + 1) := by exact_mod_cast this
        field_simp
        linarith
      rw [hch]
      have hr : (c : ℚ) / M * P * (k.choose a * ((k + 1) / (a + 1))) = (c * (k + 1) / (M * (a + 1))) * (P * k.choose a) := by
        field_simp
      rw [hr]
      have hka0 : (0 : ℚ) ≤ (k + 1) * a := by positivity
      have r1 : 1 - (N : ℚ) / M ≤ c * (k + 1) / (M * (a + 1)) := by
        refine le_trans (by linarith : 1 - (N : ℚ) / M ≤ 1 - (k + 1) / M) ?_
        rw [le_div_iff₀ (by positivity)]
        have : (1 - ((k : ℚ) + 1) / M) * (M * (a + 1)) = (a + 1) * M - (k + 1) * (a + 1) := by field_simp
        rw [this]
        nlinarith
      have r2 : (c : ℚ) * (k + 1) / (M * (a + 1)) ≤ 1 + N / M := by
        refine le_trans ?_ (by linarith : (1 : ℚ) + (k + 1) / M ≤ 1 + N / M)
        rw [div_le_iff₀ (by positivity)]
        have : (1 + ((k : ℚ) + 1) / M) * (M * (a + 1)) = (a + 1) * M + (k + 1) * (a + 1) := by field_simp
        rw [this]
        nlinarith
      constructor
      · rw [pow_succ, mul_comm]
        exact mul_le_mul r1 ih1 hp0 (by positivity)
      · rw [pow_succ, mul_comm]
        exact mul_le_mul ih2 r2 (by positivity) (by positivity)
    · have hb' : ∀ x ∈ s, t + 1 ≤ x ∧ x < t + 1 + k := by
        intro x hx
        have := hb x hx
        have : x ≠ t := fun h => hts (h ▸ hx)
        omega
      obtain ⟨ih1, ih2⟩ := ih (by omega) (t + 1) a s hi hb' hl
      have hak : a ≤ k := by
        have := length_le_of_inc (t + 1 + k) s (t + 1) hi hb'
        omega
      have hP : (∏ i : Fin k, (C (k + 1 - (i.val + 1)) (a - before s (t + (i.val + 1))) (decide (t + (i.val + 1) ∈ s)) : ℚ) / M) =
          ∏ i : Fin k, (C (k - i) (a - before s (t + 1 + i)) (decide (t + 1 + i.val ∈ s)) : ℚ) / M := by
        apply Finset.prod_congr rfl
        intro i _
        rw [show t + (i.val + 1) = t + 1 + i.val by omega, show k + 1 - (i.val + 1) = k - i.val by omega]
      rw [hP]
      generalize (∏ i : Fin k, (C (k - i) (a - before s (t + 1 + i)) (decide (t + 1 + i.val ∈ s)) : ℚ) / M) = P at ih1 ih2 ⊢
      simp only [hts, decide_false]
      rw [hC']
      obtain ⟨c1, c2, c3⟩ := hC (k + 1) a (by omega) (by omega) (by omega)
      generalize C (k + 1) a true = c at c1 c2 c3 ⊢
      have c1' : (a : ℚ) * M ≤ c * (k + 1) + (k + 1) := by exact_mod_cast c1
      have c2' : (c : ℚ) * (k + 1) ≤ a * M + (k + 1) := by exact_mod_cast c2
      have c3' : (c : ℚ) ≤ M := by exact_mod_cast c3
      rw [Nat.cast_sub c3]
      have hka1 : (1 : ℚ) ≤ k + 1 - a := by
        have : (a : ℚ) ≤ k := by exact_mod_cast hak
        linarith
      have hka : (0 : ℚ) < k + 1 - a := by linarith
      have hch : ((k + 1).choose a : ℚ) = k.choose a * ((k + 1) / (k + 1 - a)) := by
        have := Nat.choose_mul_succ_eq k a
        have h : (k.choose a : ℚ) * (k + 1) = (k + 1).choose a * (k + 1 - a) := by
          rw [show ((k : ℚ) + 1 - a) = ((k + 1 - a : Nat) : ℚ) by rw [Nat.cast_sub (by omega)]; push_cast; ring]
          exact_mod_cast this
        field_simp
        linarith
      rw [hch]
      have hr : ((M : ℚ) - c) / M * P * (k.choose a * ((k + 1) / (k + 1 - a))) = ((M - c) * (k + 1) / (M * (k + 1 - a))) * (P * k.choose a) := by
        field_simp
      rw [hr]
      have hpp : (0 : ℚ) ≤ (k + 1) * (k + 1 - a - 1) := by
        apply mul_nonneg <;> linarith [show (0 : ℚ) ≤ k from by positivity]
      have r2 : ((M : ℚ) - c) * (k + 1) / (M * (k + 1 - a)) ≤ 1 + N / M := by
        refine le_trans ?_ (by linarith : (1 : ℚ) + (k + 1) / M ≤ 1 + N / M)
        rw [div_le_iff₀ (by positivity)]
        have : (1 + ((k : ℚ) + 1) / M) * (M * (k + 1 - a)) = (k + 1 - a) * M + (k + 1) * (k + 1 - a) := by field_simp
        rw [this]
        nlinarith
      have r1 : 1 - (N : ℚ) / M ≤ (M - c) * (k + 1) / (M * (k + 1 - a)) := by
        refine le_trans (by linarith : 1 - (N : ℚ) / M ≤ 1 - (k + 1) / M) ?_
        rw [le_div_iff₀ (by positivity)]
        have : (1 - ((k : ℚ) + 1) / M) * (M * (k + 1 - a)) = (k + 1 - a) * M - (k + 1) * (k + 1 - a) := by field_simp
        rw [this]
        nlinarith
      constructor
      · rw [pow_succ, mul_comm]
        exact mul_le_mul r1 ih1 hp0 (le_trans (by linarith) r1)
      · rw [pow_succ, mul_comm]
        refine mul_le_mul ih2 r2 ?_ (by positivity)
        apply div_nonneg
        · exact mul_nonneg (by linarith) (by positivity)
        · positivity

end ABX.Sampler
