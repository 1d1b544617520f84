import Verif.Spec.Choices
import Mathlib.Data.Fintype.Pi
import Mathlib.Data.Finset.Pi
import Mathlib.Algebra.BigOperators.Pi
import Mathlib.Algebra.Order.BigOperators.Ring.Finset
import Mathlib.Algebra.BigOperators.Ring.Finset
import Mathlib.Algebra.BigOperators.Field
import Mathlib.Algebra.Order.BigOperators.Group.Finset
import Mathlib.Logic.Equiv.Basic
import Mathlib.Tactic.Linarith
import Mathlib.Tactic.Ring
import Mathlib.Tactic.FieldSimp
import Mathlib.Tactic.Positivity
/-!
Counting choices, for C104.
-/
namespace ABX.Spec

variable {α β : Type} [DecidableEq α] [DecidableEq β] {U : Finset α} {r : α → β} {T : Nat}

theorem mem_classOf {v : β} {x : α} : x ∈ classOf U r v ↔ x ∈ U ∧ r x = v := by
  unfold classOf
  rw [Finset.mem_filter]

theorem mem_choices {Q : Finset α} : Q ∈ choices U r T ↔ Q ⊆ U ∧ ∀ v ∈ U.image r, (classOf Q r v).card = min T (classOf U r v).card := by
  unfold choices
  rw [Finset.mem_filter, Finset.mem_powerset]

/-- the number of choices -/
theorem card_choices : (choices U r T).card = ∏ v ∈ U.image r, (classOf U r v).card.choose (min T (classOf U r v).card) := by
  have h : ((U.image r).pi (fun v => (classOf U r v).powersetCard (min T (classOf U r v).card))).card = (choices U r T).card := by
    have mem : ∀ (p : (v : β) → v ∈ U.image r → Finset α), p ∈ (U.image r).pi (fun v => (classOf U r v).powersetCard (min T (classOf U r v).card)) →
        ∀ v (hv : v ∈ U.image r), p v hv ⊆ classOf U r v ∧ (p v hv).card = min T (classOf U r v).card := by
      intro p hp v hv
      exact Finset.mem_powersetCard.mp (Finset.mem_pi.mp hp v hv)
    have filt : ∀ (p : (v : β) → v ∈ U.image r → Finset α), p ∈ (U.image r).pi (fun v => (classOf U r v).powersetCard (min T (classOf U r v).card)) →
        ∀ v (hv : v ∈ U.image r), classOf ((U.image r).attach.biUnion (fun v => p v.1 v.2)) r v = p v hv := by
      intro p hp v hv
      ext x
      rw [mem_classOf, Finset.mem_biUnion]
      constructor
      · rintro ⟨⟨w, -, hw⟩, rfl⟩
        have := (mem_classOf.mp ((mem p hp w.1 w.2).1 hw)).2
        obtain ⟨w, hw'⟩ := w
        dsimp only at this hw
        subst this
        exact hw
      · intro hx
        exact ⟨⟨⟨v, hv⟩, Finset.mem_attach _ _, hx⟩, (mem_classOf.mp ((mem p hp v hv).1 hx)).2⟩
    refine Finset.card_bij (fun p _ => (U.image r).attach.biUnion (fun v => p v.1 v.2)) ?_ ?_ ?_
    · intro p hp
      rw [mem_choices]
      refine ⟨?_, fun v hv => ?_⟩
      · intro x hx
        obtain ⟨w, -, hw⟩ := Finset.mem_biUnion.mp hx
        exact (mem_classOf.mp ((mem p hp w.1 w.2).1 hw)).1
      · rw [filt p hp v hv]
        exact (mem p hp v hv).2
    · intro p hp q hq e
      funext v hv
      rw [← filt p hp v hv, ← filt q hq v hv]
      rw [e]
    · intro Q hQ
      rw [mem_choices] at hQ
      refine ⟨fun v _ => classOf Q r v, ?_, ?_⟩
      · rw [Finset.mem_pi]
        intro v hv
        rw [Finset.mem_powersetCard]
        exact ⟨fun x hx => mem_classOf.mpr ⟨hQ.1 (mem_classOf.mp hx).1, (mem_classOf.mp hx).2⟩, hQ.2 v hv⟩
      · ext x
        rw [Finset.mem_biUnion]
        constructor
        · rintro ⟨w, -, hw⟩
          exact (mem_classOf.mp hw).1
        · intro hx
          exact ⟨⟨r x, Finset.mem_image_of_mem r (hQ.1 hx)⟩, Finset.mem_attach _ _, mem_classOf.mpr ⟨hx, rfl⟩⟩
  have hp : ((U.image r).pi (fun v => (classOf U r v).powersetCard (min T (classOf U r v).card))).card = ∏ v ∈ U.image r, ((classOf U r v).powersetCard (min T (classOf U r v).card)).card := Multiset.card_pi _ _
  rw [← h, hp]
  exact Finset.prod_congr rfl fun v _ => Finset.card_powersetCard _ _

theorem choices_card_pos : 0 < (choices U r T).card := by
  rw [card_choices]
  exact Finset.prod_pos fun v _ => Nat.choose_pos (Nat.min_le_right _ _)

theorem swap_U {a b : α} (ha : a ∈ U) (hb : b ∈ U) (x : α) : Equiv.swap a b x ∈ U ↔ x ∈ U := by
  by_cases h1 : x = a
  · subst h1
    rw [Equiv.swap_apply_left]
    exact ⟨fun _ => ha, fun _ => hb⟩
  by_cases h2 : x = b
  · subst h2
    rw [Equiv.swap_apply_right]
    exact ⟨fun _ => hb, fun _ => ha⟩
  rw [Equiv.swap_apply_of_ne_of_ne h1 h2]

omit [DecidableEq β] in
theorem swap_r {a b : α} (h : r a = r b) (x : α) : r (Equiv.swap a b x) = r x := by
  by_cases h1 : x = a
  · subst h1
    rw [Equiv.swap_apply_left, h]
  by_cases h2 : x = b
  · subst h2
    rw [Equiv.swap_apply_right, h]
  rw [Equiv.swap_apply_of_ne_of_ne h1 h2]

theorem choices_swap {a b : α} (ha : a ∈ U) (hb : b ∈ U) (h : r a = r b) {Q : Finset α} (hQ : Q ∈ choices U r T) : Q.image (Equiv.swap a b) ∈ choices U r T := by
  rw [mem_choices] at hQ ⊢
  refine ⟨?_, fun v hv => ?_⟩
  · intro x hx
    obtain ⟨y, hy, rfl⟩ := Finset.mem_image.mp hx
    exact (swap_U ha hb y).mpr (hQ.1 hy)
  · rw [← hQ.2 v hv]
    have : classOf (Q.image (Equiv.swap a b)) r v = (classOf Q r v).image (Equiv.swap a b) := by
      ext x
      rw [mem_classOf, Finset.mem_image, Finset.mem_image]
      constructor
      · rintro ⟨⟨y, hy, rfl⟩, hx⟩
        exact ⟨y, mem_classOf.mpr ⟨hy, by rw [← hx, swap_r h]⟩, rfl⟩
      · rintro ⟨y, hy, rfl⟩
        exact ⟨⟨y, (mem_classOf.mp hy).1, rfl⟩, by rw [swap_r h]; exact (mem_classOf.mp hy).2⟩
    rw [this, Finset.card_image_of_injective _ (Equiv.injective _)]

/-- the number of choices with the elements `x` and `y` -/
def pairCount (U : Finset α) (r : α → β) (T : Nat) (x y : α) : Nat := ((choices U r T).filter (fun Q => x ∈ Q ∧ y ∈ Q)).card

theorem pairCount_swap {a b : α} (ha : a ∈ U) (hb : b ∈ U) (h : r a = r b) (x y : α) : pairCount U r T x y = pairCount U r T (Equiv.swap a b x) (Equiv.swap a b y) := by
  have hle : ∀ x y, pairCount U r T x y ≤ pairCount U r T (Equiv.swap a b x) (Equiv.swap a b y) := by
    intro x y
    unfold pairCount
    refine Finset.card_le_card_of_injOn (fun Q => Q.image (Equiv.swap a b)) ?_ ?_
    · intro Q hQ
      rw [Finset.mem_coe, Finset.mem_filter] at hQ ⊢
      exact ⟨choices_swap ha hb h hQ.1, Finset.mem_image_of_mem _ hQ.2.1, Finset.mem_image_of_mem _ hQ.2.2⟩
    · intro Q _ Q' _ e
      exact Finset.image_injective (Equiv.injective _) e
  refine le_antisymm (hle x y) ?_
  have := hle (Equiv.swap a b x) (Equiv.swap a b y)
  rwa [Equiv.swap_apply_self, Equiv.swap_apply_self] at this

theorem pairCount_diag {x x' : α} (hx : x ∈ U) (hx' : x' ∈ U) (h : r x = r x') : pairCount U r T x x = pairCount U r T x' x' := by
  rw [pairCount_swap hx hx' h, Equiv.swap_apply_left]

theorem pairCount_const {v : β} {x y x' y' : α} (hx : x ∈ classOf U r v) (hy : y ∈ classOf U r v) (hx' : x' ∈ classOf U r v) (hy' : y' ∈ classOf U r v) (h : x ≠ y) (h' : x' ≠ y') :
    pairCount U r T x y = pairCount U r T x' y' := by
  rw [mem_classOf] at hx hy hx' hy'
  have e : r x = r x' := hx.2.trans hx'.2.symm
  rw [pairCount_swap hx.1 hx'.1 e, Equiv.swap_apply_left]
  set z := Equiv.swap x x' y with hz
  have hzU : z ∈ U := (swap_U hx.1 hx'.1 y).mpr hy.1
  have hzr : r z = r y' := by
    rw [hz, swap_r e, hy.2, hy'.2]
  have hzx : x' ≠ z := by
    intro e'
    rw [hz] at e'
    have := congrArg (Equiv.swap x x') e'
    rw [Equiv.swap_apply_self, Equiv.swap_apply_right] at this
    exact h this
  rw [pairCount_swap hzU hy'.1 hzr, Equiv.swap_apply_left, Equiv.swap_apply_of_ne_of_ne hzx h']

/-- sums over choices of sums over elements -/
theorem sum_choices (v : β) (g : α → ℝ) : ∑ Q ∈ choices U r T, ∑ x ∈ classOf Q r v, g x = ∑ x ∈ classOf U r v, (pairCount U r T x x : ℝ) * g x := by
  have h1 : ∀ Q ∈ choices U r T, ∑ x ∈ classOf Q r v, g x = ∑ x ∈ classOf U r v, if x ∈ Q then g x else 0 := by
    intro Q hQ
    rw [← Finset.sum_filter]
    refine Finset.sum_congr ?_ fun _ _ => rfl
    ext x
    rw [Finset.mem_filter, mem_classOf, mem_classOf]
    exact ⟨fun h => ⟨⟨(mem_choices.mp hQ).1 h.1, h.2⟩, h.1⟩, fun h => ⟨h.2, h.1.2⟩⟩
  rw [Finset.sum_congr rfl h1, Finset.sum_comm]
  refine Finset.sum_congr rfl fun x _ => ?_
  rw [← Finset.sum_filter, Finset.sum_const, nsmul_eq_mul]
  unfold pairCount
  simp only [and_self]

theorem sum_choices_sq (v : β) (g : α → ℝ) : ∑ Q ∈ choices U r T, (∑ x ∈ classOf Q r v, g x) ^ 2 = ∑ x ∈ classOf U r v, ∑ y ∈ classOf U r v, (pairCount U r T x y : ℝ) * (g x * g y) := by
  have h1 : ∀ Q ∈ choices U r T, (∑ x ∈ classOf Q r v, g x) ^ 2 = ∑ x ∈ classOf U r v, ∑ y ∈ classOf U r v, if x ∈ Q ∧ y ∈ Q then g x * g y else 0 := by
    intro Q hQ
    have h2 : ∑ x ∈ classOf Q r v, g x = ∑ x ∈ classOf U r v, if x ∈ Q then g x else 0 := by
      rw [← Finset.sum_filter]
      refine Finset.sum_congr ?_ fun _ _ => rfl
      ext x
      rw [Finset.mem_filter, mem_classOf, mem_classOf]
      exact ⟨fun h => ⟨⟨(mem_choices.mp hQ).1 h.1, h.2⟩, h.1⟩, fun h => ⟨h.2, h.1.2⟩⟩
    rw [h2, sq, Finset.sum_mul_sum]
    refine Finset.sum_congr rfl fun x _ => Finset.sum_congr rfl fun y _ => ?_
    by_cases a : x ∈ Q <;> by_cases b : y ∈ Q <;> simp [a, b]
  rw [Finset.sum_congr rfl h1, Finset.sum_comm]
  refine Finset.sum_congr rfl fun x _ => ?_
  rw [Finset.sum_comm]
  refine Finset.sum_congr rfl fun y _ => ?_
  rw [← Finset.sum_filter, Finset.sum_const, nsmul_eq_mul]
  rfl

/-- every element of a class is in the same number of choices -/
theorem pairCount_eq {v : β} {x : α} (hx : x ∈ classOf U r v) : (pairCount U r T x x : ℝ) * (classOf U r v).card = (min T (classOf U r v).card : Nat) * (choices U r T).card := by
  have h := sum_choices (U := U) (r := r) (T := T) v (fun _ => 1)
  have hc : ∀ y ∈ classOf U r v, (pairCount U r T y y : ℝ) * 1 = pairCount U r T x x := by
    intro y hy
    rw [mul_one, pairCount_diag (mem_classOf.mp hy).1 (mem_classOf.mp hx).1 ((mem_classOf.mp hy).2.trans (mem_classOf.mp hx).2.symm)]
  rw [Finset.sum_congr rfl hc, Finset.sum_const, nsmul_eq_mul, mul_comm] at h
  rw [← h]
  have hv : v ∈ U.image r := by
    rw [← (mem_classOf.mp hx).2]
    exact Finset.mem_image_of_mem r (mem_classOf.mp hx).1
  have hd : ∀ Q ∈ choices U r T, ∑ y ∈ classOf Q r v, (1 : ℝ) = ((min T (classOf U r v).card : Nat) : ℝ) := by
    intro Q hQ
    rw [Finset.sum_const, nsmul_eq_mul, mul_one, (mem_choices.mp hQ).2 v hv]
  rw [Finset.sum_congr rfl hd, Finset.sum_const, nsmul_eq_mul, mul_comm]

theorem class_mem_image {v : β} (hv : v ∈ U.image r) : 0 < (classOf U r v).card := by
  obtain ⟨x, hx, rfl⟩ := Finset.mem_image.mp hv
  exact Finset.card_pos.mpr ⟨x, mem_classOf.mpr ⟨hx, rfl⟩⟩

/-- the mean of the means of the choices is the mean -/
theorem mean_choices (hT : T ≠ 0) {v : β} (hv : v ∈ U.image r) (f : α → ℝ) : ∑ Q ∈ choices U r T, meanOn f (classOf Q r v) = (choices U r T).card * meanOn f (classOf U r v) := by
  have hc := class_mem_image hv
  have hc' : (0 : ℝ) < (classOf U r v).card := by exact_mod_cast hc
  have hm : (0 : ℝ) < (min T (classOf U r v).card : Nat) := by
    have : 0 < min T (classOf U r v).card := by omega
    exact_mod_cast this
  have h1 : ∀ Q ∈ choices U r T, meanOn f (classOf Q r v) = (∑ x ∈ classOf Q r v, f x) / (min T (classOf U r v).card : Nat) := by
    intro Q hQ
    unfold meanOn
    rw [(mem_choices.mp hQ).2 v hv]
  rw [Finset.sum_congr rfl h1, ← Finset.sum_div, sum_choices]
  have h2 : ∀ x ∈ classOf U r v, (pairCount U r T x x : ℝ) * f x = (min T (classOf U r v).card : Nat) * (choices U r T).card / (classOf U r v).card * f x := by
    intro x hx
    rw [← pairCount_eq hx]
    field_simp
  rw [Finset.sum_congr rfl h2, ← Finset.mul_sum]
  unfold meanOn
  field_simp

/-- the sum of the squares of the deviations -/
theorem variance_choices (hT : T ≠ 0) {v : β} (hv : v ∈ U.image r) (f : α → ℝ) : ∑ Q ∈ choices U r T, (meanOn f (classOf Q r v) - meanOn f (classOf U r v)) ^ 2 ≤
    (choices U r T).card * ((∑ x ∈ classOf U r v, (f x - meanOn f (classOf U r v)) ^ 2) / ((min T (classOf U r v).card : Nat) * (classOf U r v).card)) := by
  have hc := class_mem_image hv
  have hc' : (0 : ℝ) < (classOf U r v).card := by exact_mod_cast hc
  have hm : (0 : ℝ) < (min T (classOf U r v).card : Nat) := by
    have : 0 < min T (classOf U r v).card := by omega
    exact_mod_cast this
  set A := meanOn f (classOf U r v) with hA
  set g : α → ℝ := fun x => f x - A with hg
  have h0 : ∑ x ∈ classOf U r v, g x = 0 := by
    rw [hg, Finset.sum_sub_distrib, Finset.sum_const, nsmul_eq_mul, hA]
    unfold meanOn
    field_simp
    ring
  have h1 : ∀ Q ∈ choices U r T, (meanOn f (classOf Q r v) - A) ^ 2 = (∑ x ∈ classOf Q r v, g x) ^ 2 / ((min T (classOf U r v).card : Nat) : ℝ) ^ 2 := by
    intro Q hQ
    have e := (mem_choices.mp hQ).2 v hv
    rw [← div_pow, hg, Finset.sum_sub_distrib, Finset.sum_const, nsmul_eq_mul]
    unfold meanOn
    rw [e]
    congr 1
    field_simp
  rw [Finset.sum_congr rfl h1, ← Finset.sum_div, sum_choices_sq]
  obtain ⟨x0, hx0⟩ := Finset.card_pos.mp hc
  have hN : ∃ n2 : ℝ, 0 ≤ n2 ∧ ∀ x ∈ classOf U r v, ∀ y ∈ classOf U r v, x ≠ y → (pairCount U r T x y : ℝ) = n2 := by
    by_cases h : ∃ y ∈ classOf U r v, ∃ z ∈ classOf U r v, y ≠ z
    · obtain ⟨y, hy, z, hz, hyz⟩ := h
      refine ⟨pairCount U r T y z, by positivity, fun a ha b hb hab => ?_⟩
      rw [pairCount_const ha hb hy hz hab hyz]
    · push Not at h
      exact ⟨0, le_refl _, fun a ha b hb hab => absurd (h a ha b hb) hab⟩
  obtain ⟨n2, hn2, hn⟩ := hN
  set n1 : ℝ := (min T (classOf U r v).card : Nat) * (choices U r T).card / (classOf U r v).card with hn1
  have h2 : ∀ x ∈ classOf U r v, ∑ y ∈ classOf U r v, (pairCount U r T x y : ℝ) * (g x * g y) = (n1 - n2) * g x ^ 2 := by
    intro x hx
    have e : ∀ y ∈ classOf U r v, (pairCount U r T x y : ℝ) * (g x * g y) = n2 * (g x * g y) + if y = x then (n1 - n2) * g x ^ 2 else 0 := by
      intro y hy
      by_cases hxy : y = x
      · subst hxy
        have : (pairCount U r T y y : ℝ) = n1 := by
          rw [hn1, ← pairCount_eq hx]
          field_simp
        rw [if_pos rfl, this]
        ring
      · rw [if_neg hxy, hn x hx y hy (Ne.symm hxy), add_zero]
    rw [Finset.sum_congr rfl e, Finset.sum_add_distrib, Finset.sum_ite_eq' (classOf U r v) x, if_pos hx, ← Finset.mul_sum, ← Finset.mul_sum, h0]
    ring
  rw [Finset.sum_congr rfl h2, ← Finset.mul_sum]
  have hs : 0 ≤ ∑ x ∈ classOf U r v, g x ^ 2 := Finset.sum_nonneg fun x _ => sq_nonneg _
  calc ((n1 - n2) * ∑ x ∈ classOf U r v, g x ^ 2) / ((min T (classOf U r v).card : Nat) : ℝ) ^ 2
      ≤ (n1 * ∑ x ∈ classOf U r v, g x ^ 2) / ((min T (classOf U r v).card : Nat) : ℝ) ^ 2 := by
        refine div_le_div_of_nonneg_right ?_ (by positivity)
        nlinarith
    _ = (choices U r T).card * ((∑ x ∈ classOf U r v, g x ^ 2) / ((min T (classOf U r v).card : Nat) * (classOf U r v).card)) := by
        rw [hn1]
        field_simp

omit [DecidableEq α] in
/-- scores between 0 and 1 deviate from their mean by a mean square of at most 1/4 -/
theorem deviation_le {A : Finset α} (f : α → ℝ) (h0 : ∀ x ∈ A, 0 ≤ f x) (h1 : ∀ x ∈ A, f x ≤ 1) : (∑ x ∈ A, (f x - meanOn f A) ^ 2) ≤ A.card / 4 := by
  have e : ∀ c : ℝ, ∑ x ∈ A, (f x - c) ^ 2 = ∑ x ∈ A, (f x) ^ 2 - 2 * c * ∑ x ∈ A, f x + A.card * c ^ 2 := by
    intro c
    have : ∀ x ∈ A, (f x - c) ^ 2 = (f x) ^ 2 - 2 * c * f x + c ^ 2 := fun x _ => by ring
    rw [Finset.sum_congr rfl this, Finset.sum_add_distrib, Finset.sum_sub_distrib, ← Finset.mul_sum, Finset.sum_const, nsmul_eq_mul]
  rcases Finset.eq_empty_or_nonempty A with rfl | hne
  · simp
  have hc : (0 : ℝ) < A.card := by exact_mod_cast Finset.card_pos.mpr hne
  have hsq : ∑ x ∈ A, (f x) ^ 2 ≤ ∑ x ∈ A, f x := Finset.sum_le_sum fun x hx => by nlinarith [h0 x hx, h1 x hx]
  rw [e]
  have hm : ∑ x ∈ A, f x = meanOn f A * A.card := by
    unfold meanOn
    field_simp
  rw [hm] at hsq ⊢
  nlinarith [sq_nonneg (meanOn f A - 1 / 2)]

/-- few choices have a mean far from the mean -/
theorem chebyshev_choices (hT : T ≠ 0) {v : β} (hv : v ∈ U.image r) {f : α → ℝ} (h0 : ∀ x ∈ U, 0 ≤ f x) (h1 : ∀ x ∈ U, f x ≤ 1) {ε : ℝ} (hε : 0 < ε) :
    (((choices U r T).filter (fun Q => ε ≤ |meanOn f (classOf Q r v) - meanOn f (classOf U r v)|)).card : ℝ) ≤ (choices U r T).card * (1 / (4 * T * ε ^ 2)) := by
  classical
  have hc := class_mem_image hv
  have hc' : (0 : ℝ) < (classOf U r v).card := by exact_mod_cast hc
  have hT' : (0 : ℝ) < T := by exact_mod_cast Nat.pos_of_ne_zero hT
  rcases Nat.lt_or_ge T (classOf U r v).card with hlt | hge
  · have hmin : min T (classOf U r v).card = T := by omega
    have hvar := variance_choices (T := T) hT hv f
    rw [hmin] at hvar
    have hd := deviation_le (A := classOf U r v) f (fun x hx => h0 x (mem_classOf.mp hx).1) (fun x hx => h1 x (mem_classOf.mp hx).1)
    have hb : ∑ Q ∈ choices U r T, (meanOn f (classOf Q r v) - meanOn f (classOf U r v)) ^ 2 ≤ (choices U r T).card * (1 / (4 * T)) := by
      refine hvar.trans (mul_le_mul_of_nonneg_left ?_ (by positivity))
      rw [div_le_div_iff₀ (by positivity) (by positivity)]
      nlinarith
    have hf : (((choices U r T).filter (fun Q => ε ≤ |meanOn f (classOf Q r v) - meanOn f (classOf U r v)|)).card : ℝ) * ε ^ 2 ≤ ∑ Q ∈ choices U r T, (meanOn f (classOf Q r v) - meanOn f (classOf U r v)) ^ 2 := by
      rw [← nsmul_eq_mul, ← Finset.sum_const]
      refine (Finset.sum_le_sum fun Q hQ => ?_).trans (Finset.sum_le_sum_of_subset_of_nonneg (Finset.filter_subset _ _) fun Q _ _ => sq_nonneg _)
      rw [← sq_abs (meanOn f (classOf Q r v) - meanOn f (classOf U r v))]
      exact pow_le_pow_left₀ hε.le (Finset.mem_filter.mp hQ).2 2
    have h2 := hf.trans hb
    rw [← le_div_iff₀ (by positivity)] at h2
    refine h2.trans_eq ?_
    field_simp
  · have : (choices U r T).filter (fun Q => ε ≤ |meanOn f (classOf Q r v) - meanOn f (classOf U r v)|) = ∅ := by
      rw [Finset.filter_eq_empty_iff]
      intro Q hQ
      have e : classOf Q r v = classOf U r v := by
        refine Finset.eq_of_subset_of_card_le ?_ ?_
        · intro x hx
          exact mem_classOf.mpr ⟨(mem_choices.mp hQ).1 (mem_classOf.mp hx).1, (mem_classOf.mp hx).2⟩
        · rw [(mem_choices.mp hQ).2 v hv]
          omega
      rw [e, sub_self, abs_zero]
      exact not_le.mpr hε
    rw [this, Finset.card_empty]
    push_cast
    positivity

end ABX.Spec
