import Verif.Model.Distance
import Verif.Properties.DTW
import Verif.Properties.Metrics
/-! Lemmas for the distances of items. -/
namespace ABX.Distance
open Metrics (Mat real)

/-- the sum of the entries of a table on a path -/
noncomputable def Spec.total {n m : Nat} (D : Fin n → Fin m → ℝ) (p : List (Nat × Nat)) : ℝ := (p.map fun c => ext D c.1 c.2).sum

theorem withMetric_real {n m d : Nat} {metric : Mat n d → Mat m d → Except Err (Mat n m)} {x : Mat n d} {y : Mat m d} {D : Fin n → Fin m → ℝ} (h : metric x y = .ok (real D))
    (hn : 0 < n) (hm : 0 < m) (junk : Nat → Nat → ℝ) (b : Bool) :
    withMetric metric junk x y b = (DTW.dtw (· + ·) (fun v k => v / (k : ℝ)) junk (ext D) n m b).map (fun v : ℝ => some (v : WithTop ℝ)) := by
  unfold withMetric
  rw [if_pos ⟨hn, hm⟩, h]
  dsimp only
  rw [dif_pos (show ∀ i j, (real D i j).isSome = true from fun _ _ => rfl)]
  rfl

theorem ext_nonneg {n m : Nat} {D : Fin n → Fin m → ℝ} (h : ∀ i j, 0 ≤ D i j) (i j : Nat) : 0 ≤ ext D i j := by
  unfold ext; split
  · exact h _ _
  · exact le_rfl

theorem ext_le {n m : Nat} {D : Fin n → Fin m → ℝ} (h : ∀ i j, D i j ≤ 1) (i j : Nat) : ext D i j ≤ 1 := by
  unfold ext; split
  · exact h _ _
  · exact zero_le_one

theorem ext_transpose {n m : Nat} (D : Fin n → Fin m → ℝ) : ext (fun j i => D i j) = fun j i => ext D i j := by
  funext j i
  unfold ext
  by_cases h : i < n ∧ j < m
  · rw [dif_pos h, dif_pos h.symm]
  · rw [dif_neg h, dif_neg (fun h' => h h'.symm)]

theorem sum_nonneg {l : List ℝ} (h : ∀ x ∈ l, 0 ≤ x) : 0 ≤ l.sum := List.sum_nonneg h

theorem sum_zero {l : List ℝ} (h : ∀ x ∈ l, 0 ≤ x) (hs : l.sum = 0) : ∀ x ∈ l, x = 0 := by
  induction l with
  | nil => simp
  | cons a l ih =>
    have h1 := h a (by simp)
    have h2 := List.sum_nonneg (fun x hx => h x (List.mem_cons_of_mem a hx))
    rw [List.sum_cons] at hs
    intro x hx
    rcases List.mem_cons.1 hx with rfl | hx
    · linarith
    · exact ih (fun x hx => h x (List.mem_cons_of_mem a hx)) (by linarith) x hx

theorem sum_le_length {l : List ℝ} (h : ∀ x ∈ l, x ≤ 1) : l.sum ≤ l.length := by
  induction l with
  | nil => simp
  | cons a l ih =>
    have h1 := h a (by simp)
    have h2 := ih (fun x hx => h x (List.mem_cons_of_mem a hx))
    rw [List.sum_cons, List.length_cons]
    push_cast
    linarith

theorem add_mono' (d x y : ℝ) (h : x ≤ y) : d + x ≤ d + y := by linarith

/-- without normalization: the least total -/
theorem dtw_value {n m : Nat} (hn : 0 < n) (hm : 0 < m) (D : Fin n → Fin m → ℝ) (junk : Nat → Nat → ℝ) :
    ∃ v, DTW.dtw (· + ·) (fun v k => v / (k : ℝ)) junk (ext D) n m false = .ok v ∧ (∃ p, DTW.Spec.Warping n m p ∧ v = Spec.total D p) ∧ ∀ p, DTW.Spec.Warping n m p → v ≤ Spec.total D p := by
  obtain ⟨v, h1, ⟨p, hp, hc⟩, h2⟩ := DTW.C28_optimal (α := ℝ) (add := (· + ·)) add_mono' (fun v k => v / (k : ℝ)) junk (ext D) hn hm
  refine ⟨v, h1, ⟨p, hp, ?_⟩, fun q hq => h2 q _ hq (DTW.C28_sum (ext D) hq)⟩
  rw [DTW.C28_sum (ext D) hp] at hc
  exact (Option.some.inj hc).symm

/-- with normalization: the total of a best path divided by its number of cells -/
theorem dtw_normalized {n m : Nat} (hn : 0 < n) (hm : 0 < m) (D : Fin n → Fin m → ℝ) (junk : Nat → Nat → ℝ) :
    ∃ p, DTW.dtw (· + ·) (fun v k => v / (k : ℝ)) junk (ext D) n m true = .ok (Spec.total D p / p.length) ∧ DTW.Spec.Warping n m p ∧ (∀ q, DTW.Spec.Warping n m q → Spec.total D p ≤ Spec.total D q) ∧
      0 < p.length := by
  obtain ⟨v, p, h1, hp, hc, h2, h3, -⟩ := DTW.C29_normalized (α := ℝ) (add := (· + ·)) add_mono' (fun v k => v / (k : ℝ)) junk (ext D) hn hm
  rw [DTW.C28_sum (ext D) hp] at hc
  obtain rfl : Spec.total D p = v := Option.some.inj hc
  exact ⟨p, h1, hp, fun q hq => h2 q _ hq (DTW.C28_sum (ext D) hq), by omega⟩

theorem total_nonneg {n m : Nat} {D : Fin n → Fin m → ℝ} (h : ∀ i j, 0 ≤ D i j) (p : List (Nat × Nat)) : 0 ≤ Spec.total D p := by
  apply List.sum_nonneg
  intro x hx
  obtain ⟨c, -, rfl⟩ := List.mem_map.1 hx
  exact ext_nonneg h _ _

theorem total_zero {n m : Nat} {D : Fin n → Fin m → ℝ} (h : ∀ i j, 0 ≤ D i j) (p : List (Nat × Nat)) :
    Spec.total D p = 0 ↔ ∀ c ∈ p, ∀ (hi : c.1 < n) (hj : c.2 < m), D ⟨c.1, hi⟩ ⟨c.2, hj⟩ = 0 := by
  constructor
  · intro hs c hc hi hj
    have := sum_zero (fun x hx => by obtain ⟨c, -, rfl⟩ := List.mem_map.1 hx; exact ext_nonneg h _ _) hs _ (List.mem_map_of_mem hc)
    rwa [ext, dif_pos ⟨hi, hj⟩] at this
  · intro hz
    apply List.sum_eq_zero
    intro x hx
    obtain ⟨c, hc, rfl⟩ := List.mem_map.1 hx
    unfold ext
    split
    · rename_i hr; exact hz c hc hr.1 hr.2
    · rfl

/-- the distance is a number that is not negative, 0 exactly if it is 0 along some path -/
theorem dtw_zero {n m : Nat} (hn : 0 < n) (hm : 0 < m) {D : Fin n → Fin m → ℝ} (h : ∀ i j, 0 ≤ D i j) (junk : Nat → Nat → ℝ) (b : Bool) :
    ∃ v, DTW.dtw (· + ·) (fun v k => v / (k : ℝ)) junk (ext D) n m b = .ok v ∧ 0 ≤ v ∧
      (v = 0 ↔ ∃ p, DTW.Spec.Warping n m p ∧ ∀ c ∈ p, ∀ (hi : c.1 < n) (hj : c.2 < m), D ⟨c.1, hi⟩ ⟨c.2, hj⟩ = 0) := by
  have key : ∀ p, DTW.Spec.Warping n m p → (∀ q, DTW.Spec.Warping n m q → Spec.total D p ≤ Spec.total D q) →
      (Spec.total D p = 0 ↔ ∃ p, DTW.Spec.Warping n m p ∧ ∀ c ∈ p, ∀ (hi : c.1 < n) (hj : c.2 < m), D ⟨c.1, hi⟩ ⟨c.2, hj⟩ = 0) := by
    intro p hp hl
    constructor
    · intro h0; exact ⟨p, hp, (total_zero h p).1 h0⟩
    · rintro ⟨q, hq, hz⟩
      have := (total_zero h q).2 hz
      exact le_antisymm (this ▸ hl q hq) (total_nonneg h p)
  cases b
  · obtain ⟨v, h1, ⟨p, hp, rfl⟩, hl⟩ := dtw_value hn hm D junk
    exact ⟨_, h1, total_nonneg h p, key p hp hl⟩
  · obtain ⟨p, h1, hp, hl, hlen⟩ := dtw_normalized hn hm D junk
    have hpos : (0 : ℝ) < p.length := by exact_mod_cast hlen
    refine ⟨_, h1, div_nonneg (total_nonneg h p) hpos.le, ?_⟩
    rw [div_eq_zero_iff, or_iff_left hpos.ne']
    exact key p hp hl

theorem best_le_max {T : Nat → Nat → ℝ} (h : ∀ i j, T i j ≤ 1) : ∀ (k i j : Nat), i + j = k → DTW.best (· + ·) T i j ≤ (max i j : Nat) + 1 := by
  intro k
  induction k using Nat.strong_induction_on with
  | _ k ih =>
    intro i j hk
    have step : ∀ i' j', i' + j' < k → DTW.Spec.step (i', j') (i, j) → max i' j' + 1 ≤ max i j → DTW.best (· + ·) T i j ≤ (max i j : Nat) + 1 := by
      intro i' j' hlt hs hmax
      have h1 := DTW.best_le_step (add := (· + ·)) (add_mono' : DTW.MonoAcc (α := ℝ) (· + ·)) T hs
      have h2 := ih _ hlt i' j' rfl
      have h3 := h i j
      have h4 : ((max i' j' : Nat) : ℝ) + 1 ≤ (max i j : Nat) := by exact_mod_cast hmax

      linarith
    match i, j, hk with
    | 0, 0, _ => rw [DTW.best]; have := h 0 0; simpa using this
    | i + 1, 0, hk => exact step i 0 (by omega) (.inl rfl) (by omega)
    | 0, j + 1, hk => exact step 0 j (by omega) (.inr (.inl rfl)) (by omega)
    | i + 1, j + 1, hk => exact step i j (by omega) (.inr (.inr rfl)) (by omega)

theorem dtw_bound {n m : Nat} (hn : 0 < n) (hm : 0 < m) {D : Fin n → Fin m → ℝ} (h : ∀ i j, D i j ≤ 1) (junk : Nat → Nat → ℝ) {v : ℝ}
    (hv : DTW.dtw (· + ·) (fun v k => v / (k : ℝ)) junk (ext D) n m false = .ok v) : v ≤ (max n m : Nat) := by
  unfold DTW.dtw DTW.dtwCore at hv
  rw [if_neg (by omega)] at hv
  simp only [Bool.false_eq_true, if_false] at hv
  rw [DTW.costs_ok _ _ _ (by omega) (by omega)] at hv
  cases hv
  have := best_le_max (ext_le h) _ (n - 1) (m - 1) rfl
  have e : max (n - 1) (m - 1) + 1 = max n m := by omega
  rw [← e]
  push_cast at this ⊢
  exact this

end ABX.Distance
