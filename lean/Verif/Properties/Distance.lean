import Verif.Proofs.Distance
/-!
Property C72: the distances of distance.py on real features.  Specification: warping paths (`DTW.Spec.Warping`), the sum of the distances of the frames on a path (`Spec.total`), the angle of two frames.
-/
namespace ABX.Distance
open Metrics (Mat real)

/-- the distance of two frames: the angle divided by π; two null frames are equal, a null frame is at distance 1 of another -/
def Spec.Frames {n m d : Nat} (X : Fin n → Fin d → ℝ) (Y : Fin m → Fin d → ℝ) (D : Fin n → Fin m → ℝ) : Prop := ∀ i j,
  ((∃ k, X i k ≠ 0) → (∃ k, Y j k ≠ 0) → D i j = InnerProductGeometry.angle (WithLp.toLp 2 (X i) : EuclideanSpace ℝ (Fin d)) (WithLp.toLp 2 (Y j)) / Real.pi) ∧
  ((∀ k, X i k = 0) → (∀ k, Y j k = 0) → D i j = 0) ∧ ((∀ k, X i k = 0) → (∃ k, Y j k ≠ 0) → D i j = 1) ∧ ((∃ k, X i k ≠ 0) → (∀ k, Y j k = 0) → D i j = 1)

/-- two frames that the default distance does not tell apart -/
def Spec.Same {d : Nat} (x y : Fin d → ℝ) : Prop := (∀ k, x k = 0) ∧ (∀ k, y k = 0) ∨ (∃ k, x k ≠ 0) ∧ Metrics.Spec.Proportional x y

variable {n m d : Nat}

/-- C72: without normalization the default distance is the least sum of the distances of frames along a warping path. -/
theorem C72_value (hn : 0 < n) (hm : 0 < m) (X : Fin n → Fin d → ℝ) (Y : Fin m → Fin d → ℝ) (junk : Nat → Nat → ℝ) :
    ∃ (D : Fin n → Fin m → ℝ) (v : ℝ), Spec.Frames X Y D ∧ defaultDistance junk (real X) (real Y) false = .ok (some (v : WithTop ℝ)) ∧
      (∃ p, DTW.Spec.Warping n m p ∧ v = Spec.total D p) ∧ ∀ p, DTW.Spec.Warping n m p → v ≤ Spec.total D p := by
  obtain ⟨D, h1, -, h2⟩ := Metrics.C44_cosine X Y
  obtain ⟨v, hv, h3, h4⟩ := dtw_value hn hm D junk
  refine ⟨D, v, fun i j => (h2 i j).2.2, ?_, h3, h4⟩
  unfold defaultDistance
  rw [withMetric_real h1 hn hm, hv]
  rfl

/-- C72: with normalization it is that sum, for a path where it is least, divided by the number of cells of the path. -/
theorem C72_normalized (hn : 0 < n) (hm : 0 < m) (X : Fin n → Fin d → ℝ) (Y : Fin m → Fin d → ℝ) (junk : Nat → Nat → ℝ) :
    ∃ (D : Fin n → Fin m → ℝ) (p : List (Nat × Nat)), Spec.Frames X Y D ∧ defaultDistance junk (real X) (real Y) true = .ok (some ((Spec.total D p / p.length : ℝ) : WithTop ℝ)) ∧
      DTW.Spec.Warping n m p ∧ ∀ q, DTW.Spec.Warping n m q → Spec.total D p ≤ Spec.total D q := by
  obtain ⟨D, h1, -, h2⟩ := Metrics.C44_cosine X Y
  obtain ⟨p, hv, h3, h4, -⟩ := dtw_normalized hn hm D junk
  refine ⟨D, p, fun i j => (h2 i j).2.2, ?_, h3, h4⟩
  unfold defaultDistance
  rw [withMetric_real h1 hn hm, hv]
  rfl

/-- C72: the default distance of items that are not empty is between 0 and the larger number of frames; with normalization it is at most 1. -/
theorem C72_bounds (hn : 0 < n) (hm : 0 < m) (X : Fin n → Fin d → ℝ) (Y : Fin m → Fin d → ℝ) (junk : Nat → Nat → ℝ) (b : Bool) :
    ∃ v : ℝ, defaultDistance junk (real X) (real Y) b = .ok (some (v : WithTop ℝ)) ∧ 0 ≤ v ∧ v ≤ if b then 1 else ((max n m : Nat) : ℝ) := by
  obtain ⟨D, h1, -, h2⟩ := Metrics.C44_cosine X Y
  have hD : ∀ i j, 0 ≤ D i j := fun i j => (h2 i j).1
  have hD1 : ∀ i j, D i j ≤ 1 := fun i j => (h2 i j).2.1
  unfold defaultDistance
  rw [withMetric_real h1 hn hm]
  obtain ⟨v, hv, h0, -⟩ := dtw_zero hn hm hD junk b
  refine ⟨v, by rw [hv]; rfl, h0, ?_⟩
  cases b
  · exact dtw_bound hn hm hD1 junk hv
  · obtain ⟨p, hp, -, -, hl⟩ := dtw_normalized hn hm D junk
    rw [hp] at hv
    cases hv
    have hpos : (0 : ℝ) < p.length := by exact_mod_cast hl
    simp only [if_true]
    rw [div_le_one hpos]
    have := sum_le_length (l := p.map fun c => ext D c.1 c.2) (fun x hx => by obtain ⟨c, -, rfl⟩ := List.mem_map.1 hx; exact ext_le hD1 _ _)
    rw [List.length_map] at this
    exact this

/-- C72: the default distance is 0 exactly if the items can be aligned such that aligned frames are proportional, or both null. -/
theorem C72_zero (hn : 0 < n) (hm : 0 < m) (X : Fin n → Fin d → ℝ) (Y : Fin m → Fin d → ℝ) (junk : Nat → Nat → ℝ) (b : Bool) :
    defaultDistance junk (real X) (real Y) b = .ok (some ((0 : ℝ) : WithTop ℝ)) ↔
      ∃ p, DTW.Spec.Warping n m p ∧ ∀ c ∈ p, ∀ (hi : c.1 < n) (hj : c.2 < m), Spec.Same (X ⟨c.1, hi⟩) (Y ⟨c.2, hj⟩) := by
  obtain ⟨D, h1, -, h2⟩ := Metrics.C44_cosine X Y
  have hz := Metrics.C44_zero X Y h1
  unfold defaultDistance
  rw [withMetric_real h1 hn hm]
  obtain ⟨v, hv, -, h3⟩ := dtw_zero hn hm (fun i j => (h2 i j).1) junk b
  rw [hv]
  simp only [Except.map, Except.ok.injEq, Option.some.injEq, WithTop.coe_inj]
  rw [h3]
  simp only [hz, Spec.Same]

/-- the diagonal is a warping path -/
theorem diagonal (n : Nat) (hn : 0 < n) : DTW.Spec.Warping n n ((List.range n).map fun i => (i, i)) := by
  obtain ⟨k, rfl⟩ : ∃ k, n = k + 1 := ⟨n - 1, by omega⟩
  refine ⟨by rw [List.range_succ_eq_map]; rfl, by rw [List.range_succ]; simp, ?_⟩
  rw [List.isChain_map]
  rw [List.isChain_iff_getElem]
  intro i hi
  right; right
  simp

/-- C72: the default distance of an item and itself is 0, with and without normalization. -/
theorem C72_same (X : Fin n → Fin d → ℝ) (junk : Nat → Nat → ℝ) (b : Bool) : defaultDistance junk (real X) (real X) b = .ok (some ((0 : ℝ) : WithTop ℝ)) := by
  by_cases hn : 0 < n
  · rw [C72_zero hn hn]
    refine ⟨_, diagonal n hn, ?_⟩
    intro c hc hi hj
    obtain ⟨i, -, rfl⟩ := List.mem_map.1 hc
    by_cases h0 : ∀ k, X ⟨i, hi⟩ k = 0
    · exact .inl ⟨h0, h0⟩
    · exact .inr ⟨not_forall.1 h0, 1, one_pos, fun k => (one_mul _).symm⟩
  · unfold defaultDistance withMetric
    rw [if_neg (by omega), if_pos rfl]

/-- C72: for one empty item both distances are infinite, for two they are 0. -/
theorem C72_empty (eps : ℝ) (x : Mat n d) (y : Mat m d) (junk : Nat → Nat → ℝ) (b : Bool) (h : n = 0 ∨ m = 0) :
    defaultDistance junk x y b = .ok (some (if n = 0 ∧ m = 0 then ((0 : ℝ) : WithTop ℝ) else ⊤)) ∧ klDistance eps junk x y b = .ok (some (if n = 0 ∧ m = 0 then ((0 : ℝ) : WithTop ℝ) else ⊤)) := by
  have hk : ¬ (0 < n ∧ 0 < m) := by omega
  unfold defaultDistance klDistance withMetric
  simp only [hk, if_false]
  by_cases e : n = m
  · have : n = 0 ∧ m = 0 := by omega
    simp only [if_pos e, if_pos this, and_self]
  · have : ¬ (n = 0 ∧ m = 0) := by omega
    simp only [if_neg e, if_neg this, and_self]

/-- C72: without normalization the default distance is symmetric. -/
theorem C72_symmetric (X : Fin n → Fin d → ℝ) (Y : Fin m → Fin d → ℝ) (junk junk' : Nat → Nat → ℝ) :
    defaultDistance junk (real X) (real Y) false = defaultDistance junk' (real Y) (real X) false := by
  unfold defaultDistance
  by_cases h : 0 < n ∧ 0 < m
  · obtain ⟨D, h1, h2, -⟩ := Metrics.C44_cosine X Y
    rw [withMetric_real h1 h.1 h.2, withMetric_real h2 h.2 h.1, ext_transpose, DTW.C30_symmetric _ _ junk junk']
  · have h1 := (C72_empty 1 (real X) (real Y) junk false (by omega)).1
    have h2 := (C72_empty 1 (real Y) (real X) junk' false (by omega)).1
    unfold defaultDistance at h1 h2
    rw [h1, h2]
    by_cases e : n = 0 ∧ m = 0
    · rw [if_pos e, if_pos ⟨e.2, e.1⟩]
    · rw [if_neg e, if_neg (fun e' => e ⟨e'.2, e'.1⟩)]

/-- C72: positive factors on the frames do not change the default distance. -/
theorem C72_scaling (X : Fin n → Fin d → ℝ) (Y : Fin m → Fin d → ℝ) {a : Fin n → ℝ} {b : Fin m → ℝ} (ha : ∀ i, 0 < a i) (hb : ∀ j, 0 < b j) (junk : Nat → Nat → ℝ) (c : Bool) :
    defaultDistance junk (real fun i k => a i * X i k) (real fun j k => b j * Y j k) c = defaultDistance junk (real X) (real Y) c := by
  unfold defaultDistance withMetric
  rw [Metrics.C44_scaling X Y ha hb]

/-- C72: the distance of `-d dtw_kl` on frames that are not negative with positive sums: a number that is not negative, 0 exactly if the items can be aligned such that aligned frames are proportional. -/
theorem C72_kl {eps : ℝ} (he : 0 < eps) (hn : 0 < n) (hm : 0 < m) {X : Fin n → Fin d → ℝ} {Y : Fin m → Fin d → ℝ} (hx : ∀ i, 0 < ∑ k, X i k ∧ ∀ k, 0 ≤ X i k) (hy : ∀ j, 0 < ∑ k, Y j k ∧ ∀ k, 0 ≤ Y j k)
    (junk : Nat → Nat → ℝ) (b : Bool) :
    ∃ v : ℝ, klDistance eps junk (real X) (real Y) b = .ok (some (v : WithTop ℝ)) ∧ 0 ≤ v ∧
      (v = 0 ↔ ∃ p, DTW.Spec.Warping n m p ∧ ∀ c ∈ p, ∀ (hi : c.1 < n) (hj : c.2 < m), Metrics.Spec.Proportional (X ⟨c.1, hi⟩) (Y ⟨c.2, hj⟩)) := by
  obtain ⟨D, h1, h2, -⟩ := Metrics.C45_kl (n := n) (m := m) he (th := true) (nm := true) (.inl rfl) true (X := X) (Y := Y) (fun i => ⟨(hx i).1, fun k => by simpa using (hx i).2 k⟩) (fun j => ⟨(hy j).1, fun k => by simpa using (hy j).2 k⟩)
  obtain ⟨v, hv, h0, h3⟩ := dtw_zero hn hm (fun i j => (h2 i j).1) junk b
  refine ⟨v, ?_, h0, ?_⟩
  · unfold klDistance
    rw [withMetric_real (D := D) (by rw [h1]) hn hm, hv]
    rfl
  · rw [h3]
    simp only [fun i j => (h2 i j).2]

/-- C72: without normalization the distance of `-d dtw_kl` is symmetric. -/
theorem C72_kl_symmetric {eps : ℝ} (he : 0 < eps) {X : Fin n → Fin d → ℝ} {Y : Fin m → Fin d → ℝ} (hx : ∀ i, 0 < ∑ k, X i k ∧ ∀ k, 0 ≤ X i k) (hy : ∀ j, 0 < ∑ k, Y j k ∧ ∀ k, 0 ≤ Y j k) (junk junk' : Nat → Nat → ℝ) :
    klDistance eps junk (real X) (real Y) false = klDistance eps junk' (real Y) (real X) false := by
  by_cases h : 0 < n ∧ 0 < m
  · obtain ⟨D, h1, -, h2⟩ := Metrics.C45_kl (n := n) (m := m) he (th := true) (nm := true) (.inl rfl) true (X := X) (Y := Y) (fun i => ⟨(hx i).1, fun k => by simpa using (hx i).2 k⟩) (fun j => ⟨(hy j).1, fun k => by simpa using (hy j).2 k⟩)
    unfold klDistance
    rw [withMetric_real (D := D) (by rw [h1]) h.1 h.2, withMetric_real (D := fun j i => D i j) (by rw [h2 rfl]) h.2 h.1, ext_transpose, DTW.C30_symmetric _ _ junk junk']
  · rw [(C72_empty eps (real X) (real Y) junk false (by omega)).2, (C72_empty eps (real Y) (real X) junk' false (by omega)).2]
    by_cases e : n = 0 ∧ m = 0
    · rw [if_pos e, if_pos ⟨e.2, e.1⟩]
    · rw [if_neg e, if_neg (fun e' => e ⟨e'.2, e'.1⟩)]

/-! ### Examples -/

/-- two frames in a right angle, and one frame along the first: the distance is not 0 -/
example (junk : Nat → Nat → ℝ) : ∃ v : ℝ, defaultDistance junk (real ![![1, 0], ![0, 1]]) (real ![![3, 0]]) false = .ok (some (v : WithTop ℝ)) ∧ 0 < v := by
  obtain ⟨v, hv, h0, -⟩ := C72_bounds (n := 2) (m := 1) (by norm_num) (by norm_num) ![![1, 0], ![0, 1]] ![![(3 : ℝ), 0]] junk false
  refine ⟨v, hv, lt_of_le_of_ne h0 ?_⟩
  rintro rfl
  obtain ⟨p, hp, hz⟩ := (C72_zero (n := 2) (m := 1) (by norm_num) (by norm_num) _ _ junk false).1 hv
  have hl : (1, 0) ∈ p := List.mem_of_getLast? hp.last
  rcases hz _ hl (by norm_num) (by norm_num) with ⟨h, -⟩ | ⟨-, r, hr, h⟩
  · have := h 1; simp at this
  · have := h 0; simp at this

/-- aligned proportional frames: (1,0), (0,1) and (2,0), (5,0), (0,3) -/
example (junk : Nat → Nat → ℝ) : defaultDistance junk (real ![![1, 0], ![0, 1]]) (real ![![2, 0], ![5, 0], ![0, 3]]) true = .ok (some ((0 : ℝ) : WithTop ℝ)) := by
  rw [C72_zero (by norm_num) (by norm_num)]
  refine ⟨[(0, 0), (0, 1), (1, 2)], ⟨rfl, rfl, by simp [DTW.Spec.step]⟩, ?_⟩
  intro c hc hi hj
  simp only [List.mem_cons, List.not_mem_nil, or_false] at hc
  rcases hc with rfl | rfl | rfl
  · exact .inr ⟨⟨0, by simp⟩, 2, by norm_num, fun k => by fin_cases k <;> simp⟩
  · exact .inr ⟨⟨0, by simp⟩, 5, by norm_num, fun k => by fin_cases k <;> simp⟩
  · exact .inr ⟨⟨1, by simp⟩, 3, by norm_num, fun k => by fin_cases k <;> simp⟩

/-- frames that meet the hypotheses of C72_kl -/
example : ∀ i, 0 < ∑ k, (![![1, 0], ![2, 3]] : Fin 2 → Fin 2 → ℝ) i k ∧ ∀ k, 0 ≤ (![![1, 0], ![2, 3]] : Fin 2 → Fin 2 → ℝ) i k := by
  intro i
  fin_cases i
  · exact ⟨by norm_num [Fin.sum_univ_two], fun k => by fin_cases k <;> norm_num⟩
  · exact ⟨by norm_num [Fin.sum_univ_two], fun k => by fin_cases k <;> norm_num⟩

#print axioms C72_value
#print axioms C72_normalized
#print axioms C72_bounds
#print axioms C72_zero
#print axioms C72_same
#print axioms C72_empty
#print axioms C72_symmetric
#print axioms C72_scaling
#print axioms C72_kl
#print axioms C72_kl_symmetric

end ABX.Distance
