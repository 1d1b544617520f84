import Verif.Model.Metrics
import Mathlib.Analysis.InnerProductSpace.PiL2
import Mathlib.Geometry.Euclidean.Angle.Unoriented.Basic
import Mathlib.Tactic.Linarith
import Mathlib.Tactic.Positivity
import Mathlib.Tactic.FieldSimp
import Mathlib.Tactic.Ring
/-! Lemmas on Model/Metrics. -/
namespace ABX.Metrics
open Finset

/-- a matrix of real numbers -/
def real {n d : Nat} (X : Fin n → Fin d → ℝ) : Mat n d := fun i k => some (X i k)

theorem nsum_some {d : Nat} (f : Fin d → ℝ) : nsum (fun k => some (f k)) = some (∑ k, f k) := by
  unfold nsum
  have h : ∀ k : Fin d, ((fun k => some (f k)) k : Num).isSome := fun _ => rfl
  rw [dif_pos h]
  rfl

theorem nsum_none {d : Nat} {v : Fin d → Num} {k : Fin d} (h : v k = none) : nsum v = none := by
  unfold nsum
  rw [dif_neg]
  intro hh
  have := hh k
  rw [h] at this
  cases this

theorem nsum_eq {d : Nat} {v : Fin d → Num} {f : Fin d → ℝ} (h : ∀ k, v k = some (f k)) : nsum v = some (∑ k, f k) := by
  rw [show v = fun k => some (f k) from funext h, nsum_some]

@[simp] theorem nadd_some (a b : ℝ) : nadd (some a) (some b) = some (a + b) := rfl
@[simp] theorem nsub_some (a b : ℝ) : nsub (some a) (some b) = some (a - b) := rfl
@[simp] theorem nmul_some (a b : ℝ) : nmul (some a) (some b) = some (a * b) := rfl
theorem ndiv_some (a : ℝ) {b : ℝ} (h : b ≠ 0) : ndiv (some a) (some b) = some (a / b) := by
  unfold ndiv
  simp only [Option.bind_some]
  rw [if_neg h]
theorem ndiv_zero (a : Num) : ndiv a (some 0) = none := by
  unfold ndiv
  cases a <;> simp
theorem ndiv_none (a : Num) : ndiv a none = none := by
  unfold ndiv
  cases a <;> simp
theorem none_ndiv (b : Num) : ndiv none b = none := rfl
theorem nsqrt_some {a : ℝ} (h : 0 ≤ a) : nsqrt (some a) = some (Real.sqrt a) := by
  unfold nsqrt
  simp only [Option.bind_some]
  rw [if_pos h]
theorem nlog_some {a : ℝ} (h : 0 < a) : nlog (some a) = some (Real.log a) := by
  unfold nlog
  simp only [Option.bind_some]
  rw [if_pos h]
theorem nlog_nonpos {a : ℝ} (h : a ≤ 0) : nlog (some a) = none := by
  unfold nlog
  simp only [Option.bind_some]
  rw [if_neg (not_lt.mpr h)]
theorem narccos_some {a : ℝ} (h : -1 ≤ a ∧ a ≤ 1) : narccos (some a) = some (Real.arccos a) := by
  unfold narccos
  simp only [Option.bind_some]
  rw [if_pos h]

/-! ### cosine -/

/-- a frame as a vector of the euclidean space -/
noncomputable def vec {d : Nat} (v : Fin d → ℝ) : EuclideanSpace ℝ (Fin d) := WithLp.toLp 2 v

theorem norms_real {n d : Nat} (X : Fin n → Fin d → ℝ) (i : Fin n) : norms (real X) i = some ‖vec (X i)‖ := by
  unfold norms real
  simp only [nmul_some]
  rw [nsum_some, nsqrt_some (Finset.sum_nonneg (fun k _ => mul_self_nonneg _)), EuclideanSpace.norm_eq]
  congr 2
  apply Finset.sum_congr rfl
  intro k _
  rw [Real.norm_eq_abs, sq_abs, sq]
  rfl

theorem dot_real {n m d : Nat} (X : Fin n → Fin d → ℝ) (Y : Fin m → Fin d → ℝ) (i : Fin n) (j : Fin m) :
    nsum (fun k => nmul (real X i k) (real Y j k)) = some (inner ℝ (vec (X i)) (vec (Y j))) := by
  unfold real
  simp only [nmul_some]
  rw [nsum_some]
  congr 1
  rw [PiLp.inner_apply]
  apply Finset.sum_congr rfl
  intro k _
  simp [vec, mul_comm]

theorem angles_real {n m d : Nat} (X : Fin n → Fin d → ℝ) (Y : Fin m → Fin d → ℝ) {i : Fin n} {j : Fin m} (hx : vec (X i) ≠ 0) (hy : vec (Y j) ≠ 0) :
    angles (real X) (real Y) i j = some (InnerProductGeometry.angle (vec (X i)) (vec (Y j)) / Real.pi) := by
  unfold angles
  rw [dot_real, norms_real, norms_real, nmul_some, ndiv_some _ (mul_ne_zero (norm_ne_zero_iff.mpr hx) (norm_ne_zero_iff.mpr hy)), narccos_some, ndiv_some _ Real.pi_ne_zero]
  · rfl
  · exact abs_le.mp (abs_real_inner_div_norm_mul_norm_le_one _ _)

theorem vec_eq_zero {d : Nat} (v : Fin d → ℝ) : vec v = 0 ↔ ∀ k, v k = 0 := by
  constructor
  · intro h k
    have : (vec v) k = (0 : EuclideanSpace ℝ (Fin d)) k := by rw [h]
    exact this
  · intro h
    ext k
    exact h k

theorem isZero_norms {n d : Nat} (X : Fin n → Fin d → ℝ) (i : Fin n) : isZero (norms (real X) i) ↔ vec (X i) = 0 := by
  unfold isZero
  rw [norms_real, Option.some_inj, norm_eq_zero]

open Classical in
/-- the value of an entry -/
noncomputable def cosVal {d : Nat} (x y : Fin d → ℝ) : ℝ :=
  if vec x = 0 ∧ vec y = 0 then 0 else if vec x = 0 ∨ vec y = 0 then 1 else InnerProductGeometry.angle (vec x) (vec y) / Real.pi

theorem fixNull_real {n m d : Nat} (X : Fin n → Fin d → ℝ) (Y : Fin m → Fin d → ℝ) (i : Fin n) (j : Fin m) :
    fixNull (norms (real X)) (norms (real Y)) (angles (real X) (real Y)) i j = some (cosVal (X i) (Y j)) := by
  unfold fixNull cosVal
  dsimp only
  simp only [isZero_norms]
  by_cases hx : vec (X i) = 0 <;> by_cases hy : vec (Y j) = 0 <;> simp [hx, hy]
  exact angles_real X Y hx hy

theorem cosVal_nonneg {d : Nat} (x y : Fin d → ℝ) : 0 ≤ cosVal x y := by
  unfold cosVal
  split
  · exact le_rfl
  · split
    · exact zero_le_one
    · exact div_nonneg (InnerProductGeometry.angle_nonneg _ _) Real.pi_pos.le

theorem cosVal_le_one {d : Nat} (x y : Fin d → ℝ) : cosVal x y ≤ 1 := by
  unfold cosVal
  split
  · exact zero_le_one
  · split
    · exact le_rfl
    · rw [div_le_one Real.pi_pos]
      exact InnerProductGeometry.angle_le_pi _ _

theorem cosineDistance_real {n m d : Nat} (X : Fin n → Fin d → ℝ) (Y : Fin m → Fin d → ℝ) :
    cosineDistance (real X) (real Y) = .ok (real (fun i j => cosVal (X i) (Y j))) := by
  unfold cosineDistance
  dsimp only
  rw [if_pos (fun i j => ⟨_, fixNull_real X Y i j, cosVal_nonneg _ _⟩)]
  congr 1
  funext i j
  exact fixNull_real X Y i j

theorem vec_smul {d : Nat} (a : ℝ) (v : Fin d → ℝ) : vec (fun k => a * v k) = a • vec v := by
  ext k
  simp [vec]

theorem cosVal_comm {d : Nat} (x y : Fin d → ℝ) : cosVal x y = cosVal y x := by
  unfold cosVal
  by_cases hx : vec x = 0 <;> by_cases hy : vec y = 0 <;> simp [hx, hy, InnerProductGeometry.angle_comm]

theorem cosVal_scale {d : Nat} (x y : Fin d → ℝ) {a b : ℝ} (ha : 0 < a) (hb : 0 < b) : cosVal (fun k => a * x k) (fun k => b * y k) = cosVal x y := by
  unfold cosVal
  rw [vec_smul, vec_smul]
  simp only [smul_eq_zero, ha.ne', hb.ne', false_or]
  rw [InnerProductGeometry.angle_smul_left_of_pos _ _ ha, InnerProductGeometry.angle_smul_right_of_pos _ _ hb]

/-! ### normalization -/

theorem normalizeRows_real {n d : Nat} (X : Fin n → Fin d → ℝ) (h : ∀ i, ∑ k, X i k ≠ 0) : normalizeRows (real X) = real (fun i k => X i k / ∑ k, X i k) := by
  funext i k
  unfold normalizeRows
  rw [show nsum (real X i) = some (∑ k, X i k) from nsum_some _]
  exact ndiv_some _ (h i)

theorem sum_normalized {d : Nat} {v : Fin d → ℝ} (h : ∑ k, v k ≠ 0) : ∑ k, v k / ∑ l, v l = 1 := by
  rw [← Finset.sum_div, div_self h]

theorem norms_normalizeRows {n d : Nat} (X : Fin n → Fin d → ℝ) (i : Fin n) : ¬ (isZero (norms (normalizeRows (real X)) i) ∧ 0 < d) := by
  rintro ⟨h, hd⟩
  by_cases h0 : ∑ k, X i k = 0
  · have : norms (normalizeRows (real X)) i = none := by
      unfold norms
      rw [nsum_none (k := ⟨0, hd⟩)]
      · rfl
      · unfold normalizeRows
        rw [show nsum (real X i) = some (∑ k, X i k) from nsum_some _, h0, ndiv_zero]
        rfl
    rw [this] at h
    cases h
  · have e : ∀ k, normalizeRows (real X) i k = some (X i k / ∑ k, X i k) := fun k => by
      unfold normalizeRows
      rw [show nsum (real X i) = some (∑ k, X i k) from nsum_some _]
      exact ndiv_some _ h0
    unfold isZero norms at h
    simp only [e, nmul_some] at h
    rw [nsum_some, nsqrt_some (Finset.sum_nonneg (fun k _ => mul_self_nonneg _)), Option.some_inj, Real.sqrt_eq_zero (Finset.sum_nonneg (fun k _ => mul_self_nonneg _)),
      Finset.sum_eq_zero_iff_of_nonneg (fun k _ => mul_self_nonneg _)] at h
    have h1 := sum_normalized h0
    rw [Finset.sum_eq_zero (fun k hk => mul_self_eq_zero.mp (h k hk))] at h1
    exact zero_ne_one h1

/-- normalizing twice is the same as once -/
theorem normalizeRows_idem {n d : Nat} (x : Mat n d) : normalizeRows (normalizeRows x) = normalizeRows x := by
  funext i k
  by_cases hn : ∃ k, x i k = none
  · obtain ⟨l, hl⟩ := hn
    have hall : ∀ k, normalizeRows x i k = none := by
      intro k
      unfold normalizeRows
      rw [nsum_none hl, ndiv_none]
    rw [hall]
    show ndiv (normalizeRows x i k) _ = none
    rw [hall]
    rfl
  · have hs : ∀ k, ∃ v, x i k = some v := fun k => Option.ne_none_iff_exists'.mp (fun h => hn ⟨k, h⟩)
    choose f hf using hs
    have hsum : nsum (x i) = some (∑ k, f k) := nsum_eq hf
    by_cases h0 : ∑ k, f k = 0
    · have hall : ∀ k, normalizeRows x i k = none := by
        intro k
        unfold normalizeRows
        rw [hsum, h0, ndiv_zero]
      rw [hall]
      show ndiv (normalizeRows x i k) _ = none
      rw [hall]
      rfl
    · have hall : ∀ k, normalizeRows x i k = some (f k / ∑ k, f k) := by
        intro k
        unfold normalizeRows
        rw [hsum, hf, ndiv_some _ h0]
      show ndiv (normalizeRows x i k) (nsum (normalizeRows x i)) = normalizeRows x i k
      rw [nsum_eq hall, sum_normalized h0, hall, ndiv_some _ one_ne_zero, div_one]

/-! ### Kullback-Leibler -/

/-- the divergence of two vectors of positive numbers -/
noncomputable def kl {d : Nat} (p q : Fin d → ℝ) : ℝ := ∑ k, p k * (Real.log (p k) - Real.log (q k))

theorem kl0_real {n m d : Nat} {X : Fin n → Fin d → ℝ} {Y : Fin m → Fin d → ℝ} (hx : ∀ i k, 0 < X i k) (hy : ∀ i k, 0 < Y i k) : kl0 (real X) (real Y) = real (fun i j => kl (X i) (Y j)) := by
  funext i j
  unfold kl0 real kl
  simp only [nlog_some (hx _ _), nlog_some (hy _ _), nmul_some]
  rw [nsum_some, nsum_some, nsub_some, ← Finset.sum_sub_distrib]
  simp only [mul_sub]

/-- one term of Gibbs' inequality -/
theorem term_le {p q : ℝ} (hp : 0 < p) (hq : 0 < q) : p - q ≤ p * (Real.log p - Real.log q) := by
  have h := Real.log_le_sub_one_of_pos (div_pos hq hp)
  rw [Real.log_div hq.ne' hp.ne'] at h
  have h2 := mul_le_mul_of_nonneg_left h hp.le
  have h3 : p * (q / p - 1) = q - p := by field_simp
  rw [h3] at h2
  linarith

theorem term_lt {p q : ℝ} (hp : 0 < p) (hq : 0 < q) (hne : p ≠ q) : p - q < p * (Real.log p - Real.log q) := by
  have h := Real.log_lt_sub_one_of_pos (div_pos hq hp) (by rw [Ne, div_eq_one_iff_eq hp.ne']; exact hne.symm)
  rw [Real.log_div hq.ne' hp.ne'] at h
  have h2 := mul_lt_mul_of_pos_left h hp
  have h3 : p * (q / p - 1) = q - p := by field_simp
  rw [h3] at h2
  linarith

theorem kl_nonneg {d : Nat} {p q : Fin d → ℝ} (hp : ∀ k, 0 < p k) (hq : ∀ k, 0 < q k) (hs : ∑ k, p k = ∑ k, q k) : 0 ≤ kl p q := by
  have h : ∑ k, (p k - q k) ≤ kl p q := Finset.sum_le_sum (fun k _ => term_le (hp k) (hq k))
  rw [Finset.sum_sub_distrib, hs, sub_self] at h
  exact h

theorem kl_self {d : Nat} (p : Fin d → ℝ) : kl p p = 0 := by
  unfold kl
  simp

theorem kl_eq_zero {d : Nat} {p q : Fin d → ℝ} (hp : ∀ k, 0 < p k) (hq : ∀ k, 0 < q k) (hs : ∑ k, p k = ∑ k, q k) : kl p q = 0 ↔ p = q := by
  constructor
  · intro h
    by_contra hne
    obtain ⟨k, hk⟩ := Function.ne_iff.mp hne
    have : ∑ k, (p k - q k) < kl p q := Finset.sum_lt_sum (fun k _ => term_le (hp k) (hq k)) ⟨k, Finset.mem_univ k, term_lt (hp k) (hq k) hk⟩
    rw [Finset.sum_sub_distrib, hs, sub_self, h] at this
    exact lt_irrefl _ this
  · rintro rfl
    exact kl_self p

theorem js0_real {n m d : Nat} {X : Fin n → Fin d → ℝ} {Y : Fin m → Fin d → ℝ} (hx : ∀ i k, 0 < X i k) (hy : ∀ i k, 0 < Y i k) :
    js0 (real X) (real Y) = real (fun i j => 0.5 * kl (X i) (fun k => (X i k + Y j k) / 2) + 0.5 * kl (Y j) (fun k => (X i k + Y j k) / 2)) := by
  funext i j
  unfold js0
  have hm : ∀ k, 0 < (X i k + Y j k) / 2 := fun k => by have := hx i k; have := hy j k; linarith
  have e : ∀ k, ndiv (nadd (real X i k) (real Y j k)) (some 2) = some ((X i k + Y j k) / 2) := fun k => by
    show ndiv (nadd (some _) (some _)) _ = _
    rw [nadd_some, ndiv_some _ two_ne_zero]
  dsimp only
  simp only [e, nlog_some (hm _)]
  unfold real kl
  simp only [nlog_some (hx _ _), nlog_some (hy _ _), nmul_some]
  rw [nsum_some, nsum_some, nsum_some, nsum_some, nsub_some, nsub_some, nmul_some, nmul_some, nadd_some, ← Finset.sum_sub_distrib, ← Finset.sum_sub_distrib]
  simp only [mul_sub]

/-! ### Hellinger -/

/-- the Hellinger distance of two vectors -/
noncomputable def hell {d : Nat} (p q : Fin d → ℝ) : ℝ := 1 / Real.sqrt 2 * Real.sqrt (∑ k, (Real.sqrt (p k) - Real.sqrt (q k)) * (Real.sqrt (p k) - Real.sqrt (q k)))

theorem hellinger0_real {n m d : Nat} {X : Fin n → Fin d → ℝ} {Y : Fin m → Fin d → ℝ} (hx : ∀ i k, 0 ≤ X i k) (hy : ∀ i k, 0 ≤ Y i k) :
    hellinger0 (real X) (real Y) = real (fun i j => hell (X i) (Y j)) := by
  funext i j
  unfold hellinger0 real hell
  simp only [nsqrt_some (hx _ _), nsqrt_some (hy _ _), nsub_some, nmul_some]
  rw [nsum_some, nsqrt_some (Finset.sum_nonneg (fun k _ => mul_self_nonneg _)), nsqrt_some zero_le_two, ndiv_some _ (by positivity), nmul_some]

theorem hell_nonneg {d : Nat} (p q : Fin d → ℝ) : 0 ≤ hell p q := by unfold hell; positivity

theorem hell_symm {d : Nat} (p q : Fin d → ℝ) : hell p q = hell q p := by
  unfold hell
  congr 2
  apply Finset.sum_congr rfl
  intro k _
  ring

theorem hell_le_one {d : Nat} {p q : Fin d → ℝ} (hp : ∀ k, 0 ≤ p k) (hq : ∀ k, 0 ≤ q k) (hp1 : ∑ k, p k = 1) (hq1 : ∑ k, q k = 1) : hell p q ≤ 1 := by
  unfold hell
  have h : ∑ k, (Real.sqrt (p k) - Real.sqrt (q k)) * (Real.sqrt (p k) - Real.sqrt (q k)) ≤ 2 := by
    have : ∑ k, (Real.sqrt (p k) - Real.sqrt (q k)) * (Real.sqrt (p k) - Real.sqrt (q k)) ≤ ∑ k, (p k + q k) := by
      apply Finset.sum_le_sum
      intro k _
      have a := Real.mul_self_sqrt (hp k)
      have b := Real.mul_self_sqrt (hq k)
      have c := mul_nonneg (Real.sqrt_nonneg (p k)) (Real.sqrt_nonneg (q k))
      nlinarith
    rw [Finset.sum_add_distrib, hp1, hq1] at this
    linarith
  have h2 := Real.sqrt_le_sqrt h
  have h3 : 0 < Real.sqrt 2 := by positivity
  rw [one_div, inv_mul_le_iff₀ h3, mul_one]
  exact h2

theorem hell_eq_zero {d : Nat} {p q : Fin d → ℝ} (hp : ∀ k, 0 ≤ p k) (hq : ∀ k, 0 ≤ q k) : hell p q = 0 ↔ p = q := by
  unfold hell
  have h3 : (1 / Real.sqrt 2 : ℝ) ≠ 0 := by positivity
  rw [mul_eq_zero, or_iff_right h3, Real.sqrt_eq_zero (Finset.sum_nonneg (fun k _ => mul_self_nonneg _)), Finset.sum_eq_zero_iff_of_nonneg (fun k _ => mul_self_nonneg _)]
  constructor
  · intro h
    funext k
    have := h k (Finset.mem_univ k)
    rw [mul_self_eq_zero, sub_eq_zero, Real.sqrt_inj (hp k) (hq k)] at this
    exact this
  · rintro rfl k _
    rw [sub_self, mul_zero]

end ABX.Metrics
