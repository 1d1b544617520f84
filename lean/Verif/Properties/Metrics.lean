import Verif.Proofs.Metrics
import Verif.Model.F64
import Mathlib.Tactic.NormNum
/-!
Properties C44 to C46: the metrics on frames.

`real X` is the array of the real numbers `X`.  Specification of the cosine distance: the angle of two vectors of the euclidean space (`InnerProductGeometry.angle` of Mathlib), divided by π.
-/
namespace ABX.Metrics
open Finset

/-- `y` is `x` multiplied by a positive number -/
def Spec.Proportional {d : Nat} (x y : Fin d → ℝ) : Prop := ∃ r : ℝ, 0 < r ∧ ∀ k, y k = r * x k

/-! ### C44 -/

/-- C44: for all real frames the cosine distance is a matrix of numbers between 0 and 1: the angle divided by π for non-null frames, 0 for two null frames, 1 for one null frame;
exchanging the items transposes it. -/
theorem C44_cosine {n m d : Nat} (X : Fin n → Fin d → ℝ) (Y : Fin m → Fin d → ℝ) :
    ∃ D : Fin n → Fin m → ℝ, cosineDistance (real X) (real Y) = .ok (real D) ∧ cosineDistance (real Y) (real X) = .ok (real (fun j i => D i j)) ∧ ∀ i j, 0 ≤ D i j ∧ D i j ≤ 1 ∧
      ((∃ k, X i k ≠ 0) → (∃ k, Y j k ≠ 0) → D i j = InnerProductGeometry.angle (WithLp.toLp 2 (X i) : EuclideanSpace ℝ (Fin d)) (WithLp.toLp 2 (Y j)) / Real.pi) ∧
      ((∀ k, X i k = 0) → (∀ k, Y j k = 0) → D i j = 0) ∧ ((∀ k, X i k = 0) → (∃ k, Y j k ≠ 0) → D i j = 1) ∧ ((∃ k, X i k ≠ 0) → (∀ k, Y j k = 0) → D i j = 1) := by
  refine ⟨fun i j => cosVal (X i) (Y j), cosineDistance_real X Y, ?_, ?_⟩
  · rw [cosineDistance_real]
    congr 2
    funext j i
    exact cosVal_comm _ _
  · intro i j
    have nx : (∃ k, X i k ≠ 0) → vec (X i) ≠ 0 := fun ⟨k, hk⟩ h => hk ((vec_eq_zero _).mp h k)
    have ny : (∃ k, Y j k ≠ 0) → vec (Y j) ≠ 0 := fun ⟨k, hk⟩ h => hk ((vec_eq_zero _).mp h k)
    refine ⟨cosVal_nonneg _ _, cosVal_le_one _ _, ?_, ?_, ?_, ?_⟩
    · intro hx hy
      show cosVal (X i) (Y j) = _
      unfold cosVal
      rw [if_neg (fun h => nx hx h.1), if_neg (fun h => h.elim (nx hx) (ny hy))]
      rfl
    · intro hx hy
      show cosVal (X i) (Y j) = _
      unfold cosVal
      rw [if_pos ⟨(vec_eq_zero _).mpr hx, (vec_eq_zero _).mpr hy⟩]
    · intro hx hy
      show cosVal (X i) (Y j) = _
      unfold cosVal
      rw [if_neg (fun h => ny hy h.2), if_pos (.inl ((vec_eq_zero _).mpr hx))]
    · intro hx hy
      show cosVal (X i) (Y j) = _
      unfold cosVal
      rw [if_neg (fun h => nx hx h.1), if_pos (.inr ((vec_eq_zero _).mpr hy))]

/-- C44: positive factors on the frames do not change the distances. -/
theorem C44_scaling {n m d : Nat} (X : Fin n → Fin d → ℝ) (Y : Fin m → Fin d → ℝ) {a : Fin n → ℝ} {b : Fin m → ℝ} (ha : ∀ i, 0 < a i) (hb : ∀ j, 0 < b j) :
    cosineDistance (real (fun i k => a i * X i k)) (real (fun j k => b j * Y j k)) = cosineDistance (real X) (real Y) := by
  rw [cosineDistance_real, cosineDistance_real]
  congr 2
  funext i j
  exact cosVal_scale _ _ (ha i) (hb j)

/-- C44: the distance is 0 exactly between two null frames and between proportional frames. -/
theorem C44_zero {n m d : Nat} (X : Fin n → Fin d → ℝ) (Y : Fin m → Fin d → ℝ) {D : Fin n → Fin m → ℝ} (h : cosineDistance (real X) (real Y) = .ok (real D)) (i : Fin n) (j : Fin m) :
    D i j = 0 ↔ (∀ k, X i k = 0) ∧ (∀ k, Y j k = 0) ∨ (∃ k, X i k ≠ 0) ∧ Spec.Proportional (X i) (Y j) := by
  rw [cosineDistance_real] at h
  injection h with h
  have hD : D i j = cosVal (X i) (Y j) := (Option.some_inj.mp (congrFun (congrFun h i) j)).symm
  rw [hD]
  have nx : (∃ k, X i k ≠ 0) ↔ vec (X i) ≠ 0 := by rw [Ne, vec_eq_zero, not_forall]
  have hpr : Spec.Proportional (X i) (Y j) ↔ ∃ r : ℝ, 0 < r ∧ vec (Y j) = r • vec (X i) := by
    constructor
    · rintro ⟨r, hr, hk⟩
      refine ⟨r, hr, ?_⟩
      rw [← vec_smul]
      congr 1
      exact funext hk
    · rintro ⟨r, hr, hk⟩
      refine ⟨r, hr, fun k => ?_⟩
      have : vec (Y j) k = (r • vec (X i)) k := by rw [hk]
      exact this
  rw [← vec_eq_zero, ← vec_eq_zero, nx, hpr]
  unfold cosVal
  by_cases hx : vec (X i) = 0
  · by_cases hy : vec (Y j) = 0
    · simp [hx, hy]
    · simp [hx, hy]
  · by_cases hy : vec (Y j) = 0
    · simp only [hx, hy, false_and, and_true, if_false, or_true, if_true, one_ne_zero, false_or, not_false_eq_true, true_and, false_iff, ne_eq]
      rintro ⟨r, hr, h0⟩
      exact (smul_ne_zero hr.ne' hx) h0.symm
    · rw [if_neg (fun h => hx h.1), if_neg (fun h => h.elim hx hy), div_eq_zero_iff, or_iff_left Real.pi_ne_zero, InnerProductGeometry.angle_eq_zero_iff]
      constructor
      · exact fun h => .inr h
      · rintro (h | h)
        · exact absurd h.1 hx
        · exact h

/-- `normalize_cosine_distance` is the same when the sums of the frames are positive. -/
theorem C44_normalize {n m d : Nat} (X : Fin n → Fin d → ℝ) (Y : Fin m → Fin d → ℝ) (hx : ∀ i, 0 < ∑ k, X i k) (hy : ∀ j, 0 < ∑ k, Y j k) :
    normalizeCosineDistance (real X) (real Y) = cosineDistance (real X) (real Y) := by
  unfold normalizeCosineDistance
  rw [normalizeRows_real X (fun i => (hx i).ne'), normalizeRows_real Y (fun j => (hy j).ne'),
    ← C44_scaling X Y (a := fun i => (∑ k, X i k)⁻¹) (b := fun j => (∑ k, Y j k)⁻¹) (fun i => inv_pos.mpr (hx i)) (fun j => inv_pos.mpr (hy j))]
  congr 2 <;>
  · funext i k
    rw [div_eq_inv_mul]

/-- It raises an AssertionError when the sum of a frame is 0, thus for a null frame (there are numbers that are not finite). -/
theorem C44_normalize_null {n m d : Nat} (X : Fin n → Fin d → ℝ) (Y : Fin m → Fin d → ℝ) {i : Fin n} (hd : 0 < d) (hx : ∑ k, X i k = 0) (j : Fin m) :
    normalizeCosineDistance (real X) (real Y) = .error .assertion := by
  have hn : ∀ k, normalizeRows (real X) i k = none := by
    intro k
    unfold normalizeRows
    rw [show nsum (real X i) = some (∑ k, X i k) from nsum_some _, hx, ndiv_zero]
  have hnorm : norms (normalizeRows (real X)) i = none := by
    unfold norms
    rw [nsum_none (k := ⟨0, hd⟩)]
    · rfl
    · rw [hn]; rfl
  unfold normalizeCosineDistance cosineDistance
  dsimp only
  rw [if_neg]
  intro h
  obtain ⟨v, hv, h0⟩ := h i j
  unfold fixNull at hv
  dsimp only at hv
  have ha : angles (normalizeRows (real X)) (normalizeRows (real Y)) i j = none := by
    unfold angles
    rw [hnorm]
    show ndiv (narccos (ndiv _ none)) _ = none
    rw [ndiv_none]
    rfl
  have hy : ¬ isZero (norms (normalizeRows (real Y)) j) := fun h => norms_normalizeRows Y j ⟨h, hd⟩
  rw [hnorm, ha, if_neg (fun h => hy h.2), if_neg hy] at hv
  have hz : ¬ isZero (none : Num) := fun h => by cases h
  rw [if_neg hz] at hv
  cases hv

/-! ### C45 -/

/-- the rows of a matrix divided by their sums are equal exactly when the rows are proportional -/
theorem normalized_eq {d : Nat} {x y : Fin d → ℝ} (hx : 0 < ∑ k, x k) (hy : 0 < ∑ k, y k) : (fun k => x k / ∑ l, x l) = (fun k => y k / ∑ l, y l) ↔ Spec.Proportional x y := by
  constructor
  · intro h
    refine ⟨(∑ l, y l) / ∑ l, x l, div_pos hy hx, fun k => ?_⟩
    have := congrFun h k
    rw [div_mul_eq_mul_div, mul_comm, mul_div_right_comm, this, div_mul_cancel₀ _ hy.ne']
  · rintro ⟨r, hr, h⟩
    funext k
    have : ∑ l, y l = r * ∑ l, x l := by rw [Finset.mul_sum]; exact Finset.sum_congr rfl (fun l _ => h l)
    rw [this, h k, mul_div_mul_left _ _ hr.ne']

/-- the rows given to `__kl_divergence` -/
noncomputable def klRow {d : Nat} (eps : ℝ) (thresholded : Bool) (x : Fin d → ℝ) : Fin d → ℝ :=
  if thresholded then fun k => (x k / (∑ l, x l) + eps) / ∑ l, (x l / (∑ l, x l) + eps) else fun k => x k / ∑ l, x l

/-- hypotheses on a row: entries not negative with thresholding, positive without -/
def Spec.Row {d : Nat} (thresholded : Bool) (x : Fin d → ℝ) : Prop := 0 < ∑ k, x k ∧ ∀ k, if thresholded then 0 ≤ x k else 0 < x k

theorem eps_sum {d : Nat} {eps : ℝ} {x : Fin d → ℝ} (h : 0 < ∑ k, x k) : ∑ l, (x l / (∑ l, x l) + eps) = 1 + d * eps := by
  rw [Finset.sum_add_distrib, sum_normalized h.ne', Finset.sum_const, Finset.card_univ, Fintype.card_fin, nsmul_eq_mul]

theorem klRow_pos {d : Nat} {eps : ℝ} (he : 0 < eps) {th : Bool} {x : Fin d → ℝ} (h : Spec.Row th x) (k : Fin d) : 0 < klRow eps th x k := by
  unfold klRow
  obtain ⟨h1, h2⟩ := h
  have := h2 k
  cases th with
  | true =>
    simp only [if_true] at this ⊢
    rw [eps_sum h1]
    positivity
  | false =>
    simp only [Bool.false_eq_true, if_false] at this ⊢
    positivity

theorem klRow_sum {d : Nat} {eps : ℝ} (he : 0 < eps) {th : Bool} {x : Fin d → ℝ} (h : Spec.Row th x) : ∑ k, klRow eps th x k = 1 := by
  unfold klRow
  cases th with
  | true =>
    simp only [if_true]
    apply sum_normalized
    rw [eps_sum h.1]
    positivity
  | false =>
    simp only [Bool.false_eq_true, if_false]
    exact sum_normalized h.1.ne'

theorem klRow_eq {d : Nat} {eps : ℝ} (he : 0 < eps) {th : Bool} {x y : Fin d → ℝ} (hx : Spec.Row th x) (hy : Spec.Row th y) : klRow eps th x = klRow eps th y ↔ Spec.Proportional x y := by
  rw [← normalized_eq hx.1 hy.1]
  unfold klRow
  cases th with
  | true =>
    simp only [if_true]
    rw [eps_sum hx.1, eps_sum hy.1]
    have hp : (1 + d * eps : ℝ) ≠ 0 := by positivity
    constructor
    · intro h
      funext k
      have := congrFun h k
      rw [div_left_inj' hp] at this
      exact add_right_cancel this
    · intro h
      funext k
      have := congrFun h k
      rw [this]
  | false => simp only [Bool.false_eq_true, if_false]

theorem klPrepare_real {n d : Nat} {eps : ℝ} (he : 0 < eps) {th nm : Bool} (hn : th = true ∨ nm = true) {X : Fin n → Fin d → ℝ} (h : ∀ i, Spec.Row th (X i)) :
    klPrepare eps th nm (real X) = real (fun i => klRow eps th (X i)) := by
  unfold klPrepare
  have e : (th || nm) = true := by rcases hn with h | h <;> simp [h]
  dsimp only
  rw [e, if_pos rfl, normalizeRows_real X (fun i => (h i).1.ne')]
  cases th with
  | true =>
    simp only [if_true]
    unfold threshold
    have : (fun i k => nadd (real (fun i k => X i k / ∑ k, X i k) i k) (some eps)) = real (fun i k => X i k / (∑ k, X i k) + eps) := rfl
    rw [this, normalizeRows_real]
    · unfold klRow
      simp only [if_true]
    · intro i
      rw [eps_sum (h i).1]
      positivity
  | false =>
    simp only [Bool.false_eq_true, if_false]
    unfold klRow
    simp only [Bool.false_eq_true, if_false]

/-- C45, Kullback-Leibler: on rows with positive entries (with thresholding: entries that are not negative, with a positive sum) the divergence of the normalized rows is a number, not negative,
0 exactly for proportional rows; the symmetrized divergence is symmetric. -/
theorem C45_kl {n m d : Nat} {eps : ℝ} (he : 0 < eps) {th nm : Bool} (hn : th = true ∨ nm = true) (sym : Bool) {X : Fin n → Fin d → ℝ} {Y : Fin m → Fin d → ℝ} (hx : ∀ i, Spec.Row th (X i)) (hy : ∀ j, Spec.Row th (Y j)) :
    ∃ D : Fin n → Fin m → ℝ, klDivergence eps th sym nm (real X) (real Y) = real D ∧ (∀ i j, 0 ≤ D i j ∧ (D i j = 0 ↔ Spec.Proportional (X i) (Y j))) ∧
      (sym = true → klDivergence eps th sym nm (real Y) (real X) = real (fun j i => D i j)) := by
  have px := fun i k => klRow_pos he (hx i) k
  have py := fun i k => klRow_pos he (hy i) k
  have hs : ∀ i j, ∑ k, klRow eps th (X i) k = ∑ k, klRow eps th (Y j) k := fun i j => by rw [klRow_sum he (hx i), klRow_sum he (hy j)]
  unfold klDivergence
  dsimp only
  rw [klPrepare_real he hn hx, klPrepare_real he hn hy, kl0_real px py, kl0_real py px]
  cases sym with
  | false =>
    refine ⟨_, rfl, fun i j => ⟨kl_nonneg (px i) (py j) (hs i j), ?_⟩, fun h => by cases h⟩
    rw [kl_eq_zero (px i) (py j) (hs i j), klRow_eq he (hx i) (hy j)]
  | true =>
    simp only [if_true]
    refine ⟨fun i j => 0.5 * kl (klRow eps th (X i)) (klRow eps th (Y j)) + 0.5 * kl (klRow eps th (Y j)) (klRow eps th (X i)), rfl, ?_, ?_⟩
    · intro i j
      have k1 := kl_nonneg (px i) (py j) (hs i j)
      have k2 := kl_nonneg (py j) (px i) (hs i j).symm
      refine ⟨by linarith, ?_⟩
      rw [← klRow_eq he (hx i) (hy j)]
      constructor
      · intro h
        rw [← kl_eq_zero (px i) (py j) (hs i j)]
        linarith
      · intro h
        dsimp only
        rw [h, kl_self]
        norm_num
    · intro _
      funext j i
      exact congrArg some (add_comm _ _)

/-- C45, Jensen-Shannon: on rows with positive entries. -/
theorem C45_js {n m d : Nat} {X : Fin n → Fin d → ℝ} {Y : Fin m → Fin d → ℝ} (hd : 0 < d) (hx : ∀ i k, 0 < X i k) (hy : ∀ j k, 0 < Y j k) :
    ∃ D : Fin n → Fin m → ℝ, jsDivergence true (real X) (real Y) = .ok (real D) ∧ (∀ i j, 0 ≤ D i j ∧ (D i j = 0 ↔ Spec.Proportional (X i) (Y j))) ∧
      jsDivergence true (real Y) (real X) = .ok (real (fun j i => D i j)) ∧ sqrtJsDivergence (real X) (real Y) = .ok (real (fun i j => Real.sqrt (D i j))) := by
  haveI : Nonempty (Fin d) := ⟨⟨0, hd⟩⟩
  have sx : ∀ i, 0 < ∑ k, X i k := fun i => Finset.sum_pos (fun k _ => hx i k) Finset.univ_nonempty
  have sy : ∀ i, 0 < ∑ k, Y i k := fun i => Finset.sum_pos (fun k _ => hy i k) Finset.univ_nonempty
  have ox : sumsOk (real X) := fun i h => by rw [show nsum (real X i) = some (∑ k, X i k) from nsum_some _] at h; exact (sx i).ne' (Option.some_inj.mp h)
  have oy : sumsOk (real Y) := fun i h => by rw [show nsum (real Y i) = some (∑ k, Y i k) from nsum_some _] at h; exact (sy i).ne' (Option.some_inj.mp h)
  have px : ∀ i k, 0 < X i k / ∑ k, X i k := fun i k => div_pos (hx i k) (sx i)
  have py : ∀ i k, 0 < Y i k / ∑ k, Y i k := fun i k => div_pos (hy i k) (sy i)
  have e1 : jsDivergence true (real X) (real Y) = .ok (real (fun i j => 0.5 * kl (fun k => X i k / ∑ k, X i k) (fun k => (X i k / (∑ k, X i k) + Y j k / ∑ k, Y j k) / 2) +
      0.5 * kl (fun k => Y j k / ∑ k, Y j k) (fun k => (X i k / (∑ k, X i k) + Y j k / ∑ k, Y j k) / 2))) := by
    unfold jsDivergence
    rw [if_pos ⟨ox, oy⟩, if_pos rfl, normalizeRows_real X (fun i => (sx i).ne'), normalizeRows_real Y (fun i => (sy i).ne'), js0_real px py]
  have nn : ∀ i j, 0 ≤ kl (fun k => X i k / ∑ k, X i k) (fun k => (X i k / (∑ k, X i k) + Y j k / ∑ k, Y j k) / 2) ∧ 0 ≤ kl (fun k => Y j k / ∑ k, Y j k) (fun k => (X i k / (∑ k, X i k) + Y j k / ∑ k, Y j k) / 2) ∧
      (kl (fun k => X i k / ∑ k, X i k) (fun k => (X i k / (∑ k, X i k) + Y j k / ∑ k, Y j k) / 2) = 0 → Spec.Proportional (X i) (Y j)) := by
    intro i j
    have hm : ∀ k, 0 < (X i k / (∑ k, X i k) + Y j k / ∑ k, Y j k) / 2 := fun k => by have := px i k; have := py j k; linarith
    have hsum : ∑ k, (X i k / (∑ k, X i k) + Y j k / ∑ k, Y j k) / 2 = 1 := by
      rw [← Finset.sum_div, Finset.sum_add_distrib, sum_normalized (sx i).ne', sum_normalized (sy j).ne']
      norm_num
    refine ⟨kl_nonneg (px i) hm (by rw [hsum, sum_normalized (sx i).ne']), kl_nonneg (py j) hm (by rw [hsum, sum_normalized (sy j).ne']), fun h => ?_⟩
    rw [kl_eq_zero (px i) hm (by rw [hsum, sum_normalized (sx i).ne'])] at h
    rw [← normalized_eq (sx i) (sy j)]
    funext k
    have := congrFun h k
    linarith
  refine ⟨_, e1, ?_, ?_, ?_⟩
  · intro i j
    obtain ⟨a, b, c⟩ := nn i j
    refine ⟨by linarith, fun h => c (by linarith), ?_⟩
    intro h
    rw [← normalized_eq (sx i) (sy j)] at h
    have hh : (fun k => (X i k / (∑ k, X i k) + Y j k / ∑ k, Y j k) / 2) = fun k => X i k / ∑ k, X i k := by
      funext k
      have := congrFun h k
      rw [← this]
      ring
    rw [hh, ← h, kl_self]
    norm_num
  · unfold jsDivergence
    rw [if_pos ⟨oy, ox⟩, if_pos rfl, normalizeRows_real X (fun i => (sx i).ne'), normalizeRows_real Y (fun i => (sy i).ne'), js0_real py px]
    congr 2
    funext j i
    have : (fun k => (Y j k / (∑ k, Y j k) + X i k / ∑ k, X i k) / 2) = fun k => (X i k / (∑ k, X i k) + Y j k / ∑ k, Y j k) / 2 := by funext k; rw [add_comm]
    rw [this, add_comm]
  · unfold sqrtJsDivergence
    rw [e1]
    show Except.ok _ = _
    congr 1
    funext i j
    obtain ⟨a, b, -⟩ := nn i j
    exact nsqrt_some (by linarith)

/-- On a row with a null entry the Jensen-Shannon divergence is not a number, although the mathematical divergence is (0 · log 0 is computed). -/
theorem C45_js_null_entry {n m d : Nat} (X : Fin n → Fin d → ℝ) (Y : Fin m → Fin d → ℝ) (hx : ∀ i, ∑ k, X i k ≠ 0) (hy : ∀ j, ∑ k, Y j k ≠ 0) {i : Fin n} {k : Fin d} (h0 : X i k = 0) :
    ∃ a, jsDivergence true (real X) (real Y) = .ok a ∧ ∀ j, a i j = none := by
  have ox : sumsOk (real X) := fun i h => by rw [show nsum (real X i) = some (∑ k, X i k) from nsum_some _] at h; exact hx i (Option.some_inj.mp h)
  have oy : sumsOk (real Y) := fun i h => by rw [show nsum (real Y i) = some (∑ k, Y i k) from nsum_some _] at h; exact hy i (Option.some_inj.mp h)
  refine ⟨_, by unfold jsDivergence; rw [if_pos ⟨ox, oy⟩, if_pos rfl], fun j => ?_⟩
  rw [normalizeRows_real X hx]
  unfold js0
  dsimp only
  have : nsum (fun k => nmul (real (fun i k => X i k / ∑ k, X i k) i k) (nlog (real (fun i k => X i k / ∑ k, X i k) i k))) = none := by
    apply nsum_none (k := k)
    show nmul _ (nlog (some (X i k / ∑ k, X i k))) = none
    rw [h0, zero_div, nlog_nonpos le_rfl]
    rfl
  rw [this]
  rfl

/-- C45, Hellinger: on rows of entries which are not negative with a positive sum. -/
theorem C45_hellinger {n m d : Nat} {X : Fin n → Fin d → ℝ} {Y : Fin m → Fin d → ℝ} (hx : ∀ i k, 0 ≤ X i k) (hy : ∀ j k, 0 ≤ Y j k) (sx : ∀ i, 0 < ∑ k, X i k) (sy : ∀ j, 0 < ∑ k, Y j k) :
    ∃ D : Fin n → Fin m → ℝ, hellingerDistance (real X) (real Y) = .ok (real D) ∧ (∀ i j, 0 ≤ D i j ∧ D i j ≤ 1 ∧ (D i j = 0 ↔ Spec.Proportional (X i) (Y j))) ∧
      hellingerDistance (real Y) (real X) = .ok (real (fun j i => D i j)) := by
  have ox : sumsOk (real X) := fun i h => by rw [show nsum (real X i) = some (∑ k, X i k) from nsum_some _] at h; exact (sx i).ne' (Option.some_inj.mp h)
  have oy : sumsOk (real Y) := fun i h => by rw [show nsum (real Y i) = some (∑ k, Y i k) from nsum_some _] at h; exact (sy i).ne' (Option.some_inj.mp h)
  have px : ∀ i k, 0 ≤ X i k / ∑ k, X i k := fun i k => div_nonneg (hx i k) (sx i).le
  have py : ∀ i k, 0 ≤ Y i k / ∑ k, Y i k := fun i k => div_nonneg (hy i k) (sy i).le
  unfold hellingerDistance
  rw [if_pos ⟨ox, oy⟩, if_pos ⟨oy, ox⟩, normalizeRows_real X (fun i => (sx i).ne'), normalizeRows_real Y (fun i => (sy i).ne'), hellinger0_real px py, hellinger0_real py px]
  refine ⟨_, rfl, fun i j => ⟨hell_nonneg _ _, hell_le_one (px i) (py j) (sum_normalized (sx i).ne') (sum_normalized (sy j).ne'), ?_⟩, ?_⟩
  · rw [hell_eq_zero (px i) (py j), normalized_eq (sx i) (sy j)]
  · congr 2
    funext j i
    exact hell_symm _ _

/-! ### C46 -/

section
variable {ι : Type} [DecidableEq ι] {len : ι → Nat} {d : Nat}

theorem inPlace_get (mem : Mem len d) (i j : ι) : inPlace mem i j = if j = i then normalizeRows (mem j) else mem j := by
  unfold inPlace
  split
  · rename_i h
    subst h
    rw [Function.update_self]
  · rename_i h
    rw [Function.update_of_ne h]

theorem inPlace2_get (mem : Mem len d) (a x j : ι) : inPlace (inPlace mem a) x j = if j = a ∨ j = x then normalizeRows (mem j) else mem j := by
  rw [inPlace_get, inPlace_get]
  by_cases h2 : j = a
  · rw [if_pos h2, if_pos (show j = a ∨ j = x from .inl h2), normalizeRows_idem]
    split <;> rfl
  · rw [if_neg h2]
    by_cases h1 : j = x
    · rw [if_pos h1, if_pos (.inr h1)]
    · rw [if_neg h1, if_neg (fun h => h.elim h2 h1)]

theorem sumsOk_norm {n : Nat} {x : Mat n d} (h : sumsOk x) : sumsOk (normalizeRows x) := by
  intro i h0
  by_cases hn : ∃ k, x i k = none
  · obtain ⟨l, hl⟩ := hn
    have : normalizeRows x i l = none := by unfold normalizeRows; rw [hl, none_ndiv]
    rw [nsum_none this] at h0
    cases h0
  · have hs : ∀ k, ∃ v, x i k = some v := fun k => Option.ne_none_iff_exists'.mp (fun h => hn ⟨k, h⟩)
    choose f hf using hs
    have hsum : nsum (x i) = some (∑ k, f k) := nsum_eq hf
    have hne : ∑ k, f k ≠ 0 := fun e => h i (by rw [hsum, e])
    have hall : ∀ k, normalizeRows x i k = some (f k / ∑ k, f k) := by
      intro k
      unfold normalizeRows
      rw [hsum, hf, ndiv_some _ hne]
    rw [nsum_eq hall, sum_normalized hne] at h0
    exact one_ne_zero (Option.some_inj.mp h0)

/-- the check made by a metric -/
def Checked (M : Metric) {n : Nat} (x : Mat n d) : Prop := match M with | .js | .sqrtJs | .hellinger => sumsOk x | _ => True

theorem checked_norm {M : Metric} {n : Nat} {x : Mat n d} (h : Checked M x) : Checked M (normalizeRows x) := by
  unfold Checked at *
  cases M <;> first | trivial | exact sumsOk_norm h

/-- what the memory can be after some calls: every item as at first, or normalized; for the metrics which check the sums, only if they passed the check -/
def Inv (M : Metric) (mem0 mem : Mem len d) : Prop :=
  ∀ i, mem i = mem0 i ∨ mem i = normalizeRows (mem0 i) ∧ Checked M (mem0 i)

omit [DecidableEq ι] in
theorem Inv.norm {M : Metric} {mem0 mem : Mem len d} (h : Inv M mem0 mem) (i : ι) : normalizeRows (mem i) = normalizeRows (mem0 i) := by
  rcases h i with h | ⟨h, -⟩
  · rw [h]
  · rw [h, normalizeRows_idem]

theorem Inv.call {M : Metric} {mem0 mem : Mem len d} (h : Inv M mem0 mem) (a x : ι) : Inv M mem0 (call M mem a x).1 ∧ (call M mem a x).2 = (call M mem0 a x).2 := by
  have ea : ∀ mem : Mem len d, inPlace (inPlace mem a) x a = normalizeRows (mem a) := fun mem => by rw [inPlace2_get, if_pos (.inl rfl)]
  have ex : ∀ mem : Mem len d, inPlace (inPlace mem a) x x = normalizeRows (mem x) := fun mem => by rw [inPlace2_get, if_pos (.inr rfl)]
  have hres : inPlace (inPlace mem a) x a = inPlace (inPlace mem0 a) x a ∧ inPlace (inPlace mem a) x x = inPlace (inPlace mem0 a) x x := by
    rw [ea, ea, ex, ex, h.norm, h.norm]
    exact ⟨rfl, rfl⟩
  have hstep : (∀ i, i = a ∨ i = x → Checked M (mem0 i)) → Inv M mem0 (inPlace (inPlace mem a) x) := by
    intro hc i
    rw [inPlace2_get]
    by_cases hi : i = a ∨ i = x
    · rw [if_pos hi, h.norm]
      exact .inr ⟨rfl, hc i hi⟩
    · rw [if_neg hi]
      exact h i
  have hsums : ∀ i, Checked M (mem i) ↔ Checked M (mem0 i) := by
    intro i
    rcases h i with h | ⟨h, h2⟩
    · rw [h]
    · rw [h]
      exact ⟨fun _ => h2, fun h => checked_norm h⟩
  unfold ABX.Metrics.call
  cases M with
  | kl eps th sym =>
    dsimp only
    refine ⟨hstep (fun _ _ => trivial), ?_⟩
    rw [hres.1, hres.2]
  | normalizeCosine =>
    dsimp only
    refine ⟨hstep (fun _ _ => trivial), ?_⟩
    rw [hres.1, hres.2]
  | js =>
    dsimp only [Checked] at hsums hstep ⊢
    by_cases hs : sumsOk (mem0 a) ∧ sumsOk (mem0 x)
    · have hs' : sumsOk (mem a) ∧ sumsOk (mem x) := ⟨(hsums a).mpr hs.1, (hsums x).mpr hs.2⟩
      rw [if_pos hs, if_pos hs', hres.1, hres.2]
      exact ⟨hstep (fun i hi => hi.elim (fun e => e ▸ hs.1) (fun e => e ▸ hs.2)), rfl⟩
    · have hs' : ¬ (sumsOk (mem a) ∧ sumsOk (mem x)) := fun hh => hs ⟨(hsums a).mp hh.1, (hsums x).mp hh.2⟩
      rw [if_neg hs, if_neg hs']
      exact ⟨h, rfl⟩
  | sqrtJs =>
    dsimp only [Checked] at hsums hstep ⊢
    by_cases hs : sumsOk (mem0 a) ∧ sumsOk (mem0 x)
    · have hs' : sumsOk (mem a) ∧ sumsOk (mem x) := ⟨(hsums a).mpr hs.1, (hsums x).mpr hs.2⟩
      rw [if_pos hs, if_pos hs', hres.1, hres.2]
      exact ⟨hstep (fun i hi => hi.elim (fun e => e ▸ hs.1) (fun e => e ▸ hs.2)), rfl⟩
    · have hs' : ¬ (sumsOk (mem a) ∧ sumsOk (mem x)) := fun hh => hs ⟨(hsums a).mp hh.1, (hsums x).mp hh.2⟩
      rw [if_neg hs, if_neg hs']
      exact ⟨h, rfl⟩
  | hellinger =>
    dsimp only [Checked] at hsums hstep ⊢
    by_cases hs : sumsOk (mem0 a) ∧ sumsOk (mem0 x)
    · have hs' : sumsOk (mem a) ∧ sumsOk (mem x) := ⟨(hsums a).mpr hs.1, (hsums x).mpr hs.2⟩
      rw [if_pos hs, if_pos hs', hres.1, hres.2]
      exact ⟨hstep (fun i hi => hi.elim (fun e => e ▸ hs.1) (fun e => e ▸ hs.2)), rfl⟩
    · have hs' : ¬ (sumsOk (mem a) ∧ sumsOk (mem x)) := fun hh => hs ⟨(hsums a).mp hh.1, (hsums x).mp hh.2⟩
      rw [if_neg hs, if_neg hs']
      exact ⟨h, rfl⟩

theorem after_inv {M : Metric} {mem0 : Mem len d} : ∀ (ps : List (ι × ι)) (mem : Mem len d), Inv M mem0 mem → Inv M mem0 (after M mem ps)
  | [], _, h => h
  | p :: ps, _, h => after_inv ps _ (h.call p.1 p.2).1

/-- C46 (exact arithmetic): whatever distances were computed before, the distance of two items is the one computed from the features as they were read. -/
theorem C46_history_partial (M : Metric) (mem : Mem len d) (history : List (ι × ι)) (a x : ι) : (call M (after M mem history) a x).2 = (call M mem a x).2 :=
  ((after_inv history mem (fun _ => .inl rfl)).call a x).2

/-- ... which is the result of the metric on fresh arrays. -/
theorem C46_fresh (mem : Mem len d) (a x : ι) :
    (∀ eps th sym, (call (.kl eps th sym) mem a x).2 = .ok (klDivergence eps th sym true (mem a) (mem x))) ∧ (call .js mem a x).2 = jsDivergence true (mem a) (mem x) ∧
      (call .sqrtJs mem a x).2 = sqrtJsDivergence (mem a) (mem x) ∧ (call .hellinger mem a x).2 = hellingerDistance (mem a) (mem x) ∧
      (call .normalizeCosine mem a x).2 = normalizeCosineDistance (mem a) (mem x) := by
  have ea : inPlace (inPlace mem a) x a = normalizeRows (mem a) := by rw [inPlace2_get, if_pos (.inl rfl)]
  have ex : inPlace (inPlace mem a) x x = normalizeRows (mem x) := by rw [inPlace2_get, if_pos (.inr rfl)]
  refine ⟨?_, ?_, ?_, ?_, ?_⟩
  · intro eps th sym
    unfold call klDivergence klPrepare
    dsimp only
    rw [ea, ex, Bool.or_true]
    simp only [if_true]
  · unfold call jsDivergence
    dsimp only
    rw [ea, ex]
    split <;> rfl
  · unfold call sqrtJsDivergence jsDivergence
    dsimp only
    rw [ea, ex]
    split <;> rfl
  · unfold call hellingerDistance
    dsimp only
    rw [ea, ex]
    split <;> rfl
  · unfold call normalizeCosineDistance
    dsimp only
    rw [ea, ex]

end

/-- the same normalization of a row in float64 (fewer than 8 columns: the sum is from left to right) -/
def fnormalize (row : List ℚ) : List ℚ :=
  let s := row.foldl (fun s v => F64.rnd (s + v)) 0
  row.map (fun v => F64.rnd (v / s))

/-- C46 is false in float64: normalizing the row (1, 4, 1) once and twice gives different rows, thus a distance computed later is a distance of other frames. -/
theorem C46_violated_float : fnormalize (fnormalize [1, 4, 1]) ≠ fnormalize [1, 4, 1] := by decide +kernel

/-! ### examples -/

/-- C44, example: a right angle, in dimension 2, between frames which are not null -/
example : ∃ D : Fin 1 → Fin 1 → ℝ, cosineDistance (real (fun (_ : Fin 1) => ![1, 0])) (real (fun (_ : Fin 1) => ![0, 2])) = .ok (real D) ∧ D 0 0 = 1 / 2 := by
  obtain ⟨D, h, -, hD⟩ := C44_cosine (fun (_ : Fin 1) => (![1, 0] : Fin 2 → ℝ)) (fun (_ : Fin 1) => ![0, 2])
  refine ⟨D, h, ?_⟩
  obtain ⟨-, -, h1, -⟩ := hD 0 0
  rw [h1 ⟨0, by simp⟩ ⟨1, by simp⟩, InnerProductGeometry.inner_eq_zero_iff_angle_eq_pi_div_two _ _ |>.mp]
  · field_simp
  · simp [PiLp.inner_apply]

/-- C45, example: the hypotheses hold for (1, 0) with thresholding and for (1, 3) without -/
example : Spec.Row true (![1, 0] : Fin 2 → ℝ) ∧ Spec.Row false (![1, 3] : Fin 2 → ℝ) := by
  constructor
  · exact ⟨by simp, fun k => by fin_cases k <;> simp⟩
  · exact ⟨by simp; norm_num, fun k => by fin_cases k <;> simp⟩

#print axioms C44_cosine
#print axioms C44_scaling
#print axioms C44_zero
#print axioms C44_normalize
#print axioms C44_normalize_null
#print axioms C45_kl
#print axioms C45_js
#print axioms C45_js_null_entry
#print axioms C45_hellinger
#print axioms C46_history_partial
#print axioms C46_fresh
#print axioms C46_violated_float

end ABX.Metrics
