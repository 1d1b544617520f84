import Verif.Proofs.ScoreOrder
import Verif.Properties.ChanceTask
/-!
C108: what the scores of the results say of the comparisons, exactly, in spite of the rounding to float64.
-/
namespace ABX.Pipeline
open ExtSort ABX.Task Pairs SideOps Sampler Distances Score EndToEnd Analyze F64 ABX.Spec
variable {ρ φ δ ι : Type}

/-- C108: the rounding keeps the order of the scores, for any numbers of triplets. -/
theorem C108_monotone {r w n r' w' n' : Nat} (h0 : 0 < n) (h0' : 0 < n') (h : exactScore r w n ≤ exactScore r' w' n') : floatScore r w n ≤ floatScore r' w' n' := floatScore_mono h0 h0' h

/-- C108: of two rows whose numbers of triplets have a product below 2^50, one has the lower score exactly when it has the lower exact score. -/
theorem C108_strict {r w n r' w' n' : Nat} (h0 : 0 < n) (h0' : 0 < n') (hrw : r + w ≤ n) (hrw' : r' + w' ≤ n') (hn : n * n' < 2 ^ 50) :
    floatScore r w n < floatScore r' w' n' ↔ exactScore r w n < exactScore r' w' n' := floatScore_strict h0 h0' hrw hrw' hn

/-- C108: the bound cannot be left out: one right triplet of 2^27, and one of 2^27 + 1, the others being neither right nor wrong, have the same score. -/
theorem C108_not_strict : floatScore 1 0 (2 ^ 27) = floatScore 1 0 (2 ^ 27 + 1) ∧ exactScore 1 0 (2 ^ 27 + 1) < exactScore 1 0 (2 ^ 27) := by
  decide +kernel

/-- C108: nor can the bound of 2^52 triplets in the results be much higher: with one right triplet of 2^53, the others being neither right nor wrong, the score is 1/2. -/
theorem C108_violated_large : ¬ Says (floatScore 1 0 (2 ^ 53)) 1 0 (2 ^ 53) := by
  intro h
  have : floatScore 1 0 (2 ^ 53) = 1 / 2 := by decide +kernel
  exact absurd (h.half.mp this) (by omega)

section
variable {e : Env} (he : e.Lawful) {a : Args ρ} (ha : a.OK) (hf : Spec'.KeptFirst a) {T : Task.Task ρ} (h : init e a = .ok T)
    (hpos : ∀ (i : Nat) (p : Nat × Row), a.db[i]? = some p → p.1 = i) (hfeat : a.feat.length = a.db.length)
    (hA : ∀ f ∈ a.regressors, Spec.readsA a.cols f = false) {idx : DBFun Nat → List Val}
    (hidx : ∀ f ∈ allRegs e a, 0 < (idx f).length ∧ ∀ L ∈ T.levels, ∀ t ∈ tripsSpec a L.key, Spec.regValue a.cols f t < (idx f).length) (hnd : ∀ f ∈ allRegs e a, (idx f).Nodup)
    (hc : ((allRegs e a).map (fun f => (idx f).length)).prod ≤ 2 ^ 53) (hz : Sizes a T) {threshold : Nat}
    (hG : ∀ L ∈ T.levels, GroupFit threshold a.cols a.on a.across (allRegs e a) (tripsSpec a L.key)) {N : Num} (hE : N.Exact) {src : List Val → List Val → Nat → Src}
    {lt : δ → δ → Bool} (hlt : ∀ x y, lt x y = true → lt y x = false) {c : ι → Choices} (hl : ∀ i, (c i).Lawful) (hN : ∀ i, (c i).num = N) (hsrc : ∀ i, (c i).src = src)
    {getFeat : ι → ρ → Except Err φ} {distance : ι → φ → φ → Except Err δ} {F : ι → File} {S : ι → List Int} (hr : ∀ i, RanT threshold (c i) e T (getFeat i) (distance i) lt (F i) (S i))
    {rows : ι → List OutRow} (hrows : ∀ i, collapse (c i).sortRows ((colRegs T.regressors).map idx) (F i) (S i) = .ok (rows i))

include he ha hf h hpos hfeat hA hidx hnd hc hz hG hE hlt hl hN hsrc hr hrows

/-- C108: the score of a row, from the numbers of right and wrong triplets.  `Q` are the triplets of the row: triplets of the level with the labels of the row, without threshold all of them.  The score is that of `floatScore`; it is 1 exactly when all the triplets
are right, 0 exactly when all are wrong, 1/2 exactly when as many are right as wrong, and above 1/2 exactly when more are right.  In the other runs of the task with the same random numbers, with any distances, the row with the same labels has the same triplets.
Missing: regressors of A, and the cases excluded in C08 and C77. -/
theorem C108_says_partial {i : ι} {o : OutRow} (ho : o ∈ rows i) : ∃ (Q : List Tri) (t : Tri), t ∈ Q ∧ Q.Nodup ∧ o.n = Q.length ∧
    (∀ u ∈ Q, u ∈ tripsSpec a o.by_ ∧ (colRegs T.regressors).map (fun f => Spec.regValue a.cols f u) = (colRegs T.regressors).map (fun f => Spec.regValue a.cols f t)) ∧
    Spec.IsLabels ((colRegs T.regressors).map idx) ((colRegs T.regressors).map (fun f => Spec.regValue a.cols f t)) o.labels ∧
    (threshold = 0 → Q.Perm ((tripsSpec a o.by_).filter (fun u => (colRegs T.regressors).map (fun f => Spec.regValue a.cols f u) == (colRegs T.regressors).map (fun f => Spec.regValue a.cols f t)))) ∧
    ∀ j, (∃ o' ∈ rows j, o'.labels = o.labels ∧ o'.by_ = o.by_) ∧ ∀ o' ∈ rows j, o'.labels = o.labels → o'.by_ = o.by_ →
      o'.n = o.n ∧
      o'.score = floatScore (rightCount lt (Spec.recDist (getFeat j) (distance j)) (Spec.records a.by_ (a.db.map (·.2)) a.feat (specKey a o.by_)) Q)
        (wrongCount lt (Spec.recDist (getFeat j) (distance j)) (Spec.records a.by_ (a.db.map (·.2)) a.feat (specKey a o.by_)) Q) o.n ∧
      rightCount lt (Spec.recDist (getFeat j) (distance j)) (Spec.records a.by_ (a.db.map (·.2)) a.feat (specKey a o.by_)) Q + wrongCount lt (Spec.recDist (getFeat j) (distance j)) (Spec.records a.by_ (a.db.map (·.2)) a.feat (specKey a o.by_)) Q ≤ o.n ∧
      Says o'.score (rightCount lt (Spec.recDist (getFeat j) (distance j)) (Spec.records a.by_ (a.db.map (·.2)) a.feat (specKey a o.by_)) Q)
        (wrongCount lt (Spec.recDist (getFeat j) (distance j)) (Spec.records a.by_ (a.db.map (·.2)) a.feat (specKey a o.by_)) Q) o.n := by
  obtain ⟨Q, q1, q2, ⟨n1, n2, t, ht, n3, n4, n5⟩, q3, q4⟩ := same_triplets he ha hf h hpos hfeat hA hidx hnd hc hz hG hE hlt hl hN hsrc hr hrows ho
  obtain ⟨-, -, hn, -⟩ := q4 i o ho rfl rfl
  refine ⟨Q, t, ht, n1, hn, fun u hu => ⟨q2 u hu, n4 u hu⟩, n3, n5, fun j => ⟨?_, fun o' ho' e1 e2 => ?_⟩⟩
  · obtain ⟨o', r1, r2, r3, -⟩ := q3 j
    exact ⟨o', r1, r2, r3⟩
  obtain ⟨abx, b1, b2, -, b3⟩ := q4 j o' ho' e1 e2
  obtain ⟨s1, s2⟩ := sum_counts hlt b1
  rw [s1] at b3
  refine ⟨b2.trans hn.symm, ?_, by rw [hn]; exact s2, ?_⟩
  · rw [b3, hn]
    rfl
  · have h0 : 0 < Q.length := List.length_pos_of_mem ht
    have := fscore_says h0 n2 s2
    rw [← floatScore_eq] at this
    rw [hn, show o'.score = floatScore _ _ Q.length from b3]
    exact this

/-- C108: if in no triplet of the level X is nearer to one of A and B than to the other (for instance when all distances are equal), the scores of the level are exactly 1/2; if in all triplets X is nearer to A, they are exactly 1; if in all it is nearer to B, exactly 0.
Missing: as in `C108_says_partial`. -/
theorem C108_extremes_partial {i : ι} {o : OutRow} (ho : o ∈ rows i) :
    ((∀ t ∈ tripsSpec a o.by_, ¬ nearerAt lt (Spec.recDist (getFeat i) (distance i)) (Spec.records a.by_ (a.db.map (·.2)) a.feat (specKey a o.by_)) t.1.1 t.2.1.1 t.2.2.1 ∧ ¬ nearerAt lt (Spec.recDist (getFeat i) (distance i)) (Spec.records a.by_ (a.db.map (·.2)) a.feat (specKey a o.by_)) t.2.1.1 t.1.1 t.2.2.1) → o.score = 1 / 2) ∧
    ((∀ t ∈ tripsSpec a o.by_, nearerAt lt (Spec.recDist (getFeat i) (distance i)) (Spec.records a.by_ (a.db.map (·.2)) a.feat (specKey a o.by_)) t.1.1 t.2.1.1 t.2.2.1) → o.score = 1) ∧
    ((∀ t ∈ tripsSpec a o.by_, nearerAt lt (Spec.recDist (getFeat i) (distance i)) (Spec.records a.by_ (a.db.map (·.2)) a.feat (specKey a o.by_)) t.2.1.1 t.1.1 t.2.2.1) → o.score = 0) := by
  classical
  obtain ⟨Q, t, ht, -, hn, hQ, -, -, hj⟩ := C108_says_partial he ha hf h hpos hfeat hA hidx hnd hc hz hG hE hlt hl hN hsrc hr hrows ho
  obtain ⟨-, -, -, sy⟩ := (hj i).2 o ho rfl rfl
  refine ⟨fun hd => sy.half.mpr ?_, fun hd => sy.one.mpr ?_, fun hd => sy.zero.mpr ?_⟩
  · have r : rightCount lt (Spec.recDist (getFeat i) (distance i)) (Spec.records a.by_ (a.db.map (·.2)) a.feat (specKey a o.by_)) Q = 0 := List.countP_eq_zero.mpr fun u hu => by simpa using (hd u (hQ u hu).1).1
    have w : wrongCount lt (Spec.recDist (getFeat i) (distance i)) (Spec.records a.by_ (a.db.map (·.2)) a.feat (specKey a o.by_)) Q = 0 := List.countP_eq_zero.mpr fun u hu => by simpa using (hd u (hQ u hu).1).2
    rw [r, w]
  · rw [hn]
    exact List.countP_eq_length.mpr fun u hu => by simpa using hd u (hQ u hu).1
  · rw [hn]
    exact List.countP_eq_length.mpr fun u hu => by simpa using hd u (hQ u hu).1

/-- C108: better distances never have lower scores: if, in two runs of the same task, each comparison of three items of a level that is right in the one is right in the other, and each that is wrong in the other is wrong in the one, then no row of the level has a
higher score in the one.  There is no tolerance for rounding.  Missing: as in `C108_says_partial`. -/
theorem C108_better_partial {i j : ι} {o : OutRow} (ho : o ∈ rows i)
    (hd : ∀ p q x, p ≠ q → x ≠ p → x ≠ q → nearerAt lt (Spec.recDist (getFeat i) (distance i)) (Spec.records a.by_ (a.db.map (·.2)) a.feat (specKey a o.by_)) p q x →
      (∃ t ∈ tripsSpec a o.by_, t.1.1 = p ∧ t.2.1.1 = q ∧ t.2.2.1 = x) → nearerAt lt (Spec.recDist (getFeat j) (distance j)) (Spec.records a.by_ (a.db.map (·.2)) a.feat (specKey a o.by_)) p q x)
    (hd' : ∀ p q x, p ≠ q → x ≠ p → x ≠ q → nearerAt lt (Spec.recDist (getFeat j) (distance j)) (Spec.records a.by_ (a.db.map (·.2)) a.feat (specKey a o.by_)) q p x →
      (∃ t ∈ tripsSpec a o.by_, t.1.1 = p ∧ t.2.1.1 = q ∧ t.2.2.1 = x) → nearerAt lt (Spec.recDist (getFeat i) (distance i)) (Spec.records a.by_ (a.db.map (·.2)) a.feat (specKey a o.by_)) q p x) :
    (∃ o' ∈ rows j, o'.labels = o.labels ∧ o'.by_ = o.by_ ∧ o'.n = o.n) ∧ ∀ o' ∈ rows j, o'.labels = o.labels → o'.by_ = o.by_ → o.score ≤ o'.score := by
  classical
  obtain ⟨Q, t, ht, -, hn, hQ, -, -, hj⟩ := C108_says_partial he ha hf h hpos hfeat hA hidx hnd hc hz hG hE hlt hl hN hsrc hr hrows ho
  refine ⟨?_, fun o' ho' e1 e2 => ?_⟩
  · obtain ⟨o', r1, r2, r3⟩ := (hj j).1
    exact ⟨o', r1, r2, r3, ((hj j).2 o' r1 r2 r3).1⟩
  obtain ⟨-, s1, -⟩ := (hj i).2 o ho rfl rfl
  obtain ⟨-, s2, -⟩ := (hj j).2 o' ho' e1 e2
  have h0 : 0 < o.n := by rw [hn]; exact List.length_pos_of_mem ht
  rw [s1, s2]
  apply floatScore_mono h0 h0
  rw [exactScore_eq h0, exactScore_eq h0]
  have r : rightCount lt (Spec.recDist (getFeat i) (distance i)) (Spec.records a.by_ (a.db.map (·.2)) a.feat (specKey a o.by_)) Q ≤ rightCount lt (Spec.recDist (getFeat j) (distance j)) (Spec.records a.by_ (a.db.map (·.2)) a.feat (specKey a o.by_)) Q := by
    unfold rightCount
    refine List.countP_mono_left fun u hu hu' => ?_
    obtain ⟨d1, d2, d3⟩ := legal_positions (hQ u hu).1
    simp only [decide_eq_true_eq] at hu' ⊢
    exact hd _ _ _ d1 d2 d3 hu' ⟨u, (hQ u hu).1, rfl, rfl, rfl⟩
  have w : wrongCount lt (Spec.recDist (getFeat j) (distance j)) (Spec.records a.by_ (a.db.map (·.2)) a.feat (specKey a o.by_)) Q ≤ wrongCount lt (Spec.recDist (getFeat i) (distance i)) (Spec.records a.by_ (a.db.map (·.2)) a.feat (specKey a o.by_)) Q := by
    unfold wrongCount
    refine List.countP_mono_left fun u hu hu' => ?_
    obtain ⟨d1, d2, d3⟩ := legal_positions (hQ u hu).1
    simp only [decide_eq_true_eq] at hu' ⊢
    exact hd' _ _ _ d1 d2 d3 hu' ⟨u, (hQ u hu).1, rfl, rfl, rfl⟩
  have hq : (((rightCount lt (Spec.recDist (getFeat i) (distance i)) (Spec.records a.by_ (a.db.map (·.2)) a.feat (specKey a o.by_)) Q : ℤ) - wrongCount lt (Spec.recDist (getFeat i) (distance i)) (Spec.records a.by_ (a.db.map (·.2)) a.feat (specKey a o.by_)) Q : ℤ) : ℚ) ≤
      (((rightCount lt (Spec.recDist (getFeat j) (distance j)) (Spec.records a.by_ (a.db.map (·.2)) a.feat (specKey a o.by_)) Q : ℤ) - wrongCount lt (Spec.recDist (getFeat j) (distance j)) (Spec.records a.by_ (a.db.map (·.2)) a.feat (specKey a o.by_)) Q : ℤ) : ℚ) := by
    have r' : (rightCount lt (Spec.recDist (getFeat i) (distance i)) (Spec.records a.by_ (a.db.map (·.2)) a.feat (specKey a o.by_)) Q : ℚ) ≤ rightCount lt (Spec.recDist (getFeat j) (distance j)) (Spec.records a.by_ (a.db.map (·.2)) a.feat (specKey a o.by_)) Q := by exact_mod_cast r
    have w' : (wrongCount lt (Spec.recDist (getFeat j) (distance j)) (Spec.records a.by_ (a.db.map (·.2)) a.feat (specKey a o.by_)) Q : ℚ) ≤ wrongCount lt (Spec.recDist (getFeat i) (distance i)) (Spec.records a.by_ (a.db.map (·.2)) a.feat (specKey a o.by_)) Q := by exact_mod_cast w
    push_cast
    linarith
  have := div_le_div_of_nonneg_right hq (Nat.cast_nonneg (α := ℚ) o.n)
  linarith

/-- C108: the results depend on the distances only through the comparisons: if the comparisons of three items of a level are the same in two runs, then the two results have the same rows, with the same scores to the last bit.  Missing: as in `C108_says_partial`. -/
theorem C108_same_partial {i j : ι} (hd : ∀ key p q x, p ≠ q → x ≠ p → x ≠ q → (nearerAt lt (Spec.recDist (getFeat i) (distance i)) (Spec.records a.by_ (a.db.map (·.2)) a.feat (specKey a key)) p q x ↔
      nearerAt lt (Spec.recDist (getFeat j) (distance j)) (Spec.records a.by_ (a.db.map (·.2)) a.feat (specKey a key)) p q x)) (o : OutRow) : o ∈ rows i ↔ o ∈ rows j := by
  have key : ∀ i j, (∀ key p q x, p ≠ q → x ≠ p → x ≠ q → (nearerAt lt (Spec.recDist (getFeat i) (distance i)) (Spec.records a.by_ (a.db.map (·.2)) a.feat (specKey a key)) p q x ↔
      nearerAt lt (Spec.recDist (getFeat j) (distance j)) (Spec.records a.by_ (a.db.map (·.2)) a.feat (specKey a key)) p q x)) → o ∈ rows i → o ∈ rows j := by
    intro i j hd ho
    obtain ⟨⟨o', r1, r2, r3, r4⟩, r5⟩ := C108_better_partial he ha hf h hpos hfeat hA hidx hnd hc hz hG hE hlt hl hN hsrc hr hrows (i := i) (j := j) ho (fun p q x d1 d2 d3 hp _ => (hd _ p q x d1 d2 d3).mp hp)
      (fun p q x d1 d2 d3 hp _ => (hd _ q p x d1.symm d3 d2).mpr hp)
    have le1 := r5 o' r1 r2 r3
    obtain ⟨-, r6⟩ := C108_better_partial he ha hf h hpos hfeat hA hidx hnd hc hz hG hE hlt hl hN hsrc hr hrows (i := j) (j := i) r1 (fun p q x d1 d2 d3 hp _ => (hd _ p q x d1 d2 d3).mpr hp)
      (fun p q x d1 d2 d3 hp _ => (hd _ q p x d1.symm d3 d2).mp hp)
    have le2 := r6 o ho r2.symm r3.symm
    have : o' = o := by
      cases o
      cases o'
      simp only at r2 r3 r4 le1 le2
      subst r2; subst r3; subst r4
      rw [le_antisymm le1 le2]
    rw [← this]
    exact r1
  exact ⟨key i j hd, key j i fun k p q x d1 d2 d3 => (hd k p q x d1 d2 d3).symm⟩

/-- C108: an increasing function applied to the distances changes no result.  Missing: as in `C108_says_partial`. -/
theorem C108_increasing_partial {i j : ι} (g : δ → δ) (hg : ∀ x y, lt (g x) (g y) = lt x y) (hgf : getFeat j = getFeat i) (hgd : ∀ u v, distance j u v = (distance i u v).map g) (o : OutRow) : o ∈ rows i ↔ o ∈ rows j := by
  refine C108_same_partial he ha hf h hpos hfeat hA hidx hnd hc hz hG hE hlt hl hN hsrc hr hrows (fun key p q x _ _ _ => ?_) o
  have hrd : ∀ r r', Spec.recDist (getFeat j) (distance j) r r' = (Spec.recDist (getFeat i) (distance i) r r').map g := by
    intro r r'
    unfold Spec.recDist
    rw [hgf]
    cases getFeat i r with
    | error e => rfl
    | ok u => cases getFeat i r' with
      | error e => rfl
      | ok v => exact hgd u v
  constructor
  · rintro ⟨u, v, z, d, d', e1, e2, e3, e4, e5, e6⟩
    exact ⟨u, v, z, g d, g d', e1, e2, e3, by rw [hrd, e4]; rfl, by rw [hrd, e5]; rfl, by rw [hg]; exact e6⟩
  · rintro ⟨u, v, z, d, d', e1, e2, e3, e4, e5, e6⟩
    rw [hrd] at e4 e5
    cases k1 : Spec.recDist (getFeat i) (distance i) u z with
    | error e => rw [k1] at e4; cases e4
    | ok y => cases k2 : Spec.recDist (getFeat i) (distance i) v z with
      | error e => rw [k2] at e5; cases e5
      | ok y' =>
        rw [k1] at e4; rw [k2] at e5
        cases e4; cases e5
        exact ⟨u, v, z, y, y', e1, e2, e3, k1, k2, by rw [← hg]; exact e6⟩

end

/-! ### example -/

/-- C108, example: the task `ex2` with threshold 2, run with the distances `coinDist true` and with `3 d + 1` for each distance `d`, with other numbers of cpus and other buffers: the rows are the same, and each says how many of its triplets are right and wrong -/
example : ∃ (T : Task.Task Nat) (F : Bool → File) (S : Bool → List Int) (rows : Bool → List OutRow), init E0 ex2 = .ok T ∧
    (∀ b, RanT 2 (choices0 (if b then 2 else 3) (if b then 3 else 7)) E0 T (fun r => .ok r) (fun v w => .ok (if b then coinDist true v w else 3 * coinDist true v w + 1)) (fun x y => decide (x < y)) (F b) (S b)) ∧
    (∀ b, collapse insArgsort ((colRegs T.regressors).map (fun _ => labels0)) (F b) (S b) = .ok (rows b)) ∧ rows true ≠ [] ∧ (∀ o, o ∈ rows true ↔ o ∈ rows false) ∧
    ∀ o ∈ rows true, ∃ (r w : Nat), r + w ≤ o.n ∧ Says o.score r w o.n := by
  obtain ⟨T, F, S, rows, h1, hr, o1, hne⟩ := ex2_runs (fun b v w => if b then coinDist true v w else 3 * coinDist true v w + 1)
  have hlt : ∀ x y : Nat, decide (x < y) = true → decide (y < x) = false := by intro x y h; simp at h ⊢; omega
  have hidx : ∀ f ∈ allRegs E0 ex2, 0 < labels0.length ∧ ∀ L ∈ T.levels, ∀ t ∈ tripsSpec ex2 L.key,
      Spec.regValue ex2.cols f t < labels0.length := fun f hf => ⟨by decide, fun L hL t ht => ex2_regs h1 f hf L hL t ht⟩
  have hl : ∀ b : Bool, (choices0 (if b then 2 else 3) (if b then 3 else 7)).Lawful := fun b => choices0_lawful (by cases b <;> simp)
  refine ⟨T, F, S, rows, h1, hr, o1, hne, fun o => ?_, fun o ho => ?_⟩
  · exact C108_increasing_partial E0_lawful ex2_ok (.of_not_bare (by intro f hf; cases hf)) h1 ex2_pos (by decide +kernel) (by intro f hf; cases hf)
      (idx := fun _ => labels0) hidx (fun _ _ => by decide +kernel) (by decide +kernel) (ex2_sizes h1) (threshold := 2) (ex2_fit h1 2) N0_exact (src := fun _ _ _ => src0) hlt hl (fun _ => rfl) (fun _ => rfl) hr o1 (i := true) (j := false)
      (fun x => 3 * x + 1) (by intro x y; simp) rfl (by intro u v; rfl) o
  · obtain ⟨Q, t, -, -, hn, -, -, -, hj⟩ := C108_says_partial E0_lawful ex2_ok (.of_not_bare (by intro f hf; cases hf)) h1 ex2_pos (by decide +kernel) (by intro f hf; cases hf)
      (idx := fun _ => labels0) hidx (fun _ _ => by decide +kernel) (by decide +kernel) (ex2_sizes h1) (threshold := 2) (ex2_fit h1 2) N0_exact (src := fun _ _ _ => src0) hlt hl (fun _ => rfl) (fun _ => rfl) hr o1 (i := true) ho
    obtain ⟨-, -, s1, s2⟩ := (hj true).2 o ho rfl rfl
    exact ⟨_, _, s1, s2⟩

#print axioms C108_monotone
#print axioms C108_strict
#print axioms C108_not_strict
#print axioms C108_violated_large
#print axioms C108_says_partial
#print axioms C108_extremes_partial
#print axioms C108_better_partial
#print axioms C108_same_partial
#print axioms C108_increasing_partial

end ABX.Pipeline
