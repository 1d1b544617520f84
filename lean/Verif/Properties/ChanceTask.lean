import Verif.Proofs.ChanceTask
import Verif.Properties.Threshold
/-!
C107: distances without information score 1/2 in every task, with or without filters, regressors and threshold.
-/
namespace ABX.Pipeline
open ExtSort ABX.Task Pairs SideOps Sampler Distances Score EndToEnd Analyze F64 ABX.Spec
variable {ρ φ δ ι : Type}

section
variable {e : Env} (he : e.Lawful) {a : Args ρ} (ha : a.OK) (hf : Spec'.KeptFirst a) {T : Task.Task ρ} (h : init e a = .ok T)
    (hpos : ∀ (i : Nat) (p : Nat × Row), a.db[i]? = some p → p.1 = i) (hfeat : a.feat.length = a.db.length)
    (hA : ∀ f ∈ a.regressors, Spec.readsA a.cols f = false) {idx : DBFun Nat → List Val}
    (hidx : ∀ f ∈ allRegs e a, 0 < (idx f).length ∧ ∀ L ∈ T.levels, ∀ t ∈ tripsSpec a L.key, Spec.regValue a.cols f t < (idx f).length) (hnd : ∀ f ∈ allRegs e a, (idx f).Nodup)
    (hc : ((allRegs e a).map (fun f => (idx f).length)).prod ≤ 2 ^ 53) (hz : Sizes a T) {threshold : Nat}
    (hG : ∀ L ∈ T.levels, GroupFit threshold a.cols a.on a.across (allRegs e a) (tripsSpec a L.key)) {N : Num} (hE : N.Exact) {src : List Val → List Val → Nat → Src}
    {lt : δ → δ → Bool} (hlt : ∀ x y, lt x y = true → lt y x = false) {c : ι → Choices} (hl : ∀ i, (c i).Lawful) (hN : ∀ i, (c i).num = N) (hsrc : ∀ i, (c i).src = src)
    {getFeat : ι → ρ → Except Err φ} {distance : ι → φ → φ → Except Err δ} {F : ι → File} {S : ι → List Int} (hr : ∀ i, RanT threshold (c i) e T (getFeat i) (distance i) lt (F i) (S i))
    {rows : ι → List OutRow} (hrows : ∀ i, collapse (c i).sortRows ((colRegs T.regressors).map idx) (F i) (S i) = .ok (rows i))

include he ha hf h hpos hfeat hA hidx hnd hc hz hG hE hlt hl hN hsrc hr hrows

/-- runs that differ only in their distances: each row of one has a counterpart in the others, and their scores are the means of the scores of the same triplets -/
theorem same_triplets {i0 : ι} {o : OutRow} (ho : o ∈ rows i0) : ∃ Q : List Tri, Q ≠ [] ∧ (∀ t ∈ Q, t ∈ tripsSpec a o.by_) ∧
    (Q.Nodup ∧ Q.length ≤ 2 ^ 52 ∧ ∃ t ∈ Q, Spec.IsLabels ((colRegs T.regressors).map idx) ((colRegs T.regressors).map (fun f => Spec.regValue a.cols f t)) o.labels ∧
      (∀ u ∈ Q, (colRegs T.regressors).map (fun f => Spec.regValue a.cols f u) = (colRegs T.regressors).map (fun f => Spec.regValue a.cols f t)) ∧
      (threshold = 0 → Q.Perm ((tripsSpec a o.by_).filter (fun u => (colRegs T.regressors).map (fun f => Spec.regValue a.cols f u) == (colRegs T.regressors).map (fun f => Spec.regValue a.cols f t))))) ∧
    (∀ i, ∃ o' ∈ rows i, o'.labels = o.labels ∧ o'.by_ = o.by_ ∧ o'.n = Q.length) ∧
    ∀ i, ∀ o' ∈ rows i, o'.labels = o.labels → o'.by_ = o.by_ → ∃ abx : Tri → ℚ,
      (∀ t ∈ Q, Spec.IsAbx lt (Spec.recDist (getFeat i) (distance i)) (Spec.records a.by_ (a.db.map (·.2)) a.feat (specKey a o.by_)) t (abx t)) ∧ o'.n = Q.length ∧ |o'.score - (Q.map abx).sum / Q.length| ≤ 2 ^ (-52 : ℤ) ∧ o'.score = rnd (rnd ((Q.map (fun u => 2 * abx u - 1)).sum / Q.length) + 1) / 2 := by
  have hS : ∀ i, Small e T (F i) := fun i => small_ofT he ha hf h hz (hl i).num (by rw [hN i]; exact hE) hG (hl i).src (hl i).bl1 (hl i).bl2 (hr i).file
  obtain ⟨hreg, L, hL, hLk, Q, -, os, t, ht, q1, q0, qs, -, hos, htr, hlab, -⟩ := row_written he ha hf h hpos hfeat hA hidx hc hz (hl i0) hlt (hr i0) (hS i0) (hrows i0) ho
  rw [hN, hsrc] at hos
  have hnodup : Q.Nodup := (qs.fit (by rw [hN]; exact hE) (hG L hL)).1
  refine ⟨Q.filter (fun u => (colRegs T.regressors).map (fun f => Spec.regValue a.cols f u) == (colRegs T.regressors).map (fun f => Spec.regValue a.cols f t)), ?_, ?_, ⟨?_, ?_, t, List.mem_filter.mpr ⟨ht, by simp⟩, hlab, ?_, ?_⟩, ?_, ?_⟩
  · exact List.ne_nil_of_mem (List.mem_filter.mpr ⟨ht, by simp⟩)
  · intro u hu
    rw [← hLk]
    exact q1 u (List.mem_filter.mp hu).1
  · exact hnodup.filter _
  · refine (List.length_filter_le _ _).trans ?_
    have h1 := (hnodup.subperm q1).length_le
    have h2 : (tripsSpec a L.key).length ≤ (T.levels.map (fun L => (tripsSpec a L.key).length)).sum := List.le_sum_of_mem (List.mem_map_of_mem hL)
    exact h1.trans (h2.trans hz.trips)
  · intro u hu
    simpa using (List.mem_filter.mp hu).2
  · intro h0
    rw [← hLk]
    exact (q0 h0).filter _
  · intro i
    obtain ⟨o', r1, r2, r3, r4⟩ := row_exists he ha hf h hpos hfeat hA hidx hc hz (hl i) hlt (hr i) (hS i) (hrows i) hL q1 (by rw [hN, hsrc]; exact hos) htr ht
    exact ⟨o', r1, isLabels_unique (by rw [List.length_map]) r3 hlab, by rw [r2, hLk], r4⟩
  · intro i o' ho' hol hob
    obtain ⟨-, L', hL', hLk', Q', abx, os', t', ht', r1, -, -, r4, hos', htr', hlab', hsc'⟩ := row_written he ha hf h hpos hfeat hA hidx hc hz (hl i) hlt (hr i) (hS i) (hrows i) ho'
    have hLL : L' = L := List.inj_on_of_nodup_map (init_keys_nodup he ha h) hL' hL (by rw [hLk', hLk, hob])
    subst hLL
    rw [hN, hsrc, hos] at hos'
    cases hos'
    have hQQ : Q' = Q := written_unique r1 q1 (htr'.symm.trans htr)
    subst hQQ
    have hvv := isLabels_inj (fun f hf => hnd f (hreg.mem_iff.mp hf)) (fun f hf => (hidx f (hreg.mem_iff.mp hf)).2 L' hL' t' (r1 t' ht')) (fun f hf => (hidx f (hreg.mem_iff.mp hf)).2 L' hL' t (r1 t ht))
      (by rw [← hol]; exact hlab') hlab
    have hs := hsc' _ (.refl _)
    rw [hvv] at hs
    rw [← hLk]
    exact ⟨abx, fun u hu => r4 u (List.mem_filter.mp hu).1, hs⟩

/-- C107: experiments with the same task (any filters, any regressors except of A, any threshold with the same random numbers) and random distances: in the outcome `i`, of probability `w i`, the results are `rows i`.  If the distances carry no information on the
items of a level, each row of the level is in the results of every outcome, and the expectation of its score is 1/2, up to 2^-52.  The other choices of the runs may depend on the outcome in any way.
Missing: regressors of A, and the cases excluded in C08 and C77. -/
theorem C107_chance_partial [Fintype ι] {w : ι → ℚ} {i0 : ι} {o : OutRow} (ho : o ∈ rows i0)
    (U : NoInformation w lt (fun i => Spec.recDist (getFeat i) (distance i)) (Spec.records a.by_ (a.db.map (·.2)) a.feat (specKey a o.by_))) :
    (∀ i, ∃ o' ∈ rows i, o'.labels = o.labels ∧ o'.by_ = o.by_ ∧ o'.n = o.n) ∧
    ∀ o' : ι → OutRow, (∀ i, o' i ∈ rows i ∧ (o' i).labels = o.labels ∧ (o' i).by_ = o.by_) → |∑ i, w i * (o' i).score - 1 / 2| ≤ 2 ^ (-52 : ℤ) := by
  obtain ⟨Q, q1, q2, -, q3, q4⟩ := same_triplets he ha hf h hpos hfeat hA hidx hnd hc hz hG hE hlt hl hN hsrc hr hrows ho
  obtain ⟨-, -, hn, -⟩ := q4 i0 o ho rfl rfl
  refine ⟨fun i => by rw [hn]; exact q3 i, fun o' ho' => ?_⟩
  choose abx b1 b2 using fun i => q4 i (o' i) (ho' i).1 (ho' i).2.1 (ho' i).2.2
  refine expected_mean U.nonneg U.total q1 (abx := abx) (fun t ht => ?_) (fun i => (b2 i).2.1)
  obtain ⟨d1, d2, d3⟩ := legal_positions (q2 t ht)
  exact U.triplet hlt d1 d2 d3 (fun i => b1 i t ht)

/-- C107: if the comparisons of the distances of one run are the reverse of those of another run of the same task, then each row of the one is in the results of the other, and the two scores add up to 1, up to 2^-51.  Missing: as in `C107_chance_partial`. -/
theorem C107_reversed_partial {i j : ι} {o : OutRow} (ho : o ∈ rows i)
    (hd : ∀ p q x, p ≠ q → x ≠ p → x ≠ q → (nearerAt lt (Spec.recDist (getFeat j) (distance j)) (Spec.records a.by_ (a.db.map (·.2)) a.feat (specKey a o.by_)) p q x ↔
      nearerAt lt (Spec.recDist (getFeat i) (distance i)) (Spec.records a.by_ (a.db.map (·.2)) a.feat (specKey a o.by_)) q p x)) :
    (∃ o' ∈ rows j, o'.labels = o.labels ∧ o'.by_ = o.by_ ∧ o'.n = o.n) ∧ ∀ o' ∈ rows j, o'.labels = o.labels → o'.by_ = o.by_ → |o.score + o'.score - 1| ≤ 2 ^ (-51 : ℤ) := by
  classical
  obtain ⟨Q, q1, q2, -, q3, q4⟩ := same_triplets he ha hf h hpos hfeat hA hidx hnd hc hz hG hE hlt hl hN hsrc hr hrows ho
  obtain ⟨abx, a1, hn, b1, -⟩ := q4 i o ho rfl rfl
  refine ⟨by rw [hn]; exact q3 j, fun o' ho' e1 e2 => ?_⟩
  obtain ⟨abx', a2, -, b2, -⟩ := q4 j o' ho' e1 e2
  have hg : Q.map abx' = Q.map (fun t => 1 - abx t) := by
    apply List.map_congr_left
    intro t ht
    obtain ⟨d1, d2, d3⟩ := legal_positions (q2 t ht)
    rw [abx_nearerAt hlt (a1 t ht), abx_nearerAt hlt (a2 t ht), if_congr (hd _ _ _ d1 d2 d3) rfl rfl, if_congr (hd _ _ _ d1.symm d3 d2) rfl rfl]
    ring
  have hs : ∀ ts : List Tri, (ts.map (fun t => 1 - abx t)).sum = ts.length - (ts.map abx).sum := by
    intro ts
    induction ts with
    | nil => simp
    | cons t ts ih => rw [List.map_cons, List.sum_cons, ih, List.map_cons, List.sum_cons, List.length_cons]; push_cast; ring
  have hlen : (Q.length : ℚ) ≠ 0 := by exact_mod_cast (List.length_pos_iff.mpr q1).ne'
  rw [hg, hs, sub_div, div_self hlen] at b2
  rw [abs_le] at b1 b2 ⊢
  have e2 : (2 : ℚ) ^ (-51 : ℤ) = 2 * 2 ^ (-52 : ℤ) := by norm_num
  rw [e2]
  generalize (2 : ℚ) ^ (-52 : ℤ) = ε at b1 b2 ⊢
  generalize (List.map abx _).sum / (Q.length : ℚ) = q at b1 b2
  constructor <;> linarith [b1.1, b1.2, b2.1, b2.2]

end

/-- C107: if the features are shuffled between the items of a level, all permutations being equally likely, every row of the level has the expected score 1/2, up to 2^-52.  Missing: as in `C107_chance_partial`. -/
theorem C107_shuffled_partial {e : Env} (he : e.Lawful) {a : Args ρ} (ha : a.OK) (hf : Spec'.KeptFirst a) {T : Task.Task ρ} (h : init e a = .ok T)
    (hpos : ∀ (i : Nat) (p : Nat × Row), a.db[i]? = some p → p.1 = i) (hfeat : a.feat.length = a.db.length)
    (hA : ∀ f ∈ a.regressors, Spec.readsA a.cols f = false) {idx : DBFun Nat → List Val}
    (hidx : ∀ f ∈ allRegs e a, 0 < (idx f).length ∧ ∀ L ∈ T.levels, ∀ t ∈ tripsSpec a L.key, Spec.regValue a.cols f t < (idx f).length) (hnd : ∀ f ∈ allRegs e a, (idx f).Nodup)
    (hc : ((allRegs e a).map (fun f => (idx f).length)).prod ≤ 2 ^ 53) (hz : Sizes a T) {threshold : Nat}
    (hG : ∀ L ∈ T.levels, GroupFit threshold a.cols a.on a.across (allRegs e a) (tripsSpec a L.key)) {N : Num} (hE : N.Exact) {src : List Val → List Val → Nat → Src}
    {lt : δ → δ → Bool} (hlt : ∀ x y, lt x y = true → lt y x = false) {n : Nat} {c : Equiv.Perm (Fin n) → Choices} (hl : ∀ π, (c π).Lawful) (hN : ∀ π, (c π).num = N) (hsrc : ∀ π, (c π).src = src)
    {getFeat : Equiv.Perm (Fin n) → ρ → Except Err φ} {distance : Equiv.Perm (Fin n) → φ → φ → Except Err δ} {F : Equiv.Perm (Fin n) → File} {S : Equiv.Perm (Fin n) → List Int}
    (hr : ∀ π, RanT threshold (c π) e T (getFeat π) (distance π) lt (F π) (S π)) {rows : Equiv.Perm (Fin n) → List OutRow} (hrows : ∀ π, collapse (c π).sortRows ((colRegs T.regressors).map idx) (F π) (S π) = .ok (rows π))
    {π0 : Equiv.Perm (Fin n)} {o : OutRow} (ho : o ∈ rows π0) {D : Fin n → Fin n → δ}
    (hd : ShuffledItems D (fun π => Spec.recDist (getFeat π) (distance π)) (Spec.records a.by_ (a.db.map (·.2)) a.feat (specKey a o.by_))) :
    (∀ π, ∃ o' ∈ rows π, o'.labels = o.labels ∧ o'.by_ = o.by_ ∧ o'.n = o.n) ∧
    ∀ o' : Equiv.Perm (Fin n) → OutRow, (∀ π, o' π ∈ rows π ∧ (o' π).labels = o.labels ∧ (o' π).by_ = o.by_) → |∑ π, (o' π).score / n.factorial - 1 / 2| ≤ 2 ^ (-52 : ℤ) := by
  obtain ⟨r1, r2⟩ := C107_chance_partial he ha hf h hpos hfeat hA hidx hnd hc hz hG hE hlt hl hN hsrc hr hrows ho hd.noInformation
  refine ⟨r1, fun o' ho' => ?_⟩
  have := r2 o' ho'
  rw [Fintype.card_perm, Fintype.card_fin] at this
  refine le_of_eq_of_le ?_ this
  congr 2
  exact Finset.sum_congr rfl fun π _ => by ring

/-! ### example -/

/-- distances that are reversed in one of two outcomes -/
def coinDist (b : Bool) (v _w : Nat) : Nat := if b then v % 10 else 9 - v % 10

open Classical in
theorem coin_noInformation (recs : List Nat) : NoInformation (fun _ : Bool => (1 / 2 : ℚ)) (fun x y => decide (x < y)) (fun b => Spec.recDist (fun r => .ok r) (fun v w => .ok (coinDist b v w) : Nat → Nat → Except Err Nat)) recs := by
  have key : ∀ b p q x, nearerAt (fun x y => decide (x < y)) (Spec.recDist (fun r => .ok r) (fun v w => .ok (coinDist b v w) : Nat → Nat → Except Err Nat)) recs p q x →
      nearerAt (fun x y => decide (x < y)) (Spec.recDist (fun r => .ok r) (fun v w => .ok (coinDist (!b) v w) : Nat → Nat → Except Err Nat)) recs q p x := by
    rintro b p q x ⟨u, v, z, d, d', e1, e2, e3, e4, e5, e6⟩
    refine ⟨v, u, z, _, _, e2, e1, e3, rfl, rfl, ?_⟩
    unfold Spec.recDist at e4 e5
    cases e4
    cases e5
    unfold coinDist at e6 ⊢
    cases b
    · simp at e6 ⊢; omega
    · simp at e6 ⊢; omega
  refine ⟨fun _ => by norm_num, by simp, fun p q x _ _ _ => ?_⟩
  rw [Fintype.sum_bool, Fintype.sum_bool, add_comm]
  congr 1
  · exact if_congr ⟨key false p q x, key true q p x⟩ rfl rfl
  · exact if_congr ⟨key true p q x, key false q p x⟩ rfl rfl

/-- two runs of the task `ex2` with threshold 2 and the distances `d true` and `d false`, with other numbers of cpus and other buffers -/
theorem ex2_runs (d : Bool → Nat → Nat → Nat) : ∃ (T : Task.Task Nat) (F : Bool → File) (S : Bool → List Int) (rows : Bool → List OutRow), init E0 ex2 = .ok T ∧
    (∀ b, RanT 2 (choices0 (if b then 2 else 3) (if b then 3 else 7)) E0 T (fun r => .ok r) (fun v w => .ok (d b v w)) (fun x y => decide (x < y)) (F b) (S b)) ∧
    (∀ b, collapse insArgsort ((colRegs T.regressors).map (fun _ => labels0)) (F b) (S b) = .ok (rows b)) ∧ rows true ≠ [] := by
  obtain ⟨F', hF', d1', d2'⟩ := ex2_file2
  obtain ⟨T, h1, h2'⟩ := run_ok hF'
  have hS' : Small E0 T F' := ex2_small h1 (by rw [d1']; decide)
  have hsq : ∀ L ∈ T.levels, ∀ p ∈ L.frame, p.1 < 94906265 := fun L hL p hp => by have := ex2_labels h1 L hL p hp; omega
  choose S hr hlen hval using fun b : Bool => ran_exists ex2_ok h1 h2' hS' hsq (by rw [d2']; simp) (by rw [d1']; decide) (n := if b then 2 else 3) (m := if b then 3 else 7) (by cases b <;> simp) (by cases b <;> simp) (g := fun r => r) (d := d b)
  have hlt : ∀ x y : Nat, decide (x < y) = true → decide (y < x) = false := by intro x y h; simp at h ⊢; omega
  have hidx : ∀ f ∈ allRegs E0 ex2, 0 < labels0.length ∧ ∀ L ∈ T.levels, ∀ t ∈ tripsSpec ex2 L.key,
      Spec.regValue ex2.cols f t < labels0.length := fun f hf => ⟨by decide, fun L hL t ht => ex2_regs h1 f hf L hL t ht⟩
  have hl : ∀ b : Bool, (choices0 (if b then 2 else 3) (if b then 3 else 7)).Lawful := fun b => choices0_lawful (by cases b <;> simp)
  have hR := fun b => C79_results_partial E0_lawful ex2_ok (.of_not_bare (by intro f hf; cases hf)) h1 ex2_pos (by decide +kernel) (by intro f hf; cases hf) (by decide) (by decide)
    (idx := fun _ => labels0) hidx (by decide +kernel) (ex2_sizes h1) (threshold := 2) (by omega) (ex2_fit h1 2) (hl b) N0_exact hlt (hr b)
  choose outs o1 o2 o3 o4 o5 using hR
  refine ⟨T, fun _ => F', S, fun b => (outs b).flatten, h1, hr, o1, ?_⟩
  intro e
  have hk := (o4 true [.int 0]).mp (by rw [d2']; simp)
  have h5 := o5 true
  rw [d2'] at h5
  match hoo : outs true, h5 with
  | out :: _, .cons x _ =>
    obtain ⟨Q, abx, s1, -, combos, -, c2, c3⟩ := x
    obtain ⟨t, ht⟩ := List.exists_mem_of_ne_nil _ hk.2
    have hpos : 0 < (Q.filter (fun u => (colRegs T.regressors).map (fun f => Spec.regValue ex2.cols f u) == (colRegs T.regressors).map (fun f => Spec.regValue ex2.cols f t))).length := by
      rw [s1.2.2]
      refine lt_min (by norm_num) ?_
      show 0 < ((tripsSpec ex2 [.int 0]).filter (fun u => (colRegs T.regressors).map (fun f => Spec.regValue ex2.cols f u) == (colRegs T.regressors).map (fun f => Spec.regValue ex2.cols f t))).length
      exact List.length_pos_of_mem (List.mem_filter.mpr ⟨ht, by simp⟩)
    obtain ⟨u, hu⟩ := List.exists_mem_of_ne_nil _ (List.length_pos_iff.mp hpos)
    have hm := (c2 _).mpr ⟨u, (List.mem_filter.mp hu).1, rfl⟩
    replace e : (outs true).flatten = [] := e
    rw [hoo, List.flatten_cons, List.append_eq_nil_iff] at e
    rw [e.1] at c3
    cases c3
    cases hm

/-- C107, example: the task `ex2` with threshold 2 (its rows have 2 and 1 triplets) and the distances `coinDist` of a fair coin, run with other numbers of cpus and other buffers in the two outcomes: the mean of the two scores of a row is 1/2 up to 2^-52,
and they add up to 1 up to 2^-51 -/
example : ∃ (T : Task.Task Nat) (F : Bool → File) (S : Bool → List Int) (rows : Bool → List OutRow), init E0 ex2 = .ok T ∧
    (∀ b, RanT 2 (choices0 (if b then 2 else 3) (if b then 3 else 7)) E0 T (fun r => .ok r) (fun v w => .ok (coinDist b v w)) (fun x y => decide (x < y)) (F b) (S b)) ∧
    (∀ b, collapse insArgsort ((colRegs T.regressors).map (fun _ => labels0)) (F b) (S b) = .ok (rows b)) ∧ rows true ≠ [] ∧
    ∀ o ∈ rows true, ∃ o' ∈ rows false, o'.labels = o.labels ∧ o'.by_ = o.by_ ∧ o'.n = o.n ∧ |(1 / 2 * o.score + 1 / 2 * o'.score) - 1 / 2| ≤ 2 ^ (-52 : ℤ) := by
  obtain ⟨T, F, S, rows, h1, hr, o1, hne⟩ := ex2_runs coinDist
  have hlt : ∀ x y : Nat, decide (x < y) = true → decide (y < x) = false := by intro x y h; simp at h ⊢; omega
  have hidx : ∀ f ∈ allRegs E0 ex2, 0 < labels0.length ∧ ∀ L ∈ T.levels, ∀ t ∈ tripsSpec ex2 L.key,
      Spec.regValue ex2.cols f t < labels0.length := fun f hf => ⟨by decide, fun L hL t ht => ex2_regs h1 f hf L hL t ht⟩
  have hl : ∀ b : Bool, (choices0 (if b then 2 else 3) (if b then 3 else 7)).Lawful := fun b => choices0_lawful (by cases b <;> simp)
  refine ⟨T, F, S, rows, h1, hr, o1, hne, fun o ho => ?_⟩
  obtain ⟨c1, c2⟩ := C107_chance_partial E0_lawful ex2_ok (.of_not_bare (by intro f hf; cases hf)) h1 ex2_pos (by decide +kernel) (by intro f hf; cases hf)
    (idx := fun _ => labels0) hidx (fun _ _ => by decide +kernel) (by decide +kernel) (ex2_sizes h1) (threshold := 2) (ex2_fit h1 2) N0_exact (src := fun _ _ _ => src0) hlt hl (fun _ => rfl) (fun _ => rfl) hr o1 (i0 := true) ho (coin_noInformation _)
  obtain ⟨o', e1, e2, e3, e4⟩ := c1 false
  refine ⟨o', e1, e2, e3, e4, ?_⟩
  have := c2 (fun b => if b then o else o') (fun b => by cases b; exacts [⟨e1, e2, e3⟩, ⟨ho, rfl, rfl⟩])
  rw [Fintype.sum_bool] at this
  exact this

#print axioms C107_chance_partial
#print axioms C107_reversed_partial
#print axioms C107_shuffled_partial

end ABX.Pipeline
