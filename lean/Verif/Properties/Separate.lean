import Verif.Spec.Separate
import Verif.Proofs.ScoreOrder
import Verif.Properties.Total
/-!
C113: the rows of the results in terms of the lines of the item table; features that tell the labels of 'on' apart score 1, features that tell only the labels of 'across' and 'by' score 1/2.
-/
namespace ABX.Pipeline
open ExtSort ABX.Task Pairs SideOps Sampler Distances Score EndToEnd Analyze F64 ABX.Spec
variable {ρ φ δ : Type}

/-- the score of a triplet of items of a level is that of its lines -/
theorem abx_lines {a : Args ρ} (hfeat : a.feat.length = a.db.length) {key : List Val} {t : Tri} (ht : t ∈ tripsSpec a key) {lt : δ → δ → Bool} {dist : ρ → ρ → Except Err δ} {w : Int}
    (h : IsSign lt dist (Spec.records a.by_ (a.db.map (·.2)) a.feat (specKey a key)) t w) :
    ∃ u, LineTriplet a.cols a.on a.across a.by_ a.filters (a.db.map (·.2)) u ∧ IsLineScore lt dist a.feat u w := by
  obtain ⟨u, u1, -, hu⟩ := trips_lines (a := a) (key := key) (t := (t.1.1, t.2.1.1, t.2.2.1)) (List.mem_map.mpr ⟨t, ht, rfl⟩)
  obtain ⟨rA, rB, rX, d, d', h1, h2, h3, h4⟩ := h
  have hl : a.feat.length = (a.db.map (·.2)).length := by rw [List.length_map, hfeat]
  obtain ⟨iA, l1, m1⟩ := record_line hl h1
  obtain ⟨iB, l2, m2⟩ := record_line hl h2
  obtain ⟨iX, l3, m3⟩ := record_line hl h3
  have : (iA, iB, iX) = u := by
    apply lines_inj
    rw [← hu]
    dsimp only
    rw [l1, l2, l3]
    rfl
  subst this
  exact ⟨_, u1, rA, rB, rX, d, d', m1, m2, m3, h4⟩

section
variable {e : Env} (he : e.Lawful) {a : Args ρ} (ha : a.OK) (hf : Spec'.KeptFirst a) {T : Task.Task ρ} (h : init e a = .ok T)
    (hpos : ∀ (i : Nat) (p : Nat × Row), a.db[i]? = some p → p.1 = i) (hfeat : a.feat.length = a.db.length)
    (hA : (∀ f ∈ a.regressors, Spec.readsA a.cols f = false) ∨ (T.filters.ops .ABX ≠ [] ∧ a.on ∈ a.cols.on ∧ a.on ∉ a.cols.by_)) {idx : DBFun Nat → List Val}
    (hidx : ∀ f ∈ allRegs e a, 0 < (idx f).length ∧ ∀ L ∈ T.levels, ∀ t ∈ tripsSpec a L.key, Spec.regValue a.cols f t < (idx f).length)
    (hc : ((allRegs e a).map (fun f => (idx f).length)).prod ≤ 2 ^ 53) (hz : Sizes a T) {threshold : Nat} {c : Choices} (hl : c.Lawful)
    {getFeat : ρ → Except Err φ} {distance : φ → φ → Except Err δ} {lt : δ → δ → Bool} (hlt : ∀ x y, lt x y = true → lt y x = false) {F : File} {S : List Int}
    (hr : RanT threshold c e T getFeat distance lt F S) (hS : Small e T F) {rows : List OutRow} (hrows : collapse c.sortRows ((colRegs T.regressors).map idx) F S = .ok rows)
include he ha hf h hpos hfeat hA hidx hc hz hl hlt hr hS hrows

/-- C113: every row of the results, with a threshold or without, is the rounded mean of the scores of some triplets of lines of the table, at least one, each a triplet of the task.  Missing: as in C77. -/
theorem C113_rows_partial {o : OutRow} (ho : o ∈ rows) : ∃ U : List ((Nat × Nat × Nat) × Int), U ≠ [] ∧ U.length = o.n ∧ o.score = rnd (rnd ((U.map (·.2)).sum / o.n) + 1) / 2 ∧
    ∀ u ∈ U, LineTriplet a.cols a.on a.across a.by_ a.filters (a.db.map (·.2)) u.1 ∧ IsLineScore lt (Spec.recDist getFeat distance) a.feat u.1 u.2 := by
  obtain ⟨outs, a1, a2, a3, a4⟩ := level_scores he ha hf h hpos hfeat hA hidx hc hz hl hlt hr hS
  rw [hrows] at a1
  cases a1
  obtain ⟨out, o1, o2⟩ := List.mem_flatten.mp ho
  obtain ⟨j, hj⟩ := List.getElem?_of_mem o1
  obtain ⟨key, k1, Q, abx, d1, -, -, d4, d5, -⟩ := Distances.forall₂_getElem a4.flip hj
  obtain ⟨combos, c1, c2, c3⟩ := d5 Q (.refl _)
  obtain ⟨i, hi⟩ := List.getElem?_of_mem o2
  obtain ⟨v, v1, v2⟩ := Distances.forall₂_getElem c3.flip hi
  obtain ⟨-, -, n1, n2, -⟩ := v2
  have hex : ∀ t : Tri, ∃ u : (Nat × Nat × Nat) × Int, t ∈ Q → (LineTriplet a.cols a.on a.across a.by_ a.filters (a.db.map (·.2)) u.1 ∧ IsLineScore lt (Spec.recDist getFeat distance) a.feat u.1 u.2) ∧ 2 * abx t - 1 = u.2 := by
    intro t
    by_cases ht : t ∈ Q
    · obtain ⟨w, w1, w2⟩ := isAbx_iff.mp (d4 t ht)
      obtain ⟨u, u1, u2⟩ := abx_lines hfeat (d1 t ht) w1
      exact ⟨(u, w), fun _ => ⟨⟨u1, u2⟩, by rw [w2]; ring⟩⟩
    · exact ⟨((0, 0, 0), 0), fun h => absurd h ht⟩
  choose g hg using hex
  refine ⟨(Q.filter (fun t => (colRegs T.regressors).map (fun f => Spec.regValue a.cols f t) == v)).map g, ?_, ?_, ?_, ?_⟩
  · obtain ⟨t, ht, e⟩ := (c2 v).mp (List.mem_of_getElem? v1)
    intro h0
    rw [List.map_eq_nil_iff] at h0
    have : t ∈ Q.filter (fun t => (colRegs T.regressors).map (fun f => Spec.regValue a.cols f t) == v) := List.mem_filter.mpr ⟨ht, by simpa using e⟩
    rw [h0] at this
    cases this
  · rw [List.length_map, n1]
  · rw [n2]
    have hs : ((Q.filter (fun t => (colRegs T.regressors).map (fun f => Spec.regValue a.cols f t) == v)).map (fun t => 2 * abx t - 1)).sum =
        ((((Q.filter (fun t => (colRegs T.regressors).map (fun f => Spec.regValue a.cols f t) == v)).map g).map (·.2)).sum : Int) := by
      rw [List.map_map, Int.cast_list_sum, List.map_map]
      apply congrArg
      apply List.map_congr_left
      intro t ht
      exact (hg t (List.mem_filter.mp ht).1).2
    rw [← hs]
  · intro u hu
    obtain ⟨t, ht, rfl⟩ := List.mem_map.mp hu
    exact (hg t (List.mem_filter.mp ht).1).1

/-- C113: if every line is nearer to the lines with its 'on' label than to the others, every score of the results is exactly 1.  Missing: as in C77. -/
theorem C113_separates_partial (hd : Separates lt (Spec.recDist getFeat distance) (a.db.map (·.2)) a.feat a.on) : ∀ o ∈ rows, o.score = 1 := by
  intro o ho
  obtain ⟨U, u1, u2, u3, u4⟩ := C113_rows_partial he ha hf h hpos hfeat hA hidx hc hz hl hlt hr hS hrows ho
  have hw : U.map (·.2) = U.map (fun _ => (1 : Int)) := by
    apply List.map_congr_left
    intro u hu
    obtain ⟨⟨rA, rB, rX, i1, i2, i3, -, -, hleg, -⟩, fA, fB, fX, d, d', j1, j2, j3, j4, j5, hw⟩ := u4 u hu
    unfold legal at hleg
    simp only [Bool.and_eq_true, beq_iff_eq, bne_iff_ne] at hleg
    rw [hw, if_pos (hd _ _ _ _ _ _ _ _ _ _ _ i1 i2 i3 j1 j2 j3 j4 j5 hleg.1.1.1 (by rw [← hleg.1.1.1]; exact hleg.1.1.2))]
  have hp : (0 : ℚ) < o.n := by rw [← u2]; exact_mod_cast List.length_pos_iff.mpr u1
  rw [u3, hw, List.map_const', List.sum_replicate, u2]
  simp only [nsmul_eq_mul, mul_one]
  rw [show (((o.n : Int) : ℚ)) / o.n = 1 by rw [Int.cast_natCast]; exact div_self hp.ne', rnd_one, show (1 : ℚ) + 1 = 2 by norm_num, rnd_two]
  norm_num

/-- C113: if the features tell nothing but the labels of the 'across' and 'by' columns, every score of the results is exactly 1/2.  Missing: as in C77. -/
theorem C113_blind_partial (hd : Blind lt (Spec.recDist getFeat distance) (a.db.map (·.2)) a.feat (a.across ++ a.by_)) : ∀ o ∈ rows, o.score = 1 / 2 := by
  intro o ho
  obtain ⟨U, u1, u2, u3, u4⟩ := C113_rows_partial he ha hf h hpos hfeat hA hidx hc hz hl hlt hr hS hrows ho
  have hw : U.map (·.2) = U.map (fun _ => (0 : Int)) := by
    apply List.map_congr_left
    intro u hu
    obtain ⟨⟨rA, rB, rX, i1, i2, i3, e1, -, hleg, -⟩, fA, fB, fX, d, d', j1, j2, j3, j4, j5, hw⟩ := u4 u hu
    unfold legal at hleg
    simp only [Bool.and_eq_true, beq_iff_eq, bne_iff_ne, List.all_eq_true] at hleg
    have hAB : ∀ c ∈ a.across ++ a.by_, rA c = rB c := by
      intro c hc
      rcases List.mem_append.mp hc with hc | hc
      · exact (hleg.1.2 c hc).symm
      · exact (List.map_inj_left.mp e1 c hc).symm
    rw [hw, if_neg, if_neg]
    · rw [hd _ _ _ _ _ _ _ _ _ _ _ i2 i1 i3 j2 j1 j3 j5 j4 (fun c hc => (hAB c hc).symm)]
      decide
    · rw [hd _ _ _ _ _ _ _ _ _ _ _ i1 i2 i3 j1 j2 j3 j4 j5 hAB]
      decide
  rw [u3, hw, List.map_const', List.sum_replicate, smul_zero, Int.cast_zero, zero_div, rnd_zero, zero_add, rnd_one]

end

/-- the "on" labels of the lines of `ex2`, as numbers -/
def ex2On (v : Nat) : Nat := [2, 0, 0, 1, 1, 0, 0, 1, 0].getD v 0
/-- the labels of the lines of `ex2` in "ac" and "sp", as one number -/
def ex2Ac (v : Nat) : Nat := [31, 10, 10, 10, 10, 20, 12, 12, 22].getD v 0

theorem ex2_lines : ex2.feat = List.range 9 ∧ (ex2.db.map (·.2)).length = 9 := by decide +kernel

theorem ex2_line {i : Nat} {f : Nat} (h : ex2.feat[i]? = some f) : f = i ∧ i < 9 := by
  rw [ex2_lines.1, List.getElem?_eq_some_iff] at h
  obtain ⟨h1, h2⟩ := h
  rw [List.getElem_range] at h2
  exact ⟨h2.symm, by simpa using h1⟩

/-- C113, example: the task `ex2` with threshold 2 and features that tell the labels of "on" only: there are results, and every score is 1 -/
example : ∃ (T : Task.Task Nat) (F : File) (S : List Int) (rows : List OutRow), init E0 ex2 = .ok T ∧
    RanT 2 (choices0 2 3) E0 T (fun r => .ok r) (fun v w => .ok (if ex2On v = ex2On w then 0 else 1)) (fun x y : Nat => decide (x < y)) F S ∧
    collapse insArgsort ((colRegs T.regressors).map (fun _ => labels0)) F S = .ok rows ∧ rows ≠ [] ∧ ∀ o ∈ rows, o.score = 1 := by
  obtain ⟨T, F, S, rows, h1, hr, o1, hne⟩ := ex2_runs (fun _ v w => if ex2On v = ex2On w then 0 else 1)
  have hlt : ∀ x y : Nat, decide (x < y) = true → decide (y < x) = false := by intro x y h; simp at h ⊢; omega
  have hl : (choices0 2 3).Lawful := choices0_lawful (by decide)
  refine ⟨T, F true, S true, rows true, h1, hr true, o1 true, hne, ?_⟩
  have k0 : Spec'.KeptFirst ex2 := .of_not_bare (by intro f hf; cases hf)
  have hS := small_ofT E0_lawful ex2_ok k0 h1 (ex2_sizes h1) hl.num N0_exact (ex2_fit h1 2) hl.src hl.bl1 hl.bl2 (hr true).file
  refine C113_separates_partial E0_lawful ex2_ok k0 h1 ex2_pos (by decide +kernel) (.inl (by intro f hf; cases hf)) (idx := fun _ => labels0)
    (fun f hf => ⟨by decide, fun L hL t ht => ex2_regs h1 f hf L hL t ht⟩) (by decide +kernel) (ex2_sizes h1) hl hlt (hr true) hS (o1 true) ?_
  intro i k j ri rk rj fi fk fj d d' i1 i2 i3 j1 j2 j3 j4 j5 e1 e2
  have key : ∀ i < 9, ∀ j < 9, ((ex2.db.map (·.2))[i]?.map (· ex2.on) = (ex2.db.map (·.2))[j]?.map (· ex2.on)) ↔ ex2On i = ex2On j := by decide +kernel
  obtain ⟨rfl, b1⟩ := ex2_line j1
  obtain ⟨rfl, b2⟩ := ex2_line j2
  obtain ⟨rfl, b3⟩ := ex2_line j3
  have k1 := key _ b1 _ b3
  have k2 := key _ b2 _ b3
  rw [i1, i3] at k1
  rw [i2, i3] at k2
  simp only [Option.map_some, Option.some.injEq] at k1 k2
  cases j4
  cases j5
  rw [if_pos (k1.mp e1), if_neg (fun h => e2 (k2.mpr h))]
  decide

/-- C113, example: the task `ex2` with threshold 2 and features that tell the labels of "ac" and "sp" only: there are results, and every score is 1/2 -/
example : ∃ (T : Task.Task Nat) (F : File) (S : List Int) (rows : List OutRow), init E0 ex2 = .ok T ∧
    RanT 2 (choices0 2 3) E0 T (fun r => .ok r) (fun v w => .ok (ex2Ac v % (w + 2))) (fun x y : Nat => decide (x < y)) F S ∧
    collapse insArgsort ((colRegs T.regressors).map (fun _ => labels0)) F S = .ok rows ∧ rows ≠ [] ∧ ∀ o ∈ rows, o.score = 1 / 2 := by
  obtain ⟨T, F, S, rows, h1, hr, o1, hne⟩ := ex2_runs (fun _ v w => ex2Ac v % (w + 2))
  have hlt : ∀ x y : Nat, decide (x < y) = true → decide (y < x) = false := by intro x y h; simp at h ⊢; omega
  have hl : (choices0 2 3).Lawful := choices0_lawful (by decide)
  refine ⟨T, F true, S true, rows true, h1, hr true, o1 true, hne, ?_⟩
  have k0 : Spec'.KeptFirst ex2 := .of_not_bare (by intro f hf; cases hf)
  have hS := small_ofT E0_lawful ex2_ok k0 h1 (ex2_sizes h1) hl.num N0_exact (ex2_fit h1 2) hl.src hl.bl1 hl.bl2 (hr true).file
  refine C113_blind_partial E0_lawful ex2_ok k0 h1 ex2_pos (by decide +kernel) (.inl (by intro f hf; cases hf)) (idx := fun _ => labels0)
    (fun f hf => ⟨by decide, fun L hL t ht => ex2_regs h1 f hf L hL t ht⟩) (by decide +kernel) (ex2_sizes h1) hl hlt (hr true) hS (o1 true) ?_
  intro i k j ri rk rj fi fk fj d d' i1 i2 i3 j1 j2 j3 j4 j5 e1
  have key : ∀ i < 9, ∀ j < 9, ((ex2.db.map (·.2))[i]?.map (fun r => (ex2.across ++ ex2.by_).map r) = (ex2.db.map (·.2))[j]?.map (fun r => (ex2.across ++ ex2.by_).map r)) → ex2Ac i = ex2Ac j := by decide +kernel
  obtain ⟨rfl, b1⟩ := ex2_line j1
  obtain ⟨rfl, b2⟩ := ex2_line j2
  have k1 := key _ b1 _ b2
  rw [i1, i2] at k1
  simp only [Option.map_some, Option.some.injEq] at k1
  cases j4
  cases j5
  rw [k1 (List.map_congr_left e1)]
  simp

end ABX.Pipeline

#print axioms ABX.Pipeline.C113_rows_partial
#print axioms ABX.Pipeline.C113_separates_partial
#print axioms ABX.Pipeline.C113_blind_partial
