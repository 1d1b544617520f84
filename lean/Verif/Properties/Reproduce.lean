import Verif.Proofs.Reproduce
import Verif.Properties.ChanceTask
import Verif.Properties.Generate
/-!
C109: two runs of a task with the same random numbers and the same comparisons of distances write the same files.
-/
namespace ABX.Task
open ExtSort Sampler SideOps

/-- a random source with large numbers: Knuth's algorithm takes the last items -/
def srcLast : Src := ⟨fun _ => (0, true), 0, fun _ => 2 ^ 53 - 1, fun _ _ k => List.replicate k 0, 10⟩
theorem srcLast_lawful : srcLast.Lawful := by
  refine ⟨fun _ => by show 2 ^ 53 - 1 < 2 ^ 53; omega, fun _ _ _ => List.length_replicate, fun N i k hN x hx => ?_⟩
  have := List.eq_of_mem_replicate hx
  omega

/-- the random numbers of a seed: the first group of triplets of a block gets large numbers, the others small ones -/
def srcSeed (_ _ : List Val) (j : Nat) : Src := if j = 0 then srcLast else src0
theorem srcSeed_lawful (b k : List Val) (j : Nat) : (srcSeed b k j).Lawful := by
  unfold srcSeed
  split
  · exact srcLast_lawful
  · exact src0_lawful

/-- the orders of `E0`, except that a set of column names is enumerated the other way round -/
def E1 : Env := ⟨fun _ l => l, fun _ _ l => l, List.reverse, id⟩
theorem E1_lawful : E1.Lawful := ⟨fun _ _ => .refl _, fun _ _ _ => .refl _, List.reverse_perm, fun _ => .refl _⟩

/-- a task on "on" across "ac" and "sp" -/
def exSeed : Args Nat :=
  ⟨["on", "ac", "sp"], "on", ["ac", "sp"], [], ⟨["on"], ["ac", "sp"], []⟩, [], [],
    [mk "b" 0 0, mk "a" 0 0, mk "b" 1 2, mk "b" 1 2, mk "b" 2 1, mk "b" 2 1, mk "b" 2 2].zipIdx.map (fun p => (p.2, p.1)), List.range 7⟩
theorem exSeed_ok : exSeed.OK := Args.OK.flat rfl (by decide +kernel) (by intro f hf; cases hf) (by intro f hf; cases hf)
  (by intro f hf; cases hf) (by intro f hf; cases hf) (by decide +kernel)

/-- C109 is false of runs that have in common only the seed: the default regressors come in the order of a python set of strings (side_operations_manager.py line 53, regressor_manager.py lines 24-26), which for two columns or more is
another in another process.  The groups of triplets of a block are then sorted otherwise and get other random numbers: with the same seed, threshold 1 and the same table, the only triplet kept for `ac_2 = 1, sp_2 = 2` is (0, 1, 3) in
one run and (0, 1, 2) in the other. -/
theorem C109_violated : ¬ ∀ (a : Args Nat) (e e' : Env) (N : Num) (threshold : Nat) (src : List Val → List Val → Nat → Src) (bl1 bl2 : Nat) (T T' : Task Nat) (F F' : File), a.OK → e.Lawful → e'.Lawful → e'.groups = e.groups → e'.sets = e.sets →
    e'.sort = e.sort → ArgsortLaw N.argsort → (∀ b k j, (src b k j).Lawful) → 0 < bl1 → 0 < bl2 → init e a = .ok T → init e' a = .ok T' → generate e N threshold src bl1 bl2 T = .ok (some F) →
    generate e' N threshold src bl1 bl2 T' = .ok (some F') → ∀ t, t ∈ F.data ↔ t ∈ F'.data := by
  intro H
  have h0 : (match (match init E0 exSeed with | .ok T => generate E0 N0 1 srcSeed 1000 1000 T | .error e => .error e) with | .ok (some F) => F.data | _ => []) = [(0, 1, 3), (0, 1, 4), (0, 1, 6)] := by decide +kernel
  have h1 : (match (match init E1 exSeed with | .ok T => generate E1 N0 1 srcSeed 1000 1000 T | .error e => .error e) with | .ok (some F) => F.data | _ => []) = [(0, 1, 5), (0, 1, 2), (0, 1, 6)] := by decide +kernel
  cases i0 : init E0 exSeed with
  | error e => rw [i0] at h0; cases h0
  | ok T => cases i1 : init E1 exSeed with
    | error e => rw [i1] at h1; cases h1
    | ok T' =>
      rw [i0] at h0
      rw [i1] at h1
      simp only at h0 h1
      split at h0
      · rename_i F g0
        split at h1
        · rename_i F' g1
          have := H exSeed E0 E1 N0 1 srcSeed 1000 1000 T T' F F' exSeed_ok E0_lawful E1_lawful rfl rfl rfl insArgsort_law srcSeed_lawful (by omega) (by omega) i0 i1 g0 g1 (0, 1, 3)
          rw [h0, h1] at this
          revert this
          decide
        · cases h1
      · cases h0

/-- C109: with at most one column determined by 'across', the order of the sets of column names plays no part: the task is the same, and so is its file of triplets. -/
theorem C109_names {ρ : Type} {a : Args ρ} {e e' : Env} (he : e.Lawful) (he' : e'.Lawful) (hg : e'.groups = e.groups) (hs : e'.sets = e.sets) (ho : e'.sort = e.sort) (h1 : a.cols.across.length ≤ 1) :
    init e' a = init e a ∧ ∀ (N : Num) (threshold : Nat) (src : List Val → List Val → Nat → Src) (bl1 bl2 : Nat) (T : Task ρ), generate e' N threshold src bl1 bl2 T = generate e N threshold src bl1 bl2 T := by
  refine ⟨?_, fun N threshold src bl1 bl2 T => generate_same hg hs N threshold src bl1 bl2 T⟩
  have hn : e'.names a.cols.across = e.names a.cols.across := by
    have p := he.names a.cols.across
    have p' := he'.names a.cols.across
    match hl : a.cols.across, h1 with
    | [], _ => rw [hl] at p p'; rw [p.eq_nil, p'.eq_nil]
    | [x], _ => rw [hl] at p p'; rw [List.perm_singleton.mp p, List.perm_singleton.mp p']
  cases e with | mk g s n o =>
  cases e' with | mk g' s' n' o' =>
  subst hg hs ho
  have hd : ∀ fr, defaultRegs ⟨g', s', n', o'⟩ a fr = defaultRegs ⟨g', s', n, o'⟩ a fr := by
    intro fr
    unfold defaultRegs
    rw [hn]
    rfl
  unfold init
  simp only [hd]
  rfl

end ABX.Task

namespace ABX.Pipeline
open ExtSort ABX.Task Pairs SideOps Sampler Distances Score EndToEnd Analyze F64 ABX.Spec
variable {ρ φ δ φ' δ' : Type}

/-- C109: with the same random numbers and the same sort, the file of triplets does not depend on the lengths of the buffers through which it is written. -/
theorem C109_file {e : Env} {N : Num} {threshold : Nat} {src : List Val → List Val → Nat → Src} {bl1 bl2 bl1' bl2' : Nat} (h1 : 0 < bl1) (h2 : 0 < bl2) (h1' : 0 < bl1') (h2' : 0 < bl2') {T : Task.Task ρ} {F F' : File}
    (h : generate e N threshold src bl1 bl2 T = .ok (some F)) (h' : generate e N threshold src bl1' bl2' T = .ok (some F')) : F = F' := by
  obtain ⟨total, t, tb, outs, K⟩ := generate_ok h1 h2 h
  obtain ⟨total', t', tb', outs', K'⟩ := generate_ok h1' h2' h'
  exact fileOK_unique K K'

section
variable {e : Env} (he : e.Lawful) {a : Args ρ} (ha : a.OK) {T : Task.Task ρ} (h : init e a = .ok T) {threshold : Nat} {c c' : Choices} (hl : c.Lawful) (hl' : c'.Lawful) (hN : c'.num = c.num) (hsrc : c'.src = c.src)
    {getFeat : ρ → Except Err φ} {distance : φ → φ → Except Err δ} {lt : δ → δ → Bool} (hlt : ∀ x y, lt x y = true → lt y x = false)
    {getFeat' : ρ → Except Err φ'} {distance' : φ' → φ' → Except Err δ'} {lt' : δ' → δ' → Bool} (hlt' : ∀ x y, lt' x y = true → lt' y x = false) {F F' : File} {S S' : List Int}
    (hr : RanT threshold c e T getFeat distance lt F S) (hr' : RanT threshold c' e T getFeat' distance' lt' F' S') (hS : Small e T F)
include he ha h hl hl' hN hsrc hlt hlt' hr hr' hS

/-- C109: two runs of a task, with a threshold or without, with the same random numbers and sort of the triplets, and any other choices (buffers, sorts of pairs, numbers of cpus, orders of the jobs, features, distances): if the comparisons of distances within the
levels are the same, the two runs write the same file of triplets and the same scores.  Missing: sizes beyond those of C12 and C16. -/
theorem C109_scores_partial (hsq : ∀ L ∈ T.levels, ∀ p ∈ L.frame, p.1 < 94906265)
    (hd : ∀ L ∈ T.levels, ∀ p q x, nearerAt lt (Spec.recDist getFeat distance) L.feat p q x ↔ nearerAt lt' (Spec.recDist getFeat' distance') L.feat p q x) : F = F' ∧ S = S' := by
  obtain ⟨hF, P, jobs, load, zero, s, hP, hj, hst, hret, hsc⟩ := hr
  obtain ⟨hF', P', jobs', load', zero', s', hP', hj', hst', hret', hsc'⟩ := hr'
  rw [hN, hsrc] at hF'
  have hFF := C109_file hl.bl1 hl.bl2 hl'.bl1 hl'.bl2 hF hF'
  subst hFF
  refine ⟨rfl, ?_⟩
  obtain ⟨S1, q1, q2, q3⟩ := C18_scores_partial he ha h hl.bl1 hl.bl2 hF hS hsq hl.sortPairs hl.bufs hP hl.sortJobs hj hst hret hlt hl.bufLen
  obtain ⟨S2, r1, r2, r3⟩ := C18_scores_partial he ha h hl'.bl1 hl'.bl2 hF' hS hsq hl'.sortPairs hl'.bufs hP' hl'.sortJobs hj' hst' hret' hlt' hl'.bufLen
  rw [hsc] at q1
  rw [hsc'] at r1
  cases q1
  cases r1
  obtain ⟨total, t, tb, outs, K⟩ := generate_ok hl.bl1 hl.bl2 hF
  apply List.ext_getElem?
  intro i
  by_cases hi : i < F.data.length
  · obtain ⟨A, B, X, L, rA, rB, rX, fA, fB, fX, d1, d2, a1, a2, a3, ⟨j, iv, a4, a5, a6, a7⟩, b1, b2, b3, b4, b5, b6, b7, b8, b9⟩ := q3 i hi
    obtain ⟨A', B', X', L', rA', rB', rX', fA', fB', fX', d1', d2', c1, c2, c3, ⟨j', iv', c4, c5, c6, c7⟩, e1, e2, e3, e4, e5, e6, e7, e8, e9⟩ := r3 i hi
    rw [a1] at c1
    simp only [Option.some.injEq, Prod.mk.injEq, Nat.cast_inj] at c1
    obtain ⟨rfl, rfl, rfl⟩ := c1
    have hjj : j = j' := by
      rw [K.index, List.getElem?_map, Option.map_eq_some_iff] at a5 c5
      obtain ⟨x, x1, rfl⟩ := a5
      obtain ⟨y, y1, rfl⟩ := c5
      simp only at a6 a7 c6 c7
      rcases lt_trichotomy j j' with hh | hh | hh
      · have := intervals_order _ _ _ _ _ _ x1 y1 hh
        omega
      · exact hh
      · have := intervals_order _ _ _ _ _ _ y1 x1 hh
        omega
    subst hjj
    rw [a4] at c4
    have hLL : L = L' := List.inj_on_of_nodup_map (init_keys_nodup he ha h) a2 c2 (Option.some.inj c4)
    subst hLL
    have hda : Spec.recDist getFeat distance rA rX = .ok d1 := by unfold Spec.recDist; rw [b4, b6]; exact b7
    have hdb : Spec.recDist getFeat distance rB rX = .ok d2 := by unfold Spec.recDist; rw [b5, b6]; exact b8
    have hda' : Spec.recDist getFeat' distance' rA' rX' = .ok d1' := by unfold Spec.recDist; rw [e4, e6]; exact e7
    have hdb' : Spec.recDist getFeat' distance' rB' rX' = .ok d2' := by unfold Spec.recDist; rw [e5, e6]; exact e8
    obtain ⟨n1, n2⟩ := sign_nearer hlt b1 b2 b3 hda hdb
    obtain ⟨m1, m2⟩ := sign_nearer hlt' e1 e2 e3 hda' hdb'
    have k1 : lt d1 d2 = lt' d1' d2' := by rw [Bool.eq_iff_iff, ← n1, ← m1]; exact hd L a2 _ _ _
    have k2 : lt d2 d1 = lt' d2' d1' := by rw [Bool.eq_iff_iff, ← n2, ← m2]; exact hd L a2 _ _ _
    rw [b9, e9, k1, k2]
  · rw [List.getElem?_eq_none (by omega), List.getElem?_eq_none (by omega)]

/-- C109: and they have the same results, in the same order, with the same scores to the last bit.  Missing: as in C77 (some regressors of A, filters without suffix that remove other items than the last ones of a level, sizes). -/
theorem C109_results_partial (hf : Spec'.KeptFirst a)
    (hpos : ∀ (i : Nat) (p : Nat × Row), a.db[i]? = some p → p.1 = i) (hfeat : a.feat.length = a.db.length)
    (hA : (∀ f ∈ a.regressors, Spec.readsA a.cols f = false) ∨ (T.filters.ops .ABX ≠ [] ∧ a.on ∈ a.cols.on ∧ a.on ∉ a.cols.by_)) {idx : DBFun Nat → List Val}
    (hidx : ∀ f ∈ allRegs e a, 0 < (idx f).length ∧ ∀ L ∈ T.levels, ∀ t ∈ tripsSpec a L.key, Spec.regValue a.cols f t < (idx f).length)
    (hc : ((allRegs e a).map (fun f => (idx f).length)).prod ≤ 2 ^ 53) (hz : Sizes a T)
    (hd : ∀ L ∈ T.levels, ∀ p q x, nearerAt lt (Spec.recDist getFeat distance) L.feat p q x ↔ nearerAt lt' (Spec.recDist getFeat' distance') L.feat p q x) :
    ∃ rows, collapse c.sortRows ((colRegs T.regressors).map idx) F S = .ok rows ∧ collapse c'.sortRows ((colRegs T.regressors).map idx) F' S' = .ok rows := by
  classical
  have hsq : ∀ L ∈ T.levels, ∀ p ∈ L.frame, p.1 < 94906265 := by
    intro L hL p hp
    have := frame_lt he ha h hL hp
    have := hz.items L hL
    omega
  obtain ⟨rfl, rfl⟩ := C109_scores_partial he ha h hl hl' hN hsrc hlt hlt' hr hr' hS hsq hd
  obtain ⟨outs, a1, -, -, a4⟩ := level_scores he ha hf h hpos hfeat hA hidx hc hz hl hlt hr hS
  obtain ⟨outs', b1, -, -, b4⟩ := level_scores he ha hf h hpos hfeat hA hidx hc hz hl' hlt' hr' hS
  have ho : outs = outs' := by
    apply List.ext_getElem?
    intro j
    by_cases hj : j < F.bys.length
    · obtain ⟨o, g1, Q, abx, d1, -, -, d4, d5, -, -, -, -, -, -, -, -, -, -, -, L, hL, hLk, os, hos, htr⟩ := Distances.forall₂_getElem a4 (List.getElem?_eq_getElem hj)
      obtain ⟨o', g1', Q', abx', d1', -, -, d4', d5', -, -, -, -, -, -, -, -, -, -, -, L', hL', hLk', os', hos', htr'⟩ := Distances.forall₂_getElem b4 (List.getElem?_eq_getElem hj)
      have hLL : L' = L := List.inj_on_of_nodup_map (init_keys_nodup he ha h) hL' hL (hLk'.trans hLk.symm)
      subst hLL
      rw [hN, hsrc, hos] at hos'
      cases hos'
      have hQQ : Q' = Q := written_unique d1' d1 (htr'.symm.trans htr)
      subst hQQ
      rw [← hLk, records_feat he ha h hL hpos hfeat] at d4
      rw [← hLk, records_feat he ha h hL hpos hfeat] at d4'
      have hab : ∀ t ∈ Q', abx t = abx' t := by
        intro t ht
        rw [abx_nearerAt hlt (d4 t ht), abx_nearerAt hlt' (d4' t ht), if_congr (hd L' hL _ _ _) rfl rfl, if_congr (hd L' hL _ _ _) rfl rfl]
      rw [g1, g1', Results.unique (by simp) hab (d5 _ (.refl _)) (d5' _ (.refl _))]
    · rw [List.getElem?_eq_none (by rw [← a4.length_eq]; omega), List.getElem?_eq_none (by rw [← b4.length_eq]; omega)]
  exact ⟨_, a1, by rw [ho]; exact b1⟩

end

/-- C109: without a threshold the results are the same in another process, where groups, sets and names of columns come in another order: every row of one run is a row of the other, with the same labels for the regressors (the columns may be in another
order), the same level, number of triplets and score to the last bit.  Missing: as in C77. -/
theorem C109_processes_partial {e e' : Env} (he : e.Lawful) (he' : e'.Lawful) (hs : e'.sort = e.sort) {a : Args ρ} (ha : a.OK) (hf : Spec'.KeptFirst a) {T T' : Task.Task ρ} (h : init e a = .ok T) (h' : init e' a = .ok T')
    (hpos : ∀ (i : Nat) (p : Nat × Row), a.db[i]? = some p → p.1 = i) (hfeat : a.feat.length = a.db.length)
    (hA : ∀ f ∈ a.regressors, Spec.readsA a.cols f = false) {idx : DBFun Nat → List Val}
    (hidx : ∀ f ∈ allRegs e a, 0 < (idx f).length ∧ ∀ p ∈ a.db, ∀ t ∈ tripsSpec a (levelKey a p.2), Spec.regValue a.cols f t < (idx f).length)
    (hc : ((allRegs e a).map (fun f => (idx f).length)).prod ≤ 2 ^ 53) (hz : Sizes a T) (hz' : Sizes a T') {c c' : Choices} (hl : c.Lawful) (hl' : c'.Lawful)
    {getFeat : ρ → Except Err φ} {distance : φ → φ → Except Err δ} {lt : δ → δ → Bool} (hlt : ∀ x y, lt x y = true → lt y x = false) {F F' : File} {S S' : List Int}
    (hr : Ran c e T getFeat distance lt F S) (hr' : Ran c' e' T' getFeat distance lt F' S') :
    ∃ rows rows', collapse c.sortRows ((colRegs T.regressors).map idx) F S = .ok rows ∧ collapse c'.sortRows ((colRegs T'.regressors).map idx) F' S' = .ok rows' ∧
      ∀ o ∈ rows, ∃ o' ∈ rows', o'.by_ = o.by_ ∧ o'.n = o.n ∧ o'.score = o.score ∧ ((colRegs T'.regressors).zip o'.labels).Perm ((colRegs T.regressors).zip o.labels) := by
  have hreg := allRegs_perm_env (a := a) he he' hs
  obtain ⟨outs, a1, a2, -, a4, a5⟩ := C77_results_partial he ha hf h hpos hfeat (.inl hA) (idx := idx)
    (fun f hf => ⟨(hidx f hf).1, fun L hL t ht => by obtain ⟨p, hp, k⟩ := level_of_db he ha h hL; rw [← k] at ht; exact (hidx f hf).2 p hp t ht⟩) hc hz hl hlt hr
  obtain ⟨outs', b1, b2, -, b4, b5⟩ := C77_results_partial he' ha hf h' hpos hfeat (.inl hA) (idx := idx)
    (fun f hf => ⟨(hidx f (hreg.mem_iff.mp hf)).1, fun L hL t ht => by obtain ⟨p, hp, k⟩ := level_of_db he' ha h' hL; rw [← k] at ht; exact (hidx f (hreg.mem_iff.mp hf)).2 p hp t ht⟩)
    (by rw [(hreg.map _).prod_eq]; exact hc) hz' hl' hlt hr'
  refine ⟨_, _, a1, b1, ?_⟩
  intro o ho
  obtain ⟨out, h1, h2⟩ := List.mem_flatten.mp ho
  obtain ⟨key, hk, abx, g2, g3⟩ := forall₂_mem_right a5 out h1
  obtain ⟨out', h1', abx', g2', g3'⟩ := forall₂_mem_left b5 key ((b4 key).mpr ((a4 key).mp hk))
  have hp : (colRegs T'.regressors).Perm (colRegs T.regressors) := b2.trans (hreg.trans a2.symm)
  obtain ⟨o', q1, q2⟩ := results_reordered hp (fun t ht => IsAbx.unique (g2 t ht) (g2' t ht)) g3 g3' o h2
  exact ⟨o', List.mem_flatten.mpr ⟨out', h1', q1⟩, q2⟩

/-- C109, example: the task `ex2` with threshold 2, once with the distances |v - w| and once with 3 |v - w| + 1, with other numbers of cpus and other buffers: the same file, the same scores, the same results -/
example : ∃ (T : Task.Task Nat) (F : Bool → File) (S : Bool → List Int) (rows : List OutRow), init E0 ex2 = .ok T ∧ rows ≠ [] ∧
    (∀ b, RanT 2 (choices0 (if b then 2 else 3) (if b then 3 else 7)) E0 T (fun r => .ok r) (fun v w => .ok (if b then (v - w) + (w - v) else 3 * ((v - w) + (w - v)) + 1)) (fun x y => decide (x < y)) (F b) (S b)) ∧
    F true = F false ∧ S true = S false ∧ ∀ b, collapse insArgsort ((colRegs T.regressors).map (fun _ => labels0)) (F b) (S b) = .ok rows := by
  obtain ⟨T, F, S, rows, h1, hr, o1, hne⟩ := ex2_runs (fun b v w => if b then (v - w) + (w - v) else 3 * ((v - w) + (w - v)) + 1)
  have hlt : ∀ x y : Nat, decide (x < y) = true → decide (y < x) = false := by intro x y h; simp at h ⊢; omega
  have hl : ∀ b : Bool, (choices0 (if b then 2 else 3) (if b then 3 else 7)).Lawful := fun b => choices0_lawful (by cases b <;> simp)
  have hS : Small E0 T (F true) := by
    obtain ⟨F', hF', d1', d2'⟩ := ex2_file2
    obtain ⟨T', g1, g2⟩ := run_ok hF'
    rw [h1] at g1
    cases g1
    have : F true = F' := C109_file (hl true).bl1 (hl true).bl2 (by omega) (by omega) (hr true).1 g2
    rw [this]
    exact ex2_small h1 (by rw [d1']; decide)
  have hsq : ∀ L ∈ T.levels, ∀ p ∈ L.frame, p.1 < 94906265 := fun L hL p hp => by have := ex2_labels h1 L hL p hp; omega
  have key : F true = F false ∧ S true = S false := by
    refine C109_scores_partial E0_lawful ex2_ok h1 (hl true) (hl false) rfl rfl hlt hlt (hr true) (hr false) hS hsq ?_
    intro L hL p q x
    unfold nearerAt Spec.recDist
    constructor
    · rintro ⟨rp, rq, rx, d1, d2, e1, e2, e3, e4, e5, e6⟩
      refine ⟨rp, rq, rx, _, _, e1, e2, e3, rfl, rfl, ?_⟩
      cases e4
      cases e5
      simp at e6 ⊢
      omega
    · rintro ⟨rp, rq, rx, d1, d2, e1, e2, e3, e4, e5, e6⟩
      refine ⟨rp, rq, rx, _, _, e1, e2, e3, rfl, rfl, ?_⟩
      cases e4
      cases e5
      simp at e6 ⊢
      omega
  refine ⟨T, F, S, rows true, h1, hne, hr, key.1, key.2, fun b => ?_⟩
  cases b
  · rw [← key.1, ← key.2]; exact o1 true
  · exact o1 true

theorem exSeed_sizes {e : Env} (h : (match init e exSeed with
      | .ok T => decide ((∀ L ∈ T.levels, (itemsOf exSeed L.key).length ≤ 128) ∧ (T.levels.map (fun L => (tripsSpec exSeed L.key).length)).sum = 5)
      | _ => true) = true) {T : Task.Task Nat} (hT : init e exSeed = .ok T) : Sizes exSeed T ∧ (T.levels.map (fun L => (tripsSpec exSeed L.key).length)).sum ≤ 6250000 := by
  rw [hT] at h
  simp only [decide_eq_true_eq] at h
  refine ⟨⟨fun L hL => le_max_of_le_left (h.1 L hL), fun L hL => (h.1 L hL).trans (by norm_num), ?_⟩, ?_⟩
  · rw [h.2]
    norm_num
  · rw [h.2]
    norm_num

/-- C109, example: the task `exSeed` of `C109_violated`, without threshold, in two processes that enumerate the across columns in different orders: both runs exist, and the rows of the one are rows of the other -/
example : ∃ T T' F F' S S' rows rows', init E0 exSeed = .ok T ∧ init E1 exSeed = .ok T' ∧ Ran (choices0 2 3) E0 T (fun r => .ok (r * r)) (fun f g => .ok (f % (g + 2) : Nat)) (fun x y => decide (x < y)) F S ∧
    Ran (choices0 3 7) E1 T' (fun r => .ok (r * r)) (fun f g => .ok (f % (g + 2) : Nat)) (fun x y => decide (x < y)) F' S' ∧
    collapse insArgsort ((colRegs T.regressors).map (fun _ => labels0)) F S = .ok rows ∧ collapse insArgsort ((colRegs T'.regressors).map (fun _ => labels0)) F' S' = .ok rows' ∧
    ∀ o ∈ rows, ∃ o' ∈ rows', o'.by_ = o.by_ ∧ o'.n = o.n ∧ o'.score = o.score ∧ ((colRegs T'.regressors).zip o'.labels).Perm ((colRegs T.regressors).zip o.labels) := by
  have hk : Spec'.KeptFirst exSeed := .of_not_bare (by intro f hf; cases hf)
  have hlt : ∀ x y : Nat, decide (x < y) = true → decide (y < x) = false := by intro x y h; simp at h ⊢; omega
  have i0 : (match init E0 exSeed with | .ok _ => true | _ => false) = true := by decide +kernel
  have i1 : (match init E1 exSeed with | .ok _ => true | _ => false) = true := by decide +kernel
  cases h0 : init E0 exSeed with
  | error e => rw [h0] at i0; cases i0
  | ok T => cases h1 : init E1 exSeed with
    | error e => rw [h1] at i1; cases i1
    | ok T' =>
      have hne : ∃ p ∈ exSeed.db, tripsSpec exSeed (levelKey exSeed p.2) ≠ [] := by
        have : (exSeed.db.head?.map (fun p => decide ((tripsSpec exSeed (levelKey exSeed p.2)).length = 5))) = some true := by decide +kernel
        rw [Option.map_eq_some_iff] at this
        obtain ⟨p, hp, hq⟩ := this
        refine ⟨p, List.mem_of_head? hp, fun e => ?_⟩
        rw [e] at hq
        cases hq
      obtain ⟨z0, z1⟩ := exSeed_sizes (by decide +kernel) h0
      obtain ⟨z0', z1'⟩ := exSeed_sizes (by decide +kernel) h1
      obtain ⟨F, S, r⟩ := C77_completes_partial E0_lawful exSeed_ok hk h0 hne (by intro f hf; cases hf) z0 (.inl z1) (c := choices0 2 3) (choices0_lawful (by omega)) (by decide) (getFeat := fun r => .ok (r * r))
        (distance := fun f g => .ok (f % (g + 2) : Nat)) (fun r _ => ⟨_, rfl⟩) (fun _ _ _ _ f g _ _ => ⟨_, rfl⟩) 0 hlt
      obtain ⟨F', S', r'⟩ := C77_completes_partial E1_lawful exSeed_ok hk h1 hne (by intro f hf; cases hf) z0' (.inl z1') (c := choices0 3 7) (choices0_lawful (by omega)) (by decide) (getFeat := fun r => .ok (r * r))
        (distance := fun f g => .ok (f % (g + 2) : Nat)) (fun r _ => ⟨_, rfl⟩) (fun _ _ _ _ f g _ _ => ⟨_, rfl⟩) 0 hlt
      have hpos : ∀ (i : Nat) (p : Nat × Row), exSeed.db[i]? = some p → p.1 = i := by
        intro i p hp
        unfold exSeed at hp
        simp only [List.getElem?_map, List.getElem?_zipIdx, Option.map_map, Option.map_eq_some_iff] at hp
        obtain ⟨x, -, rfl⟩ := hp
        simp
      obtain ⟨rows, rows', q1, q2, q3⟩ := C109_processes_partial E0_lawful E1_lawful rfl exSeed_ok hk h0 h1 hpos (by decide +kernel) (by intro f hf; cases hf) (idx := fun _ => labels0)
        (by
          intro f hf
          refine ⟨by decide, ?_⟩
          have : ∀ f ∈ allRegs E0 exSeed, ∀ p ∈ exSeed.db, ∀ t ∈ tripsSpec exSeed (levelKey exSeed p.2), Spec.regValue exSeed.cols f t < labels0.length := by decide +kernel
          exact this f hf)
        (by decide +kernel) z0 z0' (choices0_lawful (by omega)) (choices0_lawful (by omega)) hlt r r'
      exact ⟨T, T', F, F', S, S', rows, rows', rfl, rfl, r, r', q1, q2, q3⟩

end ABX.Pipeline

#print axioms ABX.Task.C109_violated
#print axioms ABX.Task.C109_names
#print axioms ABX.Pipeline.C109_file
#print axioms ABX.Pipeline.C109_scores_partial
#print axioms ABX.Pipeline.C109_results_partial
#print axioms ABX.Pipeline.C109_processes_partial
