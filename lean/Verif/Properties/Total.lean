import Verif.Proofs.Total
/-!
C112: the rows of the results, weighted by their numbers of triplets, give the mean score of all triplets, of the file and of each level.
-/
namespace ABX.Pipeline
open ExtSort ABX.Task Pairs SideOps Sampler Distances Score EndToEnd Analyze F64 ABX.Spec
variable {ρ φ δ : Type}

/-- C112: for every run with any threshold: the numbers of triplets of the rows add up to the number of triplets of the file, and the scores weighted by them to the sum of the scores of all triplets, up to 2^-52 for each triplet; and so for the rows of each
level.  Missing: as in C77. -/
theorem C112_sums_partial {e : Env} (he : e.Lawful) {a : Args ρ} (ha : a.OK) (hf : Spec'.KeptFirst a) {T : Task.Task ρ} (h : init e a = .ok T)
    (hpos : ∀ (i : Nat) (p : Nat × Row), a.db[i]? = some p → p.1 = i) (hfeat : a.feat.length = a.db.length)
    (hA : (∀ f ∈ a.regressors, Spec.readsA a.cols f = false) ∨ (T.filters.ops .ABX ≠ [] ∧ a.on ∈ a.cols.on ∧ a.on ∉ a.cols.by_)) {idx : DBFun Nat → List Val}
    (hidx : ∀ f ∈ allRegs e a, 0 < (idx f).length ∧ ∀ L ∈ T.levels, ∀ t ∈ tripsSpec a L.key, Spec.regValue a.cols f t < (idx f).length)
    (hc : ((allRegs e a).map (fun f => (idx f).length)).prod ≤ 2 ^ 53) (hz : Sizes a T) {threshold : Nat} {c : Choices} (hl : c.Lawful)
    {getFeat : ρ → Except Err φ} {distance : φ → φ → Except Err δ} {lt : δ → δ → Bool} (hlt : ∀ x y, lt x y = true → lt y x = false) {F : File} {S : List Int}
    (hr : RanT threshold c e T getFeat distance lt F S) (hS : Small e T F) :
    ∃ rows, collapse c.sortRows ((colRegs T.regressors).map idx) F S = .ok rows ∧ Spec.Sums rows S ∧ (scoredLines a.by_ (a.db.map (·.2)) F S).map (·.2) = S ∧
      ∀ (j : Nat) (key : List Val) (x y : Int), F.bys[j]? = some key → F.byIndex[j]? = some (x, y) → Spec.Sums (rows.filter (fun o => decide (o.by_ = key))) (npSlice S x.toNat y.toNat) := by
  obtain ⟨outs, a1, a2, a3, a4⟩ := level_scores he ha hf h hpos hfeat hA hidx hc hz hl hlt hr hS
  obtain ⟨total, t, tb, bouts, K⟩ := generate_ok hl.bl1 hl.bl2 hr.file
  have hb : F.bys.length = F.byIndex.length := K.slices.2
  have hlen : S.length = F.data.length := by
    obtain ⟨hF, P, jobs, load, zero, s, hP, hj, hst, hret, hsc⟩ := hr
    obtain ⟨S', q1, q2, -⟩ := C18_scores_partial he ha h hl.bl1 hl.bl2 hF hS (fun L hL p hp => by have := frame_lt he ha h hL hp; have := hz.items L hL; omega) hl.sortPairs hl.bufs hP hl.sortJobs hj hst hret hlt hl.bufLen
    rw [hsc] at q1
    cases q1
    exact q2
  have hsum : ((kept bouts).map (fun p => (levelTrips p).length)).sum = F.data.length := by
    rw [K.data, List.length_map, List.length_flatMap]
  have hlev : ∀ (j : Nat) (key : List Val) (x y : Int), F.bys[j]? = some key → F.byIndex[j]? = some (x, y) → ∃ out, outs[j]? = some out ∧ Spec.Sums out (npSlice S x.toNat y.toNat) ∧ ∀ o ∈ out, o.by_ = key := by
    intro j key x y hj hxy
    obtain ⟨out, g1, Q, abx, -, -, -, -, d5, -, w, j', x', y', w1, w2, w3, -, -, w6, -⟩ := Distances.forall₂_getElem a4 hj
    have hjj : j = j' := (List.getElem?_inj (List.getElem?_eq_some_iff.mp hj).1 a3).mp (hj.trans w2.symm)
    subst hjj
    rw [hxy] at w3
    cases w3
    obtain ⟨s1, s2⟩ := Spec.Sums.of_results (d5 Q (.refl _)) (w := w) (fun t ht => (w1 t ht).2)
    refine ⟨out, g1, ?_, s2⟩
    rw [Int.toNat_natCast, Int.toNat_natCast, w6]
    exact s1
  have hol : outs.length = F.byIndex.length := by rw [← hb, a4.length_eq]
  refine ⟨outs.flatten, a1, ?_, scoredLines_snd K.index hb hlen hsum, ?_⟩
  · have hS' : (F.byIndex.map (fun q => npSlice S q.1.toNat q.2.toNat)).flatten = S := by
      rw [K.index, List.map_map]
      have := slices_flatten S ((kept bouts).map (fun p => (levelTrips p).length)) 0 (by omega)
      rw [List.drop_zero] at this
      conv_rhs => rw [← this]
      simp [Function.comp_def]
    conv => arg 2; rw [← hS']
    refine Spec.Sums.flatten ?_
    rw [List.forall₂_iff_get]
    refine ⟨by rw [List.length_map, hol], fun j h1 h2 => ?_⟩
    obtain ⟨out, g1, g2, -⟩ := hlev j _ _ _ (List.getElem?_eq_getElem (by omega)) (List.getElem?_eq_getElem (by omega : j < F.byIndex.length))
    rw [List.getElem?_eq_getElem h1] at g1
    cases g1
    simpa using g2
  · intro j key x y hj hxy
    obtain ⟨out, g1, g2, g3⟩ := hlev j key x y hj hxy
    have : outs.flatten.filter (fun o => decide (o.by_ = key)) = out := by
      rw [List.filter_flatten]
      have hmap : outs.map (List.filter (fun o => decide (o.by_ = key))) = (List.replicate j []) ++ out :: List.replicate (outs.length - j - 1) [] := by
        apply List.ext_getElem?
        intro i
        rw [List.getElem?_map]
        have hjl := (List.getElem?_eq_some_iff.mp g1).1
        rcases lt_trichotomy i j with hi | hi | hi
        · rw [List.getElem?_append_left (by simpa using hi), List.getElem?_replicate, if_pos hi]
          obtain ⟨o', q1, -, q3⟩ := hlev i _ _ _ (List.getElem?_eq_getElem (by omega)) (List.getElem?_eq_getElem (by omega : i < F.byIndex.length))
          rw [q1, Option.map_some, Option.some.injEq, List.filter_eq_nil_iff]
          intro o ho
          rw [q3 o ho, decide_eq_true_eq]
          intro e
          have := (List.getElem?_inj (i := i) (j := j) (by omega) a3).mp ((List.getElem?_eq_getElem (by omega)).trans ((congrArg some e).trans hj.symm))
          omega
        · subst hi
          rw [g1, List.getElem?_append_right (by simp), List.length_replicate, Nat.sub_self, List.getElem?_cons_zero, Option.map_some, List.filter_eq_self.mpr (fun o ho => by simpa using g3 o ho)]
        · rw [List.getElem?_append_right (by simp; omega), List.length_replicate, show i - j = (i - j - 1) + 1 by omega, List.getElem?_cons_succ, List.getElem?_replicate]
          by_cases hil : i < outs.length
          · rw [if_pos (by omega)]
            obtain ⟨o', q1, -, q3⟩ := hlev i _ _ _ (List.getElem?_eq_getElem (by omega)) (List.getElem?_eq_getElem (by omega : i < F.byIndex.length))
            rw [q1, Option.map_some, Option.some.injEq, List.filter_eq_nil_iff]
            intro o ho
            rw [q3 o ho, decide_eq_true_eq]
            intro e
            have := (List.getElem?_inj (i := i) (j := j) (by omega) a3).mp ((List.getElem?_eq_getElem (by omega)).trans ((congrArg some e).trans hj.symm))
            omega
          · rw [if_neg (by omega), List.getElem?_eq_none (by omega)]
            rfl
      rw [hmap]
      simp
    rw [this]
    exact g2

/-- the weighted mean -/
theorem Sums.mean {rows : List OutRow} {S : List Int} (h : Spec.Sums rows S) (hS : S ≠ []) :
    |(rows.map (fun o => (o.n : ℚ) * o.score)).sum / ((rows.map (·.n)).sum : Nat) - (S.map (fun x : Int => ((x : ℚ) + 1) / 2)).sum / S.length| ≤ 2 ^ (-52 : ℤ) := by
  have hp : (0 : ℚ) < S.length := by exact_mod_cast List.length_pos_iff.mpr hS
  rw [h.count, ← sub_div, abs_div, abs_of_pos hp, div_le_iff₀ hp, mul_comm]
  exact h.total

section
variable {e e' : Env} (he : e.Lawful) (he' : e'.Lawful) {a a' : Args ρ} (ha : a.OK) (ha' : a'.OK) (hf : Spec'.KeptFirst a) (hf' : Spec'.KeptFirst a') {T T' : Task.Task ρ} (h : init e a = .ok T) (h' : init e' a' = .ok T')
    (hdb : a'.db = a.db) (hft : a'.feat = a.feat) (hcols : a'.cols = a.cols) (hon : a'.on = a.on) (hac : a'.across = a.across) (hby : a'.by_ = a.by_) (hfil : a'.filters = a.filters)
    (hpos : ∀ (i : Nat) (p : Nat × Row), a.db[i]? = some p → p.1 = i) (hfeat : a.feat.length = a.db.length) (hz : Sizes a T) (hz' : Sizes a' T') {c c' : Choices} (hl : c.Lawful) (hl' : c'.Lawful)
    {getFeat : ρ → Except Err φ} {distance : φ → φ → Except Err δ} {lt : δ → δ → Bool} (hlt : ∀ x y, lt x y = true → lt y x = false) {F F' : File} {S S' : List Int}
    (hr : Ran c e T getFeat distance lt F S) (hr' : Ran c' e' T' getFeat distance lt F' S')
include he he' ha ha' hf hf' h h' hdb hft hcols hon hac hby hfil hpos hfeat hz hz' hl hl' hlt hr hr'

/-- C112: two tasks that differ only in their regressors, run without threshold in any two processes: the triplets with their scores are the same, in some order.  Missing: as in C77. -/
theorem C112_scores_partial : (scoredLines a'.by_ (a'.db.map (·.2)) F' S').Perm (scoredLines a.by_ (a.db.map (·.2)) F S) := by
  obtain ⟨s1, w1⟩ := ScoredRun.of_ran he ha hf h hpos hfeat hz hl hlt hr
  obtain ⟨s2, w2⟩ := ScoredRun.of_ran he' ha' hf' h' (by rw [hdb]; exact hpos) (by rw [hft, hdb]; exact hfeat) hz' hl' hlt hr'
  have n1 : (scoredLines a.by_ (a.db.map (·.2)) F S).Nodup := List.Nodup.of_map (·.1) (by rw [s1.spec.1]; exact (C110_lines_partial w1).1)
  have n2 : (scoredLines a'.by_ (a'.db.map (·.2)) F' S').Nodup := List.Nodup.of_map (·.1) (by rw [s2.spec.1]; exact (C110_lines_partial w2).1)
  rw [List.perm_ext_iff_of_nodup n2 n1]
  have hi := scored_iff s1 s2 hft (C := fun _ => True) (by
    intro u
    rw [mem_lines w1, mem_lines w2, hdb, hcols, hon, hac, hby, hfil, and_true])
  rintro ⟨l, w⟩
  constructor
  · intro hq
    obtain ⟨u, hu, -⟩ := s2.spec.2 _ hq
    dsimp only at hu
    subst hu
    exact ((hi u w).mp hq).1
  · intro hq
    obtain ⟨u, hu, -⟩ := s1.spec.2 _ hq
    dsimp only at hu
    subst hu
    exact (hi u w).mpr ⟨hq, trivial⟩

/-- C112: the choice of regressors divides the triplets into other rows, but does not change the number of triplets of all rows nor, up to 2^-51, the mean of the scores weighted by the numbers of triplets.  Missing: as in C77. -/
theorem C112_regressors_partial (hA : (∀ f ∈ a.regressors, Spec.readsA a.cols f = false) ∨ (T.filters.ops .ABX ≠ [] ∧ a.on ∈ a.cols.on ∧ a.on ∉ a.cols.by_))
    (hA' : (∀ f ∈ a'.regressors, Spec.readsA a'.cols f = false) ∨ (T'.filters.ops .ABX ≠ [] ∧ a'.on ∈ a'.cols.on ∧ a'.on ∉ a'.cols.by_)) {idx idx' : DBFun Nat → List Val}
    (hidx : ∀ f ∈ allRegs e a, 0 < (idx f).length ∧ ∀ L ∈ T.levels, ∀ t ∈ tripsSpec a L.key, Spec.regValue a.cols f t < (idx f).length)
    (hidx' : ∀ f ∈ allRegs e' a', 0 < (idx' f).length ∧ ∀ L ∈ T'.levels, ∀ t ∈ tripsSpec a' L.key, Spec.regValue a'.cols f t < (idx' f).length)
    (hc : ((allRegs e a).map (fun f => (idx f).length)).prod ≤ 2 ^ 53) (hc' : ((allRegs e' a').map (fun f => (idx' f).length)).prod ≤ 2 ^ 53) :
    ∃ rows rows', collapse c.sortRows ((colRegs T.regressors).map idx) F S = .ok rows ∧ collapse c'.sortRows ((colRegs T'.regressors).map idx') F' S' = .ok rows' ∧ (rows'.map (·.n)).sum = (rows.map (·.n)).sum ∧
      |(rows'.map (fun o => (o.n : ℚ) * o.score)).sum / ((rows'.map (·.n)).sum : Nat) - (rows.map (fun o => (o.n : ℚ) * o.score)).sum / ((rows.map (·.n)).sum : Nat)| ≤ 2 ^ (-51 : ℤ) := by
  have hS := small_of he ha hf h hz hl.num hl.bl1 hl.bl2 hr.file
  have hS' := small_of he' ha' hf' h' hz' hl'.num hl'.bl1 hl'.bl2 hr'.file
  obtain ⟨rows, r1, r2, r3, -⟩ := C112_sums_partial he ha hf h hpos hfeat hA hidx hc hz hl hlt hr hS
  obtain ⟨rows', r1', r2', r3', -⟩ := C112_sums_partial he' ha' hf' h' (by rw [hdb]; exact hpos) (by rw [hft, hdb]; exact hfeat) hA' hidx' hc' hz' hl' hlt hr' hS'
  have hp := (C112_scores_partial he he' ha ha' hf hf' h h' hdb hft hcols hon hac hby hfil hpos hfeat hz hz' hl hl' hlt hr hr').map (·.2)
  rw [r3, r3'] at hp
  have hn : (rows'.map (·.n)).sum = (rows.map (·.n)).sum := by rw [r2.count, r2'.count, hp.length_eq]
  refine ⟨rows, rows', r1, r1', hn, ?_⟩
  by_cases h0 : S = []
  · have e1 : (rows.map (·.n)).sum = 0 := by rw [r2.count, h0]; rfl
    rw [hn, e1, Nat.cast_zero, div_zero, div_zero, sub_zero, abs_zero]
    positivity
  · have h0' : S' ≠ [] := by
      rintro rfl
      exact h0 hp.nil_eq.symm
    have m1 := Sums.mean r2 h0
    have m2 := Sums.mean r2' h0'
    have e2 : (S'.map (fun x : Int => ((x : ℚ) + 1) / 2)).sum / S'.length = (S.map (fun x : Int => ((x : ℚ) + 1) / 2)).sum / S.length := by rw [(hp.map _).sum_eq, hp.length_eq]
    rw [e2] at m2
    have : (2 : ℚ) ^ (-51 : ℤ) = 2 ^ (-52 : ℤ) + 2 ^ (-52 : ℤ) := by norm_num
    rw [this]
    rw [abs_le] at m1 m2 ⊢
    constructor <;> linarith [m1.1, m1.2, m2.1, m2.2]

end

/-- the table of `ex2` without 'by' columns, with a regressor for the value of "sp" of B -/
def ex2Sp : Args Nat := { ex2All with regressors := [columnReg E0 ex2.db ("sp", .B)] }

theorem ex2All_ok : ex2All.OK := Args.OK.flat rfl (by decide +kernel) (by intro f hf; cases hf) (by intro f hf; cases hf) (by intro f hf; cases hf) (by intro f hf; cases hf) (by decide +kernel)

theorem ex2Sp_ok : ex2Sp.OK := by
  refine Args.OK.flat rfl (by decide +kernel) (by intro f hf; cases hf) ?_ (by intro f hf; cases hf) ?_ (by decide +kernel)
  · intro f hf
    rw [List.mem_singleton.mp hf]
    unfold Avail
    decide +kernel
  · intro f hf
    rw [List.mem_singleton.mp hf]
    decide +kernel

/-- C112, example: the 18 triplets of the table of `ex2`, with the default regressors and with one for the value of "sp" of B in addition: two runs with different numbers of cpus, and results with other rows but the same number of triplets and, up to rounding,
the same weighted mean -/
example : ∃ T T' F F' S S' rows rows', init E0 ex2All = .ok T ∧ init E0 ex2Sp = .ok T' ∧ Ran (choices0 2 3) E0 T (fun r => .ok (r * r)) (fun f g => .ok (f % (g + 2) : Nat)) (fun x y => decide (x < y)) F S ∧
    Ran (choices0 3 7) E0 T' (fun r => .ok (r * r)) (fun f g => .ok (f % (g + 2) : Nat)) (fun x y => decide (x < y)) F' S' ∧ (rows.map (·.n)).sum = 18 ∧
    collapse insArgsort ((colRegs T.regressors).map (fun _ => labels0)) F S = .ok rows ∧ collapse insArgsort ((colRegs T'.regressors).map (fun _ => labels0)) F' S' = .ok rows' ∧
    (rows'.map (·.n)).sum = (rows.map (·.n)).sum ∧
    |(rows'.map (fun o => (o.n : ℚ) * o.score)).sum / ((rows'.map (·.n)).sum : Nat) - (rows.map (fun o => (o.n : ℚ) * o.score)).sum / ((rows.map (·.n)).sum : Nat)| ≤ 2 ^ (-51 : ℤ) := by
  have hlt : ∀ x y : Nat, decide (x < y) = true → decide (y < x) = false := by intro x y h; simp at h ⊢; omega
  have sizes : ∀ {a : Args Nat} {T : Task.Task Nat}, init E0 a = .ok T → (match init E0 a with
      | .ok T => decide ((∀ L ∈ T.levels, (itemsOf a L.key).length ≤ 128) ∧ (T.levels.map (fun L => (tripsSpec a L.key).length)).sum = 18)
      | _ => false) = true → Sizes a T ∧ (T.levels.map (fun L => (tripsSpec a L.key).length)).sum = 18 := by
    intro a T hT h
    rw [hT] at h
    simp only [decide_eq_true_eq] at h
    exact ⟨⟨fun L hL => le_max_of_le_left (h.1 L hL), fun L hL => (h.1 L hL).trans (by norm_num), by rw [h.2]; norm_num⟩, h.2⟩
  have i0 : (match init E0 ex2All with | .ok _ => true | _ => false) = true := by decide +kernel
  have i1 : (match init E0 ex2Sp with | .ok _ => true | _ => false) = true := by decide +kernel
  have k0 : Spec'.KeptFirst ex2All := .of_not_bare (by intro f hf; cases hf)
  have k1 : Spec'.KeptFirst ex2Sp := .of_not_bare (by intro f hf; cases hf)
  cases h0 : init E0 ex2All with
  | error e => rw [h0] at i0; cases i0
  | ok T => cases h1 : init E0 ex2Sp with
    | error e => rw [h1] at i1; cases i1
    | ok T' =>
      obtain ⟨z0, n0⟩ := sizes h0 (by decide +kernel)
      obtain ⟨z1, n1⟩ := sizes h1 (by decide +kernel)
      have ne : ∀ {a : Args Nat}, (a.db[1]?.map (fun p => decide (tripsSpec a (levelKey a p.2) = []))) = some false → ∃ p ∈ a.db, tripsSpec a (levelKey a p.2) ≠ [] := by
        intro a hne
        rw [Option.map_eq_some_iff] at hne
        obtain ⟨p, hp, hq⟩ := hne
        exact ⟨p, List.mem_of_getElem? hp, by simpa using hq⟩
      obtain ⟨F, S, r⟩ := C77_completes_partial E0_lawful ex2All_ok k0 h0 (ne (by decide +kernel)) (by intro f hf; cases hf) z0 (.inl (by rw [n0]; norm_num)) (c := choices0 2 3) (choices0_lawful (by omega)) (by decide)
        (getFeat := fun r => .ok (r * r)) (distance := fun f g => .ok (f % (g + 2) : Nat)) (fun r _ => ⟨_, rfl⟩) (fun _ _ _ _ f g _ _ => ⟨_, rfl⟩) 0 hlt
      obtain ⟨F', S', r'⟩ := C77_completes_partial E0_lawful ex2Sp_ok k1 h1 (ne (by decide +kernel)) (by intro f hf; rw [List.mem_singleton.mp hf]; decide +kernel) z1 (.inl (by rw [n1]; norm_num)) (c := choices0 3 7) (choices0_lawful (by omega)) (by decide)
        (getFeat := fun r => .ok (r * r)) (distance := fun f g => .ok (f % (g + 2) : Nat)) (fun r _ => ⟨_, rfl⟩) (fun _ _ _ _ f g _ _ => ⟨_, rfl⟩) 0 hlt
      have hx0 : ∀ f ∈ allRegs E0 ex2All, 0 < labels0.length ∧ ∀ L ∈ T.levels, ∀ t ∈ tripsSpec ex2All L.key, Spec.regValue ex2All.cols f t < labels0.length := by
        intro f hf
        refine ⟨by decide, fun L hL => ?_⟩
        obtain ⟨p, hp, e⟩ := level_of_db E0_lawful ex2All_ok h0 hL
        rw [← e]
        have : ∀ f ∈ allRegs E0 ex2All, ∀ p ∈ ex2All.db, ∀ t ∈ tripsSpec ex2All (levelKey ex2All p.2), Spec.regValue ex2All.cols f t < labels0.length := by decide +kernel
        exact this f hf p hp
      have hx1 : ∀ f ∈ allRegs E0 ex2Sp, 0 < labels0.length ∧ ∀ L ∈ T'.levels, ∀ t ∈ tripsSpec ex2Sp L.key, Spec.regValue ex2Sp.cols f t < labels0.length := by
        intro f hf
        refine ⟨by decide, fun L hL => ?_⟩
        obtain ⟨p, hp, e⟩ := level_of_db E0_lawful ex2Sp_ok h1 hL
        rw [← e]
        have : ∀ f ∈ allRegs E0 ex2Sp, ∀ p ∈ ex2Sp.db, ∀ t ∈ tripsSpec ex2Sp (levelKey ex2Sp p.2), Spec.regValue ex2Sp.cols f t < labels0.length := by decide +kernel
        exact this f hf p hp
      obtain ⟨rows, rows', q1, q2, q3, q4⟩ := C112_regressors_partial E0_lawful E0_lawful ex2All_ok ex2Sp_ok k0 k1 h0 h1 rfl rfl rfl rfl rfl rfl rfl ex2_pos (by decide +kernel) z0 z1 (choices0_lawful (by omega)) (choices0_lawful (by omega)) hlt r r'
        (.inl (by intro f hf; cases hf)) (.inl (by intro f hf; rw [List.mem_singleton.mp hf]; decide +kernel)) (idx := fun _ => labels0) (idx' := fun _ => labels0) hx0 hx1 (by decide +kernel) (by decide +kernel)
      refine ⟨T, T', F, F', S, S', rows, rows', rfl, rfl, r, r', ?_, q1, q2, q3, q4⟩
      obtain ⟨rows2, s1, s2, -⟩ := C112_sums_partial E0_lawful ex2All_ok k0 h0 ex2_pos (by decide +kernel) (.inl (by intro f hf; cases hf)) (idx := fun _ => labels0) hx0 (by decide +kernel) z0 (choices0_lawful (by omega)) hlt r
        (small_of E0_lawful ex2All_ok k0 h0 z0 insArgsort_law (by decide) (by decide) r.file)
      rw [show (choices0 2 3).sortRows = insArgsort from rfl] at s1 q1
      rw [q1] at s1
      cases s1
      obtain ⟨total, t, tb, outs, K⟩ := generate_ok (by decide) (by decide) r.file
      obtain ⟨hF, P, jobs, load, zero, s, hP, hj, hst, hret, hsc⟩ := r
      have hS := small_of E0_lawful ex2All_ok k0 h0 z0 insArgsort_law (by decide) (by decide) hF
      obtain ⟨S2, u1, u2, -⟩ := C18_scores_partial E0_lawful ex2All_ok h0 (by decide) (by decide) hF hS (fun L hL p hp => by have := frame_lt E0_lawful ex2All_ok h0 hL hp; have := z0.items L hL; omega)
        insArgsort_law bufs0_pos hP insArgsort_law hj hst hret hlt (choices0_lawful (n := 2) (m := 3) (by omega)).bufLen
      rw [hsc] at u1
      cases u1
      rw [s2.count, u2, data_length E0_lawful ex2All_ok k0 h0 insArgsort_law K, n0]

end ABX.Pipeline

#print axioms ABX.Pipeline.C112_sums_partial
#print axioms ABX.Pipeline.C112_scores_partial
#print axioms ABX.Pipeline.C112_regressors_partial
