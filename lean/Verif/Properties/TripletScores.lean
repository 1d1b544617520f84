import Verif.Proofs.TripletScores
import Verif.Properties.TaskLines
import Verif.Properties.Reproduce
/-!
C111: the score of a triplet in terms of the lines of the item table: it is the comparison of the distances between the records of its three lines, hence the same in all tasks, levels and runs.
-/
namespace ABX.Pipeline
open ExtSort ABX.Task Pairs SideOps Sampler Distances Score EndToEnd Analyze F64 ABX.Spec
variable {ρ φ δ : Type}

/-- C111: for every run, with a threshold or without: every row of the task file has one score, and it is the comparison of the distances between the records of the three lines of the table that the row names.  Holds also with filters that remove other items
than the last ones of a level (the rows are then not those of the claim C11, but their scores are those of the lines that they name).  Missing: sizes beyond those of C12 and C16. -/
theorem C111_scores_partial {e : Env} (he : e.Lawful) {a : Args ρ} (ha : a.OK) {T : Task.Task ρ} (h : init e a = .ok T) (hpos : ∀ (i : Nat) (p : Nat × Row), a.db[i]? = some p → p.1 = i) (hfeat : a.feat.length = a.db.length)
    {threshold : Nat} {c : Choices} (hl : c.Lawful) {getFeat : ρ → Except Err φ} {distance : φ → φ → Except Err δ} {lt : δ → δ → Bool} (hlt : ∀ x y, lt x y = true → lt y x = false) {F : File} {S : List Int}
    (hr : RanT threshold c e T getFeat distance lt F S) (hS : Small e T F) (hsq : ∀ L ∈ T.levels, ∀ p ∈ L.frame, p.1 < 94906265) :
    (scoredLines a.by_ (a.db.map (·.2)) F S).map (·.1) = fileLines a.by_ (a.db.map (·.2)) (some F) ∧
    ∀ q ∈ scoredLines a.by_ (a.db.map (·.2)) F S, ∃ u, q.1 = lines u ∧ IsLineScore lt (Spec.recDist getFeat distance) a.feat u q.2 := by
  obtain ⟨hF, P, jobs, load, zero, s, hP, hj, hst, hret, hsc⟩ := hr
  obtain ⟨S', q1, q2, q3⟩ := C18_scores_partial he ha h hl.bl1 hl.bl2 hF hS hsq hl.sortPairs hl.bufs hP hl.sortJobs hj hst hret hlt hl.bufLen
  rw [hsc] at q1
  cases q1
  obtain ⟨total, t, tb, outs, K⟩ := generate_ok hl.bl1 hl.bl2 hF
  refine ⟨scoredLines_fst q2.ge, ?_⟩
  intro q hq
  unfold scoredLines at hq
  obtain ⟨⟨key, iv⟩, hp, hq⟩ := List.mem_flatMap.mp hq
  obtain ⟨z, hz, rfl⟩ := List.mem_map.mp hq
  obtain ⟨n, hn⟩ := List.getElem?_of_mem hp
  rw [List.getElem?_zip_eq_some] at hn
  obtain ⟨n1, n2⟩ := hn
  obtain ⟨k, hk⟩ := List.getElem?_of_mem hz
  dsimp only at n1 n2 hk ⊢
  rw [List.getElem?_drop, List.getElem?_take] at hk
  split at hk
  · rename_i hky
    rw [List.getElem?_zip_eq_some] at hk
    obtain ⟨k1, k2⟩ := hk
    obtain ⟨A, B, X, L, rA, rB, rX, fA, fB, fX, dAX, dBX, g1, g2, g3, ⟨j', iv', g4, g5, g6, g7⟩, g8, g9, g10, g11, g12, g13, g14, g15, g16⟩ := q3 _ (List.getElem?_eq_some_iff.mp k1).1
    rw [k1] at g1
    rw [k2] at g16
    have hjj : j' = n := by
      rw [K.index, List.getElem?_map, Option.map_eq_some_iff] at g5 n2
      obtain ⟨p, hi, rfl⟩ := g5
      obtain ⟨p', hi', rfl⟩ := n2
      rcases lt_trichotomy j' n with hlt' | heq | hlt'
      · have := intervals_order _ _ _ _ _ _ hi hi' hlt'
        simp at g6 g7 hky
        omega
      · exact heq
      · have := intervals_order _ _ _ _ _ _ hi' hi hlt'
        simp at g6 g7 hky
        omega
    subst hjj
    rw [n1] at g4
    cases g4
    have hrec := records_feat he ha h g2 hpos hfeat
    rw [← hrec] at g8 g9 g10
    have hl' : a.feat.length = (a.db.map (·.2)).length := by rw [List.length_map, hfeat]
    obtain ⟨iA, l1, m1⟩ := record_line hl' g8
    obtain ⟨iB, l2, m2⟩ := record_line hl' g9
    obtain ⟨iX, l3, m3⟩ := record_line hl' g10
    refine ⟨(iA, iB, iX), ?_, rA, rB, rX, dAX, dBX, m1, m2, m3, ?_, ?_, Option.some.inj g16⟩
    · have hzz := Option.some.inj g1
      rw [hzz]
      have hsk : (if a.by_ = [] then [] else L.key) = specKey a L.key := rfl
      rw [hsk, l1, l2, l3]
      rfl
    · unfold Spec.recDist; rw [g11, g13]; exact g14
    · unfold Spec.recDist; rw [g12, g13]; exact g15
  · cases hk

/-- `F` and `S` are the task file and the scores of a complete run on the records of `a`, with any threshold, random numbers, orders, buffers and numbers of cpus; sizes as in C12 and C16 -/
def ScoredRun (a : Args ρ) (getFeat : ρ → Except Err φ) (distance : φ → φ → Except Err δ) (lt : δ → δ → Bool) (F : File) (S : List Int) : Prop :=
  ∃ (e : Env) (T : Task.Task ρ) (threshold : Nat) (c : Choices), e.Lawful ∧ a.OK ∧ init e a = .ok T ∧ (∀ (i : Nat) (p : Nat × Row), a.db[i]? = some p → p.1 = i) ∧ a.feat.length = a.db.length ∧ c.Lawful ∧
    (∀ x y, lt x y = true → lt y x = false) ∧ RanT threshold c e T getFeat distance lt F S ∧ Small e T F ∧ ∀ L ∈ T.levels, ∀ p ∈ L.frame, p.1 < 94906265

section
variable {a a' : Args ρ} {getFeat : ρ → Except Err φ} {distance : φ → φ → Except Err δ} {lt : δ → δ → Bool} {F F' : File} {S S' : List Int} (h : ScoredRun a getFeat distance lt F S) (h' : ScoredRun a' getFeat distance lt F' S')

include h in
theorem ScoredRun.spec : (scoredLines a.by_ (a.db.map (·.2)) F S).map (·.1) = fileLines a.by_ (a.db.map (·.2)) (some F) ∧
    ∀ q ∈ scoredLines a.by_ (a.db.map (·.2)) F S, ∃ u, q.1 = lines u ∧ IsLineScore lt (Spec.recDist getFeat distance) a.feat u q.2 := by
  obtain ⟨e, T, threshold, c, he, ha, hT, hp, hf, hl, hlt, hr, hS, hsq⟩ := h
  exact C111_scores_partial he ha hT hp hf hl hlt hr hS hsq

include h in
theorem ScoredRun.score {u : Nat × Nat × Nat} {w : Int} (hw : (lines u, w) ∈ scoredLines a.by_ (a.db.map (·.2)) F S) : IsLineScore lt (Spec.recDist getFeat distance) a.feat u w := by
  obtain ⟨v, e, hv⟩ := h.spec.2 _ hw
  rw [lines_inj e]
  exact hv

include h in
theorem ScoredRun.exists {u : Nat × Nat × Nat} (hu : lines u ∈ fileLines a.by_ (a.db.map (·.2)) (some F)) : ∃ w, (lines u, w) ∈ scoredLines a.by_ (a.db.map (·.2)) F S := by
  rw [← h.spec.1] at hu
  obtain ⟨⟨l, w⟩, q1, q2⟩ := List.mem_map.mp hu
  dsimp only at q2
  subst q2
  exact ⟨w, q1⟩

include h in
theorem ScoredRun.mem {u : Nat × Nat × Nat} {w : Int} (hw : (lines u, w) ∈ scoredLines a.by_ (a.db.map (·.2)) F S) : lines u ∈ fileLines a.by_ (a.db.map (·.2)) (some F) := by
  rw [← h.spec.1]
  exact List.mem_map.mpr ⟨_, hw, rfl⟩

include h h'

/-- C111: two runs of any two tasks (other 'on', 'across' and 'by' columns, filters, regressors, thresholds, random numbers) with the same features and distance, on tables where the lines `i` of the one and `σ i` of the other have the same records: a triplet
of lines that is in both files has the same score in both.  Missing: sizes as in C111_scores_partial. -/
theorem C111_selection_partial {σ : Nat → Nat} (hσ : ∀ i < a'.feat.length, a'.feat[i]? = a.feat[σ i]?) {u : Nat × Nat × Nat} {w w' : Int} (hw : (lines (σ u.1, σ u.2.1, σ u.2.2), w) ∈ scoredLines a.by_ (a.db.map (·.2)) F S)
    (hw' : (lines u, w') ∈ scoredLines a'.by_ (a'.db.map (·.2)) F' S') : w = w' := by
  have q := h.score hw
  have q' := h'.score hw'
  refine q.unique (?_ : IsLineScore lt _ a.feat _ w')
  obtain ⟨rA, rB, rX, d, d', a1, a2, a3, r⟩ := q'
  refine ⟨rA, rB, rX, d, d', ?_, ?_, ?_, r⟩
  · rw [← hσ _ (List.getElem?_eq_some_iff.mp a1).1, a1]
  · rw [← hσ _ (List.getElem?_eq_some_iff.mp a2).1, a2]
  · rw [← hσ _ (List.getElem?_eq_some_iff.mp a3).1, a3]

/-- C111 on the same table: the score of a triplet does not depend on the task. -/
theorem C111_same_partial (hf : a'.feat = a.feat) {u : Nat × Nat × Nat} {w w' : Int} (hw : (lines u, w) ∈ scoredLines a.by_ (a.db.map (·.2)) F S) (hw' : (lines u, w') ∈ scoredLines a'.by_ (a'.db.map (·.2)) F' S') : w = w' :=
  C111_selection_partial h h' (σ := id) (fun i _ => by rw [hf]; rfl) hw hw'

theorem scored_iff (hf : a'.feat = a.feat) {C : Nat × Nat × Nat → Prop} (hC : ∀ u, lines u ∈ fileLines a'.by_ (a'.db.map (·.2)) (some F') ↔ lines u ∈ fileLines a.by_ (a.db.map (·.2)) (some F) ∧ C u) (u : Nat × Nat × Nat) (w : Int) :
    (lines u, w) ∈ scoredLines a'.by_ (a'.db.map (·.2)) F' S' ↔ (lines u, w) ∈ scoredLines a.by_ (a.db.map (·.2)) F S ∧ C u := by
  constructor
  · intro hw
    obtain ⟨h1, h2⟩ := (hC u).mp (h'.mem hw)
    obtain ⟨w', hw'⟩ := h.exists h1
    rw [← C111_same_partial h h' hf hw' hw]
    exact ⟨hw', h2⟩
  · rintro ⟨hw, h2⟩
    obtain ⟨w', hw'⟩ := h'.exists ((hC u).mpr ⟨h.mem hw, h2⟩)
    rw [C111_same_partial h h' hf hw hw']
    exact hw'

/-- C111, C110: with more filters, the scored triplets of the run are those of a run without them of which the filters hold, with the same scores (without threshold). -/
theorem C111_filters_partial (hF : Task.Written a (some F)) (hF' : Task.Written a' (some F')) (hf : a'.feat = a.feat) (hd : a'.db.map (·.2) = a.db.map (·.2)) (hc : a'.cols = a.cols) (hon : a'.on = a.on) (hac : a'.across = a.across) (hby : a'.by_ = a.by_)
    {fs : List (DBFun Bool)} (hfs : a'.filters = a.filters ++ fs) (u : Nat × Nat × Nat) (w : Int) :
    (lines u, w) ∈ scoredLines a'.by_ (a'.db.map (·.2)) F' S' ↔ (lines u, w) ∈ scoredLines a.by_ (a.db.map (·.2)) F S ∧
      ∀ rA rB rX, (a.db.map (·.2))[u.1]? = some rA → (a.db.map (·.2))[u.2.1]? = some rB → (a.db.map (·.2))[u.2.2]? = some rX → ∀ f ∈ fs, Spec.holds a.cols f rA rB rX = true :=
  scored_iff h h' hf (Task.C110_filters_partial hF hF' hd hc hon hac hby hfs) u w

/-- C111, C110: with more 'by' columns, the scored triplets of the run are those of a run without them whose lines agree on these columns, with the same scores (without threshold; filters that mean the same in both tasks). -/
theorem C111_by_partial (hF : Task.Written a (some F)) (hF' : Task.Written a' (some F')) (hf : a'.feat = a.feat) (hd : a'.db.map (·.2) = a.db.map (·.2)) (hon : a'.on = a.on) (hac : a'.across = a.across) {bs : List String} (hby : a'.by_ = a.by_ ++ bs)
    (hfs : a'.filters = a.filters) (hsem : ∀ f ∈ a.filters, ∀ rA rB rX, Spec.holds a'.cols f rA rB rX = Spec.holds a.cols f rA rB rX) (u : Nat × Nat × Nat) (w : Int) :
    (lines u, w) ∈ scoredLines a'.by_ (a'.db.map (·.2)) F' S' ↔ (lines u, w) ∈ scoredLines a.by_ (a.db.map (·.2)) F S ∧
      ∀ rA rB rX, (a.db.map (·.2))[u.1]? = some rA → (a.db.map (·.2))[u.2.1]? = some rB → (a.db.map (·.2))[u.2.2]? = some rX → ∀ c ∈ bs, rB c = rA c ∧ rX c = rA c :=
  scored_iff h h' hf (Task.C110_by_partial hF hF' hd hon hac hby hfs hsem) u w

end

/-- a complete run without threshold, sizes as in C77 -/
theorem ScoredRun.of_ran {e : Env} (he : e.Lawful) {a : Args ρ} (ha : a.OK) (hk : Spec'.KeptFirst a) {T : Task.Task ρ} (h : init e a = .ok T) (hpos : ∀ (i : Nat) (p : Nat × Row), a.db[i]? = some p → p.1 = i) (hfeat : a.feat.length = a.db.length)
    (hz : Sizes a T) {c : Choices} (hl : c.Lawful) {getFeat : ρ → Except Err φ} {distance : φ → φ → Except Err δ} {lt : δ → δ → Bool} (hlt : ∀ x y, lt x y = true → lt y x = false) {F : File} {S : List Int} (hr : Ran c e T getFeat distance lt F S) :
    ScoredRun a getFeat distance lt F S ∧ Task.Written a (some F) := by
  have hS := small_of he ha hk h hz hl.num hl.bl1 hl.bl2 hr.file
  constructor
  · refine ⟨e, T, 0, c, he, ha, h, hpos, hfeat, hl, hlt, hr, hS, fun L hL p hp => ?_⟩
    have := frame_lt he ha h hL hp
    have := hz.items L hL
    omega
  · refine ⟨e, T, c.num, c.src, c.bl1, c.bl2, he, ha, hk, h, hl.num, hl.src, hl.bl1, hl.bl2, hr.file, fun total t h1 h2 L hL => ?_⟩
    rw [(C03_spec he ha hk h).1] at h1
    cases h1
    have h3 := fit_hi h2
    have h5 := hz.fit L hL
    omega

theorem ex2_scored {a : Args Nat} (ha : a.OK) (hfl : a.filters = []) (hrg : a.regressors = []) (hdb : a.db = ex2.db) (hft : a.feat = ex2.feat) {n : Nat}
    (hT : (match init E0 a with
      | .ok T => decide ((∀ L ∈ T.levels, (itemsOf a L.key).length ≤ 128) ∧ (T.levels.map (fun L => (tripsSpec a L.key).length)).sum = n)
      | _ => false) = true) (hn : n ≤ 100) (hne : (a.db[1]?.map (fun p => decide (tripsSpec a (levelKey a p.2) = []))) = some false) (d : Nat → Nat → Nat) :
    ∃ F S, ScoredRun a (fun r => .ok r) (fun v w => .ok (d v w)) (fun x y => decide (x < y)) F S ∧ Task.Written a (some F) := by
  cases h : init E0 a with
  | error e => rw [h] at hT; cases hT
  | ok T =>
    rw [h] at hT
    simp only [decide_eq_true_eq] at hT
    have hz : Sizes a T := ⟨fun L hL => le_max_of_le_left (hT.1 L hL), fun L hL => (hT.1 L hL).trans (by norm_num), by rw [hT.2]; exact hn.trans (by norm_num)⟩
    have hk : Spec'.KeptFirst a := .of_not_bare (by rw [hfl]; intro f hf; cases hf)
    have hlt : ∀ x y : Nat, decide (x < y) = true → decide (y < x) = false := by intro x y h; simp at h ⊢; omega
    rw [Option.map_eq_some_iff] at hne
    obtain ⟨p, hp, hq⟩ := hne
    obtain ⟨F, S, r⟩ := C77_completes_partial E0_lawful ha hk h ⟨p, List.mem_of_getElem? hp, by simpa using hq⟩ (by rw [hrg]; intro f hf; cases hf) hz (.inl (by rw [hT.2]; exact hn.trans (by norm_num))) (c := choices0 2 3) (choices0_lawful (by omega)) (by decide)
      (getFeat := fun r => .ok r) (distance := fun v w => .ok (d v w)) (fun r _ => ⟨_, rfl⟩) (fun _ _ _ _ f g _ _ => ⟨_, rfl⟩) 0 hlt
    exact ⟨F, S, ScoredRun.of_ran E0_lawful ha hk h (by rw [hdb]; exact ex2_pos) (by rw [hft, hdb]; decide +kernel) hz (choices0_lawful (by omega)) hlt r⟩

/-- C111, example: the table of `ex2` with and without the 'by' column "sp", distances |v - w|: the triplet of the lines 1, 3, 5 is item triplet 0, 2, 4 of a level in the one run and another one in the other, and has the same score in both; the scored
triplets of the first run are those of the second whose lines agree on "sp" -/
example : ∃ F S F' S', ScoredRun ex2 (fun r => .ok r) (fun v w => .ok ((v - w) + (w - v))) (fun x y : Nat => decide (x < y)) F S ∧ ScoredRun ex2All (fun r => .ok r) (fun v w => .ok ((v - w) + (w - v))) (fun x y : Nat => decide (x < y)) F' S' ∧
    (∃ w, (lines (1, 3, 5), w) ∈ scoredLines ["sp"] (ex2.db.map (·.2)) F S ∧ (lines (1, 3, 5), w) ∈ scoredLines [] (ex2.db.map (·.2)) F' S') ∧
    ∀ u w, (lines u, w) ∈ scoredLines ["sp"] (ex2.db.map (·.2)) F S ↔ (lines u, w) ∈ scoredLines [] (ex2.db.map (·.2)) F' S' ∧
      ∀ rA rB rX, (ex2.db.map (·.2))[u.1]? = some rA → (ex2.db.map (·.2))[u.2.1]? = some rB → (ex2.db.map (·.2))[u.2.2]? = some rX → ∀ c ∈ ["sp"], rB c = rA c ∧ rX c = rA c := by
  obtain ⟨F, S, s1, w1⟩ := ex2_scored ex2_ok rfl rfl rfl rfl (n := 5) (by decide +kernel) (by omega) (by decide +kernel) (fun v w => (v - w) + (w - v))
  obtain ⟨F', S', s2, w2⟩ := ex2_scored (a := ex2All) (Args.OK.flat rfl (by decide +kernel) (by intro f hf; cases hf) (by intro f hf; cases hf) (by intro f hf; cases hf) (by intro f hf; cases hf) (by decide +kernel)) rfl rfl rfl rfl
    (n := 18) (by decide +kernel) (by omega) (by decide +kernel) (fun v w => (v - w) + (w - v))
  have hb := C111_by_partial s2 s1 w2 w1 rfl rfl rfl rfl (bs := ["sp"]) rfl rfl (by intro f hf; cases hf)
  refine ⟨F, S, F', S', s1, s2, ?_, hb⟩
  have hu : LineTriplet ex2.cols ex2.on ex2.across ex2.by_ ex2.filters (ex2.db.map (·.2)) (1, 3, 5) := by
    refine ⟨_, _, _, rfl, rfl, rfl, by decide +kernel, by decide +kernel, by decide +kernel, by intro f hf; cases hf⟩
  obtain ⟨w, hw⟩ := s1.exists ((Task.mem_lines w1 _).mpr hu)
  exact ⟨w, hw, ((hb _ _).mp hw).1⟩

end ABX.Pipeline

#print axioms ABX.Pipeline.C111_scores_partial
#print axioms ABX.Pipeline.C111_selection_partial
#print axioms ABX.Pipeline.C111_same_partial
#print axioms ABX.Pipeline.C111_filters_partial
#print axioms ABX.Pipeline.C111_by_partial
