import Verif.Proofs.CommandLine
/-! C70 (what the command lines do to files) and C71 (which distance is computed). -/
namespace ABX.CommandLine
open Database (Text splitext)

variable {κ τ π φ δ : Type}

/-! ## C70 -/

/-- C70: the program that makes tasks changes no file but the task file. -/
theorem C70_task_frame (can : Text → Bool) (mk : Files κ → Except Err τ) (stats : τ → Except Err Unit) (nb : τ → Nat) (w : τ → κ × Option Err) (a : TaskArgs) (fs : Files κ) :
    Spec.Frame (Spec.taskFile a) fs (taskMain can mk stats nb w a fs).1 := by
  have key : ∀ g : Files κ, Spec.Frame (Spec.taskFile a) fs g → Spec.Frame (Spec.taskFile a) fs (match mk g with
      | .error e => (g, End.raised e)
      | .ok t => if a.statsOnly then match stats t with
        | .error e => (g, .raised e)
        | .ok _ => (g, .ok)
        else generateTriplets can a.database a.output (nb t) (w t) g).1 := by
    intro g hg
    split
    · exact hg
    · split
      · split <;> exact hg
      · exact frame_trans hg (generate_frame can a.database a.output _ _ g)
  unfold taskMain
  apply key
  unfold Spec.taskFile
  rcases a.output with _ | o
  · exact frame_refl _ _
  · dsimp only
    split
    · exact frame_refl _ _
    · exact removeOld_frame _ _

/-- C70: after the program that makes tasks there is no task file exactly if the task is not valid, only statistics were asked for, there are no triplets, or the file can not be created; this holds also if there was a task file before. -/
theorem C70_task_lost (can : Text → Bool) (mk : Files κ → Except Err τ) (stats : τ → Except Err Unit) (nb : τ → Nat) (w : τ → κ × Option Err) (db o : Text) (so : Bool) (fs : Files κ) (ho : o ≠ []) :
    (taskMain can mk stats nb w ⟨db, some o, so⟩ fs).1 o = none ↔
      so = true ∨ can o = false ∨ (∃ e, mk (setFile fs o none) = .error e) ∨ ∃ t, mk (setFile fs o none) = .ok t ∧ nb t = 0 := by
  unfold taskMain
  simp only [ho, if_false, removeOld_eq]
  have hs : setFile fs o none o = none := setFile_same _ _ _
  rcases hm : mk (setFile fs o none) with e | t
  · simp [hs]
  · cases so
    · simp only [Bool.false_eq_true, if_false, false_or, reduceCtorEq, exists_false, Except.ok.injEq]
      unfold generateTriplets
      by_cases hn : nb t = 0
      · simp [hn, hs]
      · simp only [hn, if_false, hs, Option.isSome_none, Bool.false_eq_true]
        rw [create_none _ _ _ _ hs]
        simp [hn]
    · simp only [if_true, true_or, iff_true]
      split <;> exact hs

/-- C70: when a valid task has triplets and its file can be created, the file has what was written, and the end is normal exactly if the writing was. -/
theorem C70_task_written (can : Text → Bool) (mk : Files κ → Except Err τ) (stats : τ → Except Err Unit) (nb : τ → Nat) (w : τ → κ × Option Err) (db o : Text) (fs : Files κ) (ho : o ≠ [])
    (t : τ) (hm : mk (setFile fs o none) = .ok t) (hn : nb t ≠ 0) (hc : can o = true) :
    (taskMain can mk stats nb w ⟨db, some o, false⟩ fs).1 o = some (w t).1
      ∧ ((taskMain can mk stats nb w ⟨db, some o, false⟩ fs).2 = .ok ↔ (w t).2 = none) := by
  have hs : setFile fs o none o = none := setFile_same _ _ _
  unfold taskMain
  simp only [ho, if_false, removeOld_eq, hm, Bool.false_eq_true]
  unfold generateTriplets
  simp only [hn, if_false, hs, Option.isSome_none, Bool.false_eq_true]
  exact ⟨create_content _ _ _ _ hc, by rw [create_ok]; simp [hc]⟩

/-- C70: without a name for the output no existing file is changed, and an existing file of the default name is an error when there are triplets. -/
theorem C70_task_default (can : Text → Bool) (mk : Files κ → Except Err τ) (stats : τ → Except Err Unit) (nb : τ → Nat) (w : τ → κ × Option Err) (db : Text) (fs : Files κ) :
    Spec.Keeps fs (taskMain can mk stats nb w ⟨db, none, false⟩ fs).1
      ∧ ∀ t, mk fs = .ok t → nb t ≠ 0 → (fs ((splitext db).1 ++ ".abx".toList)).isSome → (taskMain can mk stats nb w ⟨db, none, false⟩ fs) = (fs, .raised .valueError) := by
  constructor
  · by_cases h : fs ((splitext db).1 ++ ".abx".toList) = none
    · exact keeps_of_frame (C70_task_frame can mk stats nb w ⟨db, none, false⟩ fs) h
    · have h' := Option.isSome_iff_ne_none.2 h
      intro q c hq
      unfold taskMain
      dsimp only
      split
      · exact hq
      · simp only [Bool.false_eq_true, if_false]
        unfold generateTriplets
        dsimp only
        rw [if_pos h']
        split <;> exact hq
  · intro t hm hn h
    unfold taskMain generateTriplets
    simp only [hm, hn, if_false, Bool.false_eq_true]
    rw [if_pos h]

/-- C70 fails for the program that makes tasks: asking for statistics removes the task file. -/
theorem C70_task_not_safe (can : Text → Bool) (mk : Files κ → Except Err τ) (stats : τ → Except Err Unit) (nb : τ → Nat) (w : τ → κ × Option Err) (db o : Text) (ho : o ≠ []) (c : κ) :
    ¬ Spec.Safe o (taskMain can mk stats nb w ⟨db, some o, true⟩) := by
  intro h
  have hl := (C70_task_lost can mk stats nb w db o true (fun _ => some c) ho).2 (Or.inl rfl)
  rcases h (fun _ => some c) c rfl with h | ⟨-, h⟩
  · rw [hl] at h; cases h
  · rw [hl] at h; cases h

/-- C70: `score` changes no existing file, and makes only the score file. -/
theorem C70_score (can : Text → Bool) (prep : κ → Except Err π) (w : π → κ → κ → κ × Option Err) (task distance : Text) (out : Option Text) (fs : Files κ) :
    Spec.Keeps fs (score can prep w task distance out fs).1
      ∧ Spec.Frame (match (generalizing := false) out with | some o => o | none => (splitext task).1 ++ '_' :: (splitext distance).1 ++ ".score".toList) fs (score can prep w task distance out fs).1 := by
  unfold score
  rcases out with _ | o
  all_goals
    dsimp only
    split
    · exact ⟨fun _ _ h => h, frame_refl _ _⟩
    · split
      · exact ⟨fun _ _ h => h, frame_refl _ _⟩
      · split
        · exact ⟨fun _ _ h => h, frame_refl _ _⟩
        · rename_i hn
          split
          · exact ⟨fun _ _ h => h, frame_refl _ _⟩
          · exact ⟨keeps_of_frame (create_frame _ _ _ _) (by simpa using hn), create_frame _ _ _ _⟩

/-- C70: the third argument of the program that computes scores is announced as optional, but without it the program always fails; nothing is changed. -/
theorem C70_score_optional (can : Text → Bool) (prep : κ → Except Err π) (w : π → κ → κ → κ × Option Err) (task distance : Text) (fs : Files κ) :
    scoreMain can prep w task distance none fs = (fs, .raised .typeError) := rfl

/-- C70: with it, there is a score file at the end exactly if both inputs are there when the old score file is not, the task file can be read, and the file can be created. -/
theorem C70_score_lost (can : Text → Bool) (prep : κ → Except Err π) (w : π → κ → κ → κ × Option Err) (task distance o : Text) (fs : Files κ) :
    ((scoreMain can prep w task distance (some o) fs).1 o).isSome ↔
      task ≠ o ∧ distance ≠ o ∧ can o = true ∧ (fs distance).isSome ∧ ∃ t p, fs task = some t ∧ prep t = .ok p := by
  unfold scoreMain score
  simp only [removeOld_eq]
  have hs : setFile fs o none o = none := setFile_same _ _ _
  by_cases ht : task = o
  · subst ht; simp [hs]
  by_cases hd : distance = o
  · subst hd
    simp only [setFile_ne fs none ht, hs]
    rcases fs task with _ | t <;> simp [hs]
  simp only [setFile_ne fs none ht, setFile_ne fs none hd, hs]
  rcases hft : fs task with _ | t
  · simp [hs]
  rcases hfd : fs distance with _ | d
  · simp [hs]
  rcases hp : prep t with e | p
  · simp [hs, hp]
  · simp only [Option.isSome_none, Bool.false_eq_true, if_false, ne_eq, ht, hd, not_false_eq_true, true_and, Option.isSome_some]
    have := create_none can (setFile fs o none) o (w p t d) hs
    simp only [hp]
    rw [Option.isSome_iff_ne_none, Ne, this]
    simp [hp]

/-- C70: when both inputs are there and are not the score file, the score file has what is written from them. -/
theorem C70_score_written (can : Text → Bool) (prep : κ → Except Err π) (w : π → κ → κ → κ × Option Err) (task distance o : Text) (fs : Files κ) (t d : κ) (p : π)
    (ht : fs task = some t) (hd : fs distance = some d) (h1 : task ≠ o) (h2 : distance ≠ o) (hp : prep t = .ok p) (hc : can o = true) :
    (scoreMain can prep w task distance (some o) fs).1 o = some (w p t d).1
      ∧ ((scoreMain can prep w task distance (some o) fs).2 = .ok ↔ (w p t d).2 = none) := by
  unfold scoreMain score
  simp only [removeOld_ne _ h1, removeOld_ne _ h2, removeOld_same, ht, hd, hp, Option.isSome_none, Bool.false_eq_true, if_false]
  exact ⟨create_content _ _ _ _ hc, by rw [create_ok]; simp [hc]⟩

/-- C70 fails for the program that computes scores: when an input is missing the score file is removed. -/
theorem C70_score_not_safe (can : Text → Bool) (prep : κ → Except Err π) (w : π → κ → κ → κ × Option Err) (task distance o : Text) (h : task ≠ o) (c : κ) :
    ¬ Spec.Safe o (scoreMain can prep w task distance (some o)) := by
  intro hsafe
  let fs : Files κ := fun q => if q = o then some c else none
  have ht : fs task = none := by simp [fs, h]
  have hn : ¬ ((scoreMain can prep w task distance (some o) fs).1 o).isSome := by
    rw [C70_score_lost]
    rintro ⟨-, -, -, -, t, p, h, -⟩
    rw [ht] at h; cases h
  rcases hsafe fs c (by simp [fs]) with h | ⟨-, h⟩
  · rw [h] at hn; simp at hn
  · exact hn h

/-- C70: the program that analyzes changes nothing when an input is missing, and ends as by a normal exit. -/
theorem C70_analyze_missing (can : Text → Bool) (empty : κ) (w : κ → κ → κ × Option Err) (scores task out : Text) (fs : Files κ) (h : fs scores = none ∨ fs task = none) :
    analyzeMain can empty w scores task out fs = (fs, .exit) := by
  unfold analyzeMain
  rcases hs : fs scores with _ | s
  · rfl
  · rcases h with h | h
    · rw [hs] at h; cases h
    · simp [h]

/-- C70: the program that analyzes changes no file but the result file. -/
theorem C70_analyze_frame (can : Text → Bool) (empty : κ) (w : κ → κ → κ × Option Err) (scores task out : Text) (fs : Files κ) :
    Spec.Frame out fs (analyzeMain can empty w scores task out fs).1 := by
  have h1 : Spec.Frame out fs (setFile (removeOld fs out) out (some empty)) :=
    frame_trans (removeOld_frame fs out) (fun q h => setFile_ne _ _ h)
  unfold analyzeMain analyze
  split
  · exact frame_refl _ _
  · split
    · exact frame_refl _ _
    · split
      · dsimp only
        split
        · exact h1
        · split
          · exact h1
          · exact frame_trans h1 (create_frame _ _ _ _)
      · exact removeOld_frame _ _

/-- C70: with inputs that are not the output, the result file has what is written from them. -/
theorem C70_analyze_written (can : Text → Bool) (empty : κ) (w : κ → κ → κ × Option Err) (scores task out : Text) (fs : Files κ) (s t : κ)
    (hs : fs scores = some s) (ht : fs task = some t) (hc : can out = true) (h1 : scores ≠ out) (h2 : task ≠ out) :
    (analyzeMain can empty w scores task out fs).1 out = some (w t s).1
      ∧ ((analyzeMain can empty w scores task out fs).2 = .ok ↔ (w t s).2 = none) := by
  unfold analyzeMain analyze
  simp only [hs, ht, hc, if_true, setFile_ne _ _ h1, setFile_ne _ _ h2, removeOld_ne _ h1, removeOld_ne _ h2]
  exact ⟨create_content _ _ _ _ hc, by rw [create_ok]; simp [hc]⟩

/-- C70 fails for the program that analyzes: when the analysis raises an exception the old results are replaced by what was written before. -/
theorem C70_analyze_not_safe (can : Text → Bool) (empty : κ) (w : κ → κ → κ × Option Err) (scores task out : Text) (s t c : κ) (e : Err)
    (hw : w t s = (empty, some e)) (hc : can out = true) (h1 : scores ≠ out) (h2 : task ≠ out) (h3 : scores ≠ task) (hne : c ≠ empty) :
    ¬ Spec.Safe out (analyzeMain can empty w scores task out) := by
  intro hsafe
  let fs : Files κ := fun q => if q = scores then some s else if q = task then some t else some c
  have hs : fs scores = some s := by simp [fs]
  have ht : fs task = some t := by simp [fs, Ne.symm h3]
  have ho : fs out = some c := by simp [fs, Ne.symm h1, Ne.symm h2]
  obtain ⟨k1, k2⟩ := C70_analyze_written can empty w scores task out fs s t hs ht hc h1 h2
  rcases hsafe fs c ho with h | ⟨h, -⟩
  · rw [k1, hw] at h; exact hne (by simpa using h.symm)
  · rw [k2, hw] at h; cases h

/-- C70: when the result file is given the name of the task file and the scores are there, the task is lost: nothing at the end depends on its content. -/
theorem C70_analyze_input_lost (can : Text → Bool) (empty : κ) (w : κ → κ → κ × Option Err) (scores task : Text) (fs : Files κ) (c c' : κ)
    (hsc : scores = task ∨ (fs scores).isSome) :
    analyzeMain can empty w scores task task (setFile fs task (some c)) = analyzeMain can empty w scores task task (setFile fs task (some c')) := by
  have he : ∀ c : κ, removeOld (setFile fs task (some c)) task = setFile fs task none := by
    intro c
    rw [removeOld_eq]
    funext q
    by_cases h : q = task
    · subst h; simp [setFile_same]
    · simp [setFile_ne _ _ h]
  unfold analyzeMain
  by_cases h : scores = task
  · subst h; simp only [setFile_same, he]
  · simp only [setFile_ne _ _ h, setFile_same, he]
    rcases hs : fs scores with _ | s
    · simp [h, hs] at hsc
    · rfl

/-- C70: the program that computes distances changes no file but the distance file. -/
theorem C70_distance_frame (can : Text → Bool) (K : Known φ δ) (imp : Text → Text → Text → Except Err (Fun φ δ)) (plan : κ → Except Err π)
    (w : Fun φ δ → Option Int → κ → π → Option κ → κ × Option Err) (a : DistArgs) (fs : Files κ) :
    Spec.Frame a.output fs (distanceMain can K imp plan w a fs).1 := by
  have h0 := removeOld_frame fs a.output
  unfold distanceMain run
  dsimp only
  split
  · exact h0
  · split
    · exact h0
    · split
      · exact h0
      · split
        · exact h0
        · split
          · exact h0
          · exact frame_trans h0 (create_frame _ _ _ _)

/-- C70: there is a distance file at the end exactly if the distance or the normalization is given, the distance is found, the inputs are there and are not the output, the task file can be read, and the file can be created. -/
theorem C70_distance_lost (can : Text → Bool) (K : Known φ δ) (imp : Text → Text → Text → Except Err (Fun φ δ)) (plan : κ → Except Err π)
    (w : Fun φ δ → Option Int → κ → π → Option κ → κ × Option Err) (a : DistArgs) (fs : Files κ) :
    ((distanceMain can K imp plan w a fs).1 a.output).isSome ↔
      (a.distance ≠ none ∨ a.normalization ≠ none) ∧ (∃ f, resolve K imp a.distance = .ok f) ∧ a.features ≠ a.output ∧ a.task ≠ a.output ∧ (fs a.features).isSome
        ∧ (∃ t p, fs a.task = some t ∧ plan t = .ok p) ∧ can a.output = true := by
  have hs : setFile fs a.output none a.output = none := setFile_same _ _ _
  unfold distanceMain run
  simp only [removeOld_eq]
  by_cases hd : a.distance = none ∧ a.normalization = none
  · simp [hd, hs]
  have hd' : a.distance ≠ none ∨ a.normalization ≠ none := by
    by_cases h : a.distance = none
    · exact Or.inr fun h' => hd ⟨h, h'⟩
    · exact Or.inl h
  rw [if_neg hd]
  rcases hr : resolve K imp a.distance with e | f
  · simp [hs]
  by_cases hf : a.features = a.output
  · rw [hf]; simp [hs]
  by_cases ht : a.task = a.output
  · rw [ht]; simp only [setFile_ne fs none hf, hs]
    rcases fs a.features with _ | x <;> simp [hs]
  simp only [setFile_ne fs none hf, setFile_ne fs none ht]
  rcases hx : fs a.features with _ | x
  · simp [hs]
  rcases hy : fs a.task with _ | t
  · simp [hs]
  rcases hp : plan t with e | p
  · simp [hs, hp]
  · have := create_none can (setFile fs a.output none) a.output (w f a.normalization x p (setFile fs a.output none a.output)) hs
    simp only [hp]
    rw [Option.isSome_iff_ne_none, Ne, this]
    simp [hd', hf, ht, hp]

/-- C70, C71: when all is there, the distance file has what is written with the distance that was found, the normalization that was given, the features and the pairs of the task; nothing of an old distance file is used. -/
theorem C70_distance_written (can : Text → Bool) (K : Known φ δ) (imp : Text → Text → Text → Except Err (Fun φ δ)) (plan : κ → Except Err π)
    (w : Fun φ δ → Option Int → κ → π → Option κ → κ × Option Err) (a : DistArgs) (fs : Files κ) (f : Fun φ δ) (x t : κ) (p : π)
    (ha : a.distance ≠ none ∨ a.normalization ≠ none) (hf : resolve K imp a.distance = .ok f) (hx : fs a.features = some x) (ht : fs a.task = some t) (h1 : a.features ≠ a.output) (h2 : a.task ≠ a.output)
    (hp : plan t = .ok p) (hc : can a.output = true) :
    (distanceMain can K imp plan w a fs).1 a.output = some (w f a.normalization x p none).1
      ∧ ((distanceMain can K imp plan w a fs).2 = .ok ↔ (w f a.normalization x p none).2 = none) := by
  have ha' : ¬ (a.distance = none ∧ a.normalization = none) := fun h => ha.elim (· h.1) (· h.2)
  unfold distanceMain run
  simp only [ha', if_false, hf, removeOld_ne _ h1, removeOld_ne _ h2, removeOld_same, hx, ht, hp]
  exact ⟨create_content _ _ _ _ hc, by rw [create_ok]; simp [hc]⟩

/-- C70 fails for the program that computes distances: without distance and normalization it removes the distance file and exits. -/
theorem C70_distance_not_safe (can : Text → Bool) (K : Known φ δ) (imp : Text → Text → Text → Except Err (Fun φ δ)) (plan : κ → Except Err π)
    (w : Fun φ δ → Option Int → κ → π → Option κ → κ × Option Err) (features task output : Text) (c : κ) :
    ¬ Spec.Safe output (distanceMain can K imp plan w ⟨features, task, output, none, none⟩) := by
  intro h
  have e : (distanceMain can K imp plan w ⟨features, task, output, none, none⟩ (fun _ => some c)).2 = .exit := rfl
  have e1 : (distanceMain can K imp plan w ⟨features, task, output, none, none⟩ (fun _ => some c)).1 output = none := by
    unfold distanceMain
    simp only [and_self, if_true]
    exact removeOld_same _ _
  rcases h (fun _ => some c) c rfl with h | ⟨h, -⟩
  · rw [e1] at h; cases h
  · rw [e] at h; cases h

/-! ## C71 -/

/-- C71: the distances of a block are the calls of the distance function on the pairs in order, all with the same value of `normalized`: none without `-n`, else false exactly for 0. -/
theorem C71_pairs (f : Fun φ δ) (n : Option Int) (l : List (φ × φ)) (ds : List δ) :
    pairLoop f n l = .ok ds ↔ List.Forall₂ (fun p d => f.call p.1 p.2 (n.map fun k => decide (k ≠ 0)) = .ok d) l ds := by
  rw [pairLoop_iff]
  have : asBool = fun k => decide (k ≠ 0) := by
    funext k
    unfold asBool
    by_cases h1 : k = 1
    · simp [h1]
    · by_cases h0 : k = 0 <;> simp [h1, h0]
  rw [this]

/-- C71: a function without the argument `normalized` (such as the edit distance) fails with `-n` on any pair, and one that needs it (the default) fails without `-n`. -/
theorem C71_mismatch (f : Fun φ δ) (n : Option Int) (p : φ × φ) (l : List (φ × φ))
    (h : (f.takes = .never ∧ n ≠ none) ∨ (f.takes = .always ∧ n = none)) : pairLoop f n (p :: l) = .error .typeError := by
  obtain ⟨x, y⟩ := p
  rcases n with _ | k
  · have h : f.takes = .always := by simpa using h
    simp [pairLoop, Fun.call, h]
  · have h : f.takes = .never := by simpa using h
    simp [pairLoop, Fun.call, h]

/-- C71: which value of `normalized` the code of the distance function sees. With `-n` the given one; without `-n` the default of the function itself; a function without the argument sees none. -/
theorem C71_default (f : Fun φ δ) (l : List (φ × φ)) (ds : List δ) :
    (∀ b, f.takes = .default b → (pairLoop f none l = .ok ds ↔ List.Forall₂ (fun p d => f.run p.1 p.2 b = .ok d) l ds)) ∧
    (f.takes = .never → (pairLoop f none l = .ok ds ↔ List.Forall₂ (fun p d => f.run p.1 p.2 false = .ok d) l ds)) ∧
    ∀ k : Int, f.takes ≠ .never → (pairLoop f (some k) l = .ok ds ↔ List.Forall₂ (fun p d => f.run p.1 p.2 (decide (k ≠ 0)) = .ok d) l ds) := by
  refine ⟨fun b hb => ?_, fun hb => ?_, fun k hk => ?_⟩
  · rw [C71_pairs]; simp [Fun.call, hb]
  · rw [C71_pairs]; simp [Fun.call, hb]
  · rw [C71_pairs]
    have : ∀ x y, f.call x y (some (decide (k ≠ 0))) = f.run x y (decide (k ≠ 0)) := by
      intro x y
      cases ht : f.takes with
      | never => exact absurd ht hk
      | default b => simp [Fun.call, ht]
      | always => simp [Fun.call, ht]
    simp only [Option.map_some, this]

example : pairLoop (⟨.default true, fun x y b => .ok (if b then x + y else 0)⟩ : Fun Nat Nat) none [(1, 2), (3, 4)] = .ok [3, 7] := rfl

/-- C71: the names of the distances of distance.py; another name without dot is an error. -/
theorem C71_names (K : Known φ δ) (imp : Text → Text → Text → Except Err (Fun φ δ)) :
    resolve K imp none = .ok K.default ∧ resolve K imp (some []) = .ok K.default ∧ resolve K imp (some "levenshtein".toList) = .ok K.edit ∧ resolve K imp (some "dtw_kl".toList) = .ok K.dtwKl ∧
      ∀ d, d ≠ [] → d ≠ "levenshtein".toList → d ≠ "dtw_kl".toList → '.' ∉ d → resolve K imp (some d) = .error .indexError := by
  refine ⟨rfl, rfl, ?_, ?_, ?_⟩
  · simp [resolve]
  · simp [resolve]
  · intro d h0 h1 h2 hd
    rcases d with _ | ⟨c, d⟩
    · exact absurd rfl h0
    · unfold resolve
      simp only [h1, h2, if_false, splitDots_plain _ hd]

/-- C71: every text has one list of pieces between dots, and it is what `split` gives. -/
theorem C71_split (t : Text) (ws : List Text) : splitDots t = ws ↔ Spec.Pieces t ws := by
  constructor
  · rintro rfl
    obtain ⟨ws, h⟩ := pieces_exists t
    rw [splitDots_of_pieces h]; exact h
  · exact splitDots_of_pieces

/-- C71: `dir/mod.fn` is the function `fn` of the module `mod` of `dir`, when none of the names has a dot. -/
theorem C71_user (K : Known φ δ) (imp : Text → Text → Text → Except Err (Fun φ δ)) (dir mod fn : Text)
    (h0 : dir ≠ []) (h1 : dir.getLast? ≠ some '/') (h2 : '/' ∉ mod) (hd : '.' ∉ dir) (hm : '.' ∉ mod) (hf : '.' ∉ fn) :
    resolve K imp (some (dir ++ '/' :: mod ++ '.' :: fn)) = imp dir mod fn := by
  obtain ⟨pre, c, rfl⟩ : ∃ pre c, dir = pre ++ [c] := ⟨dir.dropLast, dir.getLast h0, (List.dropLast_append_getLast h0).symm⟩
  have hc : c ≠ '/' := by simpa using h1
  have hp : '.' ∉ (pre ++ [c]) ++ '/' :: mod := by
    simp only [List.mem_append, List.mem_cons, not_or]
    exact ⟨by simpa using hd, by decide, hm⟩
  have hs : splitDots ((pre ++ [c]) ++ '/' :: mod ++ '.' :: fn) = [(pre ++ [c]) ++ '/' :: mod, fn] := by
    rw [splitDots_cons _ _ hp, splitDots_plain _ hf]
  rw [resolve_dot K imp _ _ _ _ (by simp) hs, splitPath_dir pre mod c hc h2]

/-- C71: `mod.fn` is the function `fn` of the module `mod` of the search path (the empty directory), and `/mod.fn` that of the root. -/
theorem C71_user_here (K : Known φ δ) (imp : Text → Text → Text → Except Err (Fun φ δ)) (mod fn : Text) (h2 : '/' ∉ mod) (hm : '.' ∉ mod) (hf : '.' ∉ fn) :
    resolve K imp (some (mod ++ '.' :: fn)) = imp [] mod fn ∧ resolve K imp (some ('/' :: mod ++ '.' :: fn)) = imp ['/'] mod fn := by
  constructor
  · rw [resolve_dot K imp _ mod fn [] (by simp) (by rw [splitDots_cons _ _ hm, splitDots_plain _ hf]), splitPath_plain mod h2]
  · have hm' : '.' ∉ '/' :: mod := by simp [hm]
    rw [resolve_dot K imp _ ('/' :: mod) fn [] (by simp) (by rw [splitDots_cons _ _ hm', splitDots_plain _ hf]), splitPath_root mod h2]

/-- C71: a third piece is ignored. -/
theorem C71_third (K : Known φ δ) (imp : Text → Text → Text → Except Err (Fun φ δ)) (m f rest : Text) (hm : '.' ∉ m) (hf : '.' ∉ f) :
    resolve K imp (some (m ++ '.' :: (f ++ '.' :: rest))) = resolve K imp (some (m ++ '.' :: f)) := by
  rw [resolve_dot K imp _ m f (splitDots rest) (by simp) (by rw [splitDots_cons _ _ hm, splitDots_cons _ _ hf]),
    resolve_dot K imp _ m f [] (by simp) (by rw [splitDots_cons _ _ hm, splitDots_plain _ hf])]

/-- C71: a path that begins with a dot is never found as written: the module looked up has the empty name. -/
theorem C71_dot_path (K : Known φ δ) (imp : Text → Text → Text → Except Err (Fun φ δ)) (t : Text) :
    resolve K imp (some ('.' :: t)) = imp [] [] ((splitDots t).headD []) := by
  rcases ht : splitDots t with _ | ⟨a, l⟩
  · exact absurd ht (splitDots_ne t)
  · have hs : splitDots ('.' :: t) = [] :: a :: l := by
      have := splitDots_cons [] t (by simp)
      rw [ht] at this; exact this
    rw [resolve_dot K imp _ [] a l (by simp) hs]
    rfl

/-- C71: given a function that computes the Levenshtein distance, the edit distance of distance.py is it exactly unless one item, and only one, is empty; then it is infinite. -/
theorem C71_edit {ψ : Type} (eval : List ψ → List ψ → Nat) (he : ∀ x y, Spec.IsLev x y (eval x y)) (x y : List ψ) :
    ((∃ n, editDistance eval x y = some n ∧ Spec.IsLev x y n) ↔ (x = [] ↔ y = [])) ∧ (editDistance eval x y = none ↔ ¬ (x = [] ↔ y = [])) := by
  unfold editDistance
  rcases x with _ | ⟨a, x⟩ <;> rcases y with _ | ⟨b, y⟩
  · refine ⟨⟨fun _ => Iff.rfl, fun _ => ⟨0, rfl, .nil, fun _ _ => Nat.zero_le _⟩⟩, by simp⟩
  · simp
  · simp
  · simpa using he (a :: x) (b :: y)

/-- C71: the edit distance is symmetric, and zero exactly for equal items. -/
theorem C71_edit_symm {ψ : Type} (eval : List ψ → List ψ → Nat) (he : ∀ x y, Spec.IsLev x y (eval x y)) (x y : List ψ) :
    editDistance eval x y = editDistance eval y x ∧ (editDistance eval x y = some 0 ↔ x = y) := by
  have hsym : eval x y = eval y x :=
    Nat.le_antisymm ((he x y).2 _ (edits_symm (he y x).1)) ((he y x).2 _ (edits_symm (he x y).1))
  have hz : eval x y = 0 ↔ x = y :=
    ⟨fun h => edits_zero (he x y).1 h, fun h => by subst h; exact Nat.le_zero.1 ((he x x).2 0 (edits_refl x))⟩
  unfold editDistance
  rcases x with _ | ⟨a, x⟩ <;> rcases y with _ | ⟨b, y⟩ <;> simp_all

/-! ## Examples -/
namespace Ex

/-- the hypothesis of C71_edit: the Levenshtein distance exists -/
theorem lev_exists {ψ : Type} : ∃ eval : List ψ → List ψ → Nat, ∀ x y, Spec.IsLev x y (eval x y) := by
  have he : ∀ x y : List ψ, ∃ n, Spec.Edits x y n := by
    intro x y
    induction x with
    | nil => exact ⟨_, edits_nil y⟩
    | cons a x ih => obtain ⟨n, h⟩ := ih; exact ⟨n + 1, .del a h⟩
  have hm : ∀ x y : List ψ, ∃ n, Spec.IsLev x y n := by
    intro x y
    obtain ⟨n, h⟩ := he x y
    induction n using Nat.strongRecOn with
    | _ n ih =>
      by_cases hlt : ∃ m, m < n ∧ Spec.Edits x y m
      · obtain ⟨m, hm, h'⟩ := hlt; exact ih m hm h'
      · exact ⟨n, h, fun m h' => Nat.le_of_not_lt fun hm => hlt ⟨m, hm, h'⟩⟩
  exact ⟨fun x y => (hm x y).choose, fun x y => (hm x y).choose_spec⟩

def files : Files Nat := fun q => if q = "d.item".toList then some 1 else if q = "d.abx".toList then some 2 else none

/-- a task file is made anew, its content 2 becomes 7 -/
example : (taskMain (fun _ => true) (fun fs => match fs "d.item".toList with | some _ => .ok () | none => .error .ioError) (fun _ => .ok ()) (fun _ => 3) (fun _ => ((7 : Nat), none))
    ⟨"d.item".toList, some "d.abx".toList, false⟩ files).1 "d.abx".toList = some 7 := by decide

/-- with `--stats-only` it is lost -/
example : (taskMain (fun _ => true) (fun fs => match fs "d.item".toList with | some _ => .ok () | none => .error .ioError) (fun _ => .ok ()) (fun _ => 3) (fun _ => ((7 : Nat), none))
    ⟨"d.item".toList, some "d.abx".toList, true⟩ files).1 "d.abx".toList = none := by decide

/-- without a name it is kept, with an error -/
example : (taskMain (fun _ => true) (fun fs => match fs "d.item".toList with | some _ => .ok () | none => .error .ioError) (fun _ => .ok ()) (fun _ => 3) (fun _ => ((7 : Nat), none))
    ⟨"d.item".toList, none, false⟩ files).2 = .raised .valueError := by decide

/-- the default score file of `x/t.abx` and `y/d.distance` is in the directory `x/t_y` -/
example : (splitext "x/t.abx".toList).1 ++ '_' :: (splitext "y/d.distance".toList).1 ++ ".score".toList = "x/t_y/d.score".toList := by decide

example : splitDots "my/mod.fn".toList = ["my/mod".toList, "fn".toList] := by decide
example : splitPath "my/mod".toList = ("my".toList, "mod".toList) := by decide
example : splitPath "/mod".toList = ("/".toList, "mod".toList) := by decide

/-- `-n 2` is as `-n 1`, for two pairs -/
example : pairLoop (⟨.always, fun x y b => .ok (x + y + if b then 100 else 0)⟩ : Fun Nat Nat) (some 2) [(1, 2), (3, 4)] = .ok [103, 107] := by rfl
example : pairLoop (⟨.always, fun x y b => .ok (x + y + if b then 100 else 0)⟩ : Fun Nat Nat) (some 0) [(1, 2), (3, 4)] = .ok [3, 7] := by rfl

example : editDistance (fun _ _ => 5) [1] ([] : List Nat) = none := by decide

end Ex

#print axioms C70_task_frame
#print axioms C70_task_lost
#print axioms C70_task_written
#print axioms C70_task_default
#print axioms C70_task_not_safe
#print axioms C70_score
#print axioms C70_score_optional
#print axioms C70_score_lost
#print axioms C70_score_written
#print axioms C70_score_not_safe
#print axioms C70_analyze_missing
#print axioms C70_analyze_frame
#print axioms C70_analyze_written
#print axioms C70_analyze_not_safe
#print axioms C70_analyze_input_lost
#print axioms C70_distance_frame
#print axioms C70_distance_lost
#print axioms C70_distance_written
#print axioms C70_distance_not_safe
#print axioms C71_pairs
#print axioms C71_mismatch
#print axioms C71_default
#print axioms C71_names
#print axioms C71_split
#print axioms C71_user
#print axioms C71_user_here
#print axioms C71_third
#print axioms C71_dot_path
#print axioms C71_edit
#print axioms C71_edit_symm

end ABX.CommandLine
