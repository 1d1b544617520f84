import Verif.Model.Run
/-!
C76: the program that runs the complete pipeline.
-/
namespace ABX.Run
open Database (Text)
open CommandLine (Files End)

/-- whether a call fits a python function, stated by parameters: not too many positional arguments, each name is that of a parameter without positional argument, and every required parameter has an argument -/
def Spec.Fits (s : Sig) (pos : Nat) (kw : List Text) : Prop :=
  pos ≤ s.params.length ∧ (∀ k ∈ kw, ∃ i, pos ≤ i ∧ s.params[i]? = some k) ∧ ∀ i p, i < s.required → s.params[i]? = some p → i < pos ∨ p ∈ kw

/-- C76: the model of calls is that of python, for functions whose parameters have different names. -/
theorem C76_bind (s : Sig) (hs : s.params.Nodup) (pos : Nat) (kw : List Text) : bind s pos kw = .ok () ↔ Spec.Fits s pos kw := by
  unfold bind Spec.Fits
  by_cases h1 : s.params.length < pos
  · rw [if_pos h1]
    exact ⟨fun h => by (cases h), fun h => absurd h.1 (by omega)⟩
  rw [if_neg h1]
  have hkw : kw.any (fun k => !s.params.contains k || (s.params.take pos).contains k) = true ↔ ¬ ∀ k ∈ kw, ∃ i, pos ≤ i ∧ s.params[i]? = some k := by
    rw [List.any_eq_true]
    constructor
    · rintro ⟨k, hk, hc⟩ hall
      obtain ⟨i, hi, hki⟩ := hall k hk
      rw [Bool.or_eq_true, Bool.not_eq_true', List.contains_eq_mem] at hc
      rcases hc with hc | hc
      · simp only [decide_eq_false_iff_not] at hc
        exact hc (List.mem_of_getElem? hki)
      · rw [List.contains_iff_mem] at hc
        obtain ⟨j, hj, hkj⟩ := List.getElem_of_mem hc
        have hj' : j < pos ∧ j < s.params.length := by rw [List.length_take] at hj; omega
        obtain ⟨hil, hki⟩ := List.getElem?_eq_some_iff.mp hki
        rw [List.getElem_take] at hkj
        have := (List.Nodup.getElem_inj_iff hs (hi := hil) (hj := hj'.2)).mp (hki.trans hkj.symm)
        omega
    · intro hn
      by_contra hall
      apply hn
      intro k hk
      have hc : ¬ ((!s.params.contains k || (s.params.take pos).contains k) = true) := fun hc => hall ⟨k, hk, hc⟩
      rw [Bool.or_eq_true, not_or] at hc
      obtain ⟨hc1, hc2⟩ := hc
      have hmem : k ∈ s.params := by simpa using hc1
      obtain ⟨i, hi, hki⟩ := List.getElem_of_mem hmem
      refine ⟨i, ?_, List.getElem?_eq_some_iff.mpr ⟨hi, hki⟩⟩
      by_contra hlt
      apply hc2
      rw [List.contains_iff_mem]
      exact List.mem_iff_getElem.mpr ⟨i, by simp; omega, by rw [List.getElem_take]; exact hki⟩
  by_cases h2 : kw.any (fun k => !s.params.contains k || (s.params.take pos).contains k) = true
  · rw [if_pos h2]
    exact ⟨fun h => by (cases h), fun h => absurd h.2.1 (hkw.mp h2)⟩
  rw [if_neg h2]
  have hall : ∀ k ∈ kw, ∃ i, pos ≤ i ∧ s.params[i]? = some k := by
    by_contra hn; exact h2 (hkw.mpr hn)
  have hreq : ((s.params.take s.required).drop pos).all (kw.contains ·) = true ↔ ∀ i p, i < s.required → s.params[i]? = some p → i < pos ∨ p ∈ kw := by
    rw [List.all_eq_true]
    constructor
    · intro h i p hi hp
      by_cases hlt : i < pos
      · exact Or.inl hlt
      · right
        have := h p (List.mem_iff_getElem?.mpr ⟨i - pos, by
          rw [List.getElem?_drop, List.getElem?_take_of_lt (by omega), Nat.add_sub_cancel' (by omega)]; exact hp⟩)
        exact List.contains_iff_mem.mp this
    · intro h p hp
      obtain ⟨j, hj⟩ := List.mem_iff_getElem?.mp hp
      rw [List.getElem?_drop] at hj
      have hlt : pos + j < s.required := by
        by_contra hge
        rw [List.getElem?_take_eq_none (by omega)] at hj
        cases hj
      rw [List.getElem?_take_of_lt hlt] at hj
      rcases h (pos + j) p hlt hj with h | h
      · omega
      · exact List.contains_iff_mem.mpr h
  by_cases h3 : ((s.params.take s.required).drop pos).all (kw.contains ·) = true
  · rw [if_pos h3]
    exact ⟨fun _ => ⟨by omega, hall, hreq.mp h3⟩, fun _ => rfl⟩
  · rw [if_neg h3]
    exact ⟨fun h => by (cases h), fun h => absurd (hreq.mpr h.2.2) h3⟩

/-- C76: the pipeline never runs: whatever the arguments, the files and the configuration, the program raises an exception and leaves the files as they are;
when the item file and the feature file exist the exception is a KeyError, because the argument is stored as `config` and read as `configfile`. -/
theorem C76_never {κ : Type} (value : Text → Option Text) (config : κ → Option (List (Text × Option Text))) (generate distances scores results : Files κ → Files κ × End) (fs : Files κ) :
    ∃ e, main value config generate distances scores results fs = (fs, .raised e) ∧
      ((∃ a b, value "itemfile".toList = some a ∧ value "featurefile".toList = some b ∧ (fs a).isSome ∧ (fs b).isSome) → e = .keyError) := by
  have k1 : item (parsed value) "itemfile".toList = .ok (value "itemfile".toList) := rfl
  have k2 : item (parsed value) "featurefile".toList = .ok (value "featurefile".toList) := rfl
  have k3 : item (parsed value) "configfile".toList = .error .keyError := rfl
  unfold main
  simp only [k1, k2, k3]
  cases h1 : value "itemfile".toList with
  | none => exact ⟨_, rfl, by rintro ⟨a, b, h, -⟩; cases h⟩
  | some a =>
    simp only
    cases h2 : fs a with
    | none => exact ⟨_, rfl, by rintro ⟨a', b, h, -, hs, -⟩; cases h; rw [h2] at hs; cases hs⟩
    | some c =>
      simp only
      cases h3 : value "featurefile".toList with
      | none => exact ⟨_, rfl, by rintro ⟨a', b, -, h, -⟩; cases h⟩
      | some b =>
        simp only
        cases h4 : fs b with
        | none => exact ⟨_, rfl, by rintro ⟨a', b', -, h, -, hs⟩; cases h; rw [h4] at hs; cases hs⟩
        | some d => exact ⟨_, rfl, fun _ => rfl⟩

/-- C76: nor does the function that `main` would call: it raises, before doing anything, an AssertionError without `on`, else a TypeError, because `Task` has no parameter `features`. -/
theorem C76_never_direct {κ : Type} (on : Option Text) (generate distances scores results : Files κ → Files κ × End) (fs : Files κ) :
    testAnalyze on generate distances scores results fs = (fs, .raised (if on.getD [] = [] then .assertion else .typeError)) := by
  unfold testAnalyze
  cases on with
  | none => rfl
  | some on =>
    by_cases h : on = []
    · simp [h]
    · simp only [h, if_false, Option.getD_some]
      rfl

/-- C76: which of the four calls fit: not that of `Task`, nor that of `compute_distances`, where the argument `normalized` is missing; those of `score` and `analyze` do, and the latter with the scores as `task_file`
and the task as `score_file` (the first two positional arguments).  Without the name `features` the first call fits, and the program then raises a TypeError when the triplets have been written.
The name given with `--name` is never read. -/
theorem C76_other_calls {κ : Type} (generate distances scores results : Files κ → Files κ × End) (fs fs' : Files κ) (hg : generate fs = (fs', .ok)) :
    calls.map (·.1) = [taskSig, distancesSig, scoreSig, analyzeSig] ∧ List.Forall₂ (fun c b => Spec.Fits c.1 c.2.1 c.2.2 ↔ b = true) calls [false, false, true, true] ∧
    (analyzeSig.params[0]? = some "task_file".toList ∧ analyzeSig.params[1]? = some "score_file".toList) ∧
    stages (((taskSig, 6, []) :: calls.tail).zip [generate, distances, scores, results]) fs = (fs', .raised .typeError) ∧ ∀ value, getArg "filename".toList (parsed value) = none := by
  refine ⟨rfl, ?_, ⟨rfl, rfl⟩, ?_, fun _ => rfl⟩
  · refine .cons ?_ (.cons ?_ (.cons ?_ (.cons ?_ .nil))) <;> rw [← C76_bind _ (by decide +kernel)] <;> decide +kernel
  · have h1 : bind taskSig 6 [] = .ok () := by decide +kernel
    have h2 : bind distancesSig 5 [] = .error .typeError := by decide +kernel
    simp only [calls, List.tail_cons, List.zip_cons_cons, stages, h1, h2, hg]

/-- C76: how many arguments the four functions take when they are given by position. -/
theorem C76_positional (pos : Nat) : (Spec.Fits taskSig pos [] ↔ 2 ≤ pos ∧ pos ≤ 7) ∧ (Spec.Fits distancesSig pos [] ↔ 6 ≤ pos ∧ pos ≤ 9) ∧
    (Spec.Fits scoreSig pos [] ↔ 2 ≤ pos ∧ pos ≤ 4) ∧ (Spec.Fits analyzeSig pos [] ↔ 3 ≤ pos ∧ pos ≤ 3) := by
  have hp : ∀ (s : Sig), s.required ≤ s.params.length → (Spec.Fits s pos [] ↔ s.required ≤ pos ∧ pos ≤ s.params.length) := by
    intro s hs
    unfold Spec.Fits
    constructor
    · rintro ⟨h1, -, h3⟩
      refine ⟨?_, h1⟩
      by_contra hlt
      rcases h3 pos s.params[pos] (by omega) (List.getElem?_eq_getElem (by omega)) with h | h
      · omega
      · cases h
    · rintro ⟨h1, h2⟩
      exact ⟨h2, by simp, fun i p hi _ => .inl (by omega)⟩
  exact ⟨hp taskSig (by decide +kernel), hp distancesSig (by decide +kernel), hp scoreSig (by decide +kernel), hp analyzeSig (by decide +kernel)⟩

/-- C76: an argument is the value stored under its name, and None if there is none. -/
theorem C76_arg {β : Type} (key : Text) (args : List (Text × Option β)) (v : β) :
    getArg key args = some v ↔ ∃ l r, args = l ++ (key, some v) :: r ∧ ∀ p ∈ l, p.1 ≠ key := by
  unfold getArg
  induction args with
  | nil => simp
  | cons p args ih =>
    obtain ⟨k, x⟩ := p
    by_cases hk : key = k
    · subst hk
      rw [List.lookup_cons_self]
      constructor
      · intro h
        cases x with
        | none => cases h
        | some x => obtain rfl : x = v := by simpa using h
                    exact ⟨[], args, rfl, by simp⟩
      · rintro ⟨l, r, h, hl⟩
        cases l with
        | nil => cases h; rfl
        | cons q l => injection h with h1 h2; exact absurd (by rw [← h1]) (hl q (by simp))
    · have hb : (key == k) = false := by simpa using hk
      rw [List.lookup_cons, hb]
      simp only
      rw [ih]
      constructor
      · rintro ⟨l, r, rfl, hl⟩
        exact ⟨(k, x) :: l, r, rfl, by simpa [Ne.symm hk] using hl⟩
      · rintro ⟨l, r, h, hl⟩
        cases l with
        | nil => injection h with h1 h2; injection h1 with h1 _; exact absurd h1.symm hk
        | cons q l => injection h with h1 h2; exact ⟨l, r, h2, fun p hp => hl p (List.mem_cons_of_mem _ hp)⟩

/-- example: the names under which arguments are stored -/
example : dest "--taskfile".toList = "taskfile".toList ∧ dest "--n-cpu".toList = "n_cpu".toList ∧ dest "config".toList = "config".toList := by decide +kernel

/-- example: files and arguments as in the usage message -/
example : let fs : Files Nat := fun p => if p = "data.item".toList ∨ p = "data.feature".toList ∨ p = "data.conf".toList then some 0 else none
    let value : Text → Option Text := fun f => if f = "itemfile".toList then some "data.item".toList else if f = "featurefile".toList then some "data.feature".toList
      else if f = "config".toList then some "data.conf".toList else none
    (main value (fun _ => some [("on".toList, some "c".toList)]) (fun fs => (fs, .ok)) (fun fs => (fs, .ok)) (fun fs => (fs, .ok)) (fun fs => (fs, .ok)) fs).2 = .raised .keyError := by
  decide +kernel

#print axioms C76_bind
#print axioms C76_positional
#print axioms C76_arg
#print axioms C76_never
#print axioms C76_never_direct
#print axioms C76_other_calls

end ABX.Run
