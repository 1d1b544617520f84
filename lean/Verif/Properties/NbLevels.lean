import Verif.Proofs.NbLevelsSome
import Verif.Properties.TaskWitness
/-!
Property C63: the number of levels that `Task.print_stats` reports.

`Spec.nbLevels` is the number of triplets of a level of the task when triplets with the same 'on' and 'across' labels of A, B
and X are counted as one.  The code computes it when there is one across column (`C63_single_partial`).  Without across
column it counts every item A separately (`C63_none_partial`, `C63_violated_none`).  With several across columns it counts
combinations of labels that no triplet has (`C63_violated_across`): X need only differ from A in some across column (`C63_several_partial`).  After a filter that removes items it uses
labels as positions (`C63_violated_filter`).
-/
namespace ABX.Task
open ExtSort SideOps
variable {ρ : Type}

/-- C63: with one across column and when filters on bare columns, if any, remove the last items of the levels, the number reported is the
number of combinations of 'on' and 'across' labels of A, B and X among the triplets of the task.  Missing: the other
cases, where it is not (`C63_violated_none`, `C63_violated_across`, `C63_violated_filter`). -/
theorem C63_single_partial {e : Env} (he : e.Lawful) {a : Args ρ} (ha : a.OK) (hb : Spec'.KeptFirst a) {T : Task ρ} (h : init e a = .ok T)
    (h1 : a.across.length = 1) {n : Nat} (hn : nbLevels e T = .ok n) :
    n = (T.levels.map (fun L => Spec.nbLevels a.cols a.on a.across a.filters (itemsOf a L.key))).sum := by
  obtain ⟨hf, ns, hns, rfl⟩ := nbLevels_inv hn
  have hne : a.across ≠ [] := by intro h; simp [h] at h1
  rw [sequence_map_ok (g := fun L => Spec.nbLevels a.cols a.on a.across a.filters (itemsOf a L.key))
    (fun L hL => by rw [nbLevel_main he ha hb h hf (by omega) hL, if_neg hne])] at hns
  rw [← Except.ok.inj hns]

/-- C63: without across column the number reported is the number of combinations of an item A, an 'on' label of B
(and the 'on' label of X, that of A) among the triplets. -/
theorem C63_none_partial {e : Env} (he : e.Lawful) {a : Args ρ} (ha : a.OK) (hb : Spec'.KeptFirst a) {T : Task ρ} (h : init e a = .ok T)
    (h1 : a.across = []) {n : Nat} (hn : nbLevels e T = .ok n) :
    n = (T.levels.map (fun L => Spec.nbLevelsA a.cols a.on a.across a.filters (itemsOf a L.key))).sum := by
  obtain ⟨hf, ns, hns, rfl⟩ := nbLevels_inv hn
  rw [sequence_map_ok (g := fun L => Spec.nbLevelsA a.cols a.on a.across a.filters (itemsOf a L.key))
    (fun L hL => by rw [nbLevel_main he ha hb h hf (by simp [h1]) hL, if_pos h1])] at hns
  rw [← Except.ok.inj hns]

/-- C63: with one or more across columns the number reported is the number of combinations of labels among the triples (A, B, X) of kept items where A passes
the filters, B has another 'on' label and all the 'across' labels of A, and X has the 'on' label of A and differs from it in some across column.
Missing: that X differs from A in all of them, which is not required (`C63_violated_across`). -/
theorem C63_several_partial {e : Env} (he : e.Lawful) {a : Args ρ} (ha : a.OK) (hb : Spec'.KeptFirst a) {T : Task ρ} (h : init e a = .ok T)
    (h1 : a.across ≠ []) {n : Nat} (hn : nbLevels e T = .ok n) :
    n = (T.levels.map (fun L => Spec.nbLevelsSome a.cols a.on a.across a.filters (keptOf a L.key))).sum := by
  obtain ⟨hf, ns, hns, rfl⟩ := nbLevels_inv hn
  rw [sequence_map_ok (g := fun L => Spec.nbLevelsSome a.cols a.on a.across a.filters (keptOf a L.key))
    (fun L hL => by rw [nbLevel_several he ha hb h h1 hL])] at hns
  rw [← Except.ok.inj hns]

/-- C63: a number is reported whenever no filter is applied to A, B, X or triplets. -/
theorem C63_reported {e : Env} (he : e.Lawful) {a : Args ρ} (ha : a.OK) (hb : Spec'.KeptFirst a) {T : Task ρ} (h : init e a = .ok T) :
    (∃ n, nbLevels e T = .ok n) ↔ T.filters.ops .A = [] ∧ T.filters.ops .B = [] ∧ T.filters.ops .X = [] ∧ T.filters.ops .ABX = [] := by
  constructor
  · rintro ⟨n, hn⟩; exact (nbLevels_inv hn).1
  · intro hf
    unfold nbLevels
    obtain ⟨f1, f2, f3, f4⟩ := hf
    rw [f1, f2, f3, f4]
    rw [sequence_map_ok (fun L hL => nbLevel_all he ha hb h ⟨f1, f2, f3, f4⟩ hL)]
    exact ⟨_, rfl⟩

/-! ### cases -/

/-- the number reported for a task -/
def runNb (a : Args Nat) : Except Err Nat := match init E0 a with
  | .error e => .error e
  | .ok T => nbLevels E0 T

theorem runNb_ok {a : Args Nat} {r} (h : runNb a = r) (hr : ∀ e, init E0 a ≠ .error e) : ∃ T, init E0 a = .ok T ∧ nbLevels E0 T = r := by
  unfold runNb at h
  split at h
  · rename_i e he; exact absurd he (hr e)
  · rename_i T hT; exact ⟨T, hT, h⟩

/-- four triplets, two combinations of labels -/
def exNb : Args Nat := args0 [mk "a" 1, mk "a" 1, mk "b" 1, mk "b" 1, mk "a" 2, mk "c" 1] [] []

theorem exNb_ok : exNb.OK := Args.OK.flat rfl (by decide +kernel) (by intro f hf; cases hf) (by intro f hf; cases hf)
  (by intro f hf; cases hf) (by intro f hf; cases hf) (by decide +kernel)

/-- six triplets (A: items 0 and 1, B: items 2, 3 and 5, X: item 4), two combinations of labels -/
example : runNb exNb = .ok 2 ∧ (tripsSpec exNb [.int 0]).length = 6 ∧
    Spec.nbLevels exNb.cols exNb.on exNb.across exNb.filters (itemsOf exNb [.int 0]) = 2 := by decide +kernel

/-- the hypotheses of `C63_single_partial` hold for it -/
example : ∃ T, init E0 exNb = .ok T ∧ nbLevels E0 T = .ok 2 ∧ 2 = (T.levels.map (fun L => Spec.nbLevels exNb.cols exNb.on exNb.across exNb.filters (itemsOf exNb L.key))).sum := by
  have h : runNb exNb = .ok 2 := by decide +kernel
  obtain ⟨T, hT, hn⟩ := runNb_ok h (by intro e he; rw [runNb, he] at h; cases h)
  exact ⟨T, hT, hn, C63_single_partial E0_lawful exNb_ok (.of_not_bare (by intro f hf; cases hf)) hT rfl hn⟩

/-- a task without across column: items a, a, b -/
def exNone : Args Nat := ⟨["on"], "on", [], [], ⟨["on"], [], []⟩, [], [], [(0, mk "a" 0), (1, mk "a" 0), (2, mk "b" 0)], [0, 1, 2]⟩

theorem exNone_ok : exNone.OK := Args.OK.flat rfl (by decide +kernel) (by intro f hf; cases hf) (by intro f hf; cases hf)
  (by intro f hf; cases hf) (by intro f hf; cases hf) (by decide +kernel)

/-- C63 is false without across column: the two triplets of the table have the same labels (a, b, a), the number
reported is 2. -/
theorem C63_violated_none : ¬ ∀ (e : Env) (a : Args Nat) (T : Task Nat) (n : Nat), e.Lawful → a.OK → a.filters = [] → init e a = .ok T → nbLevels e T = .ok n →
    n = (T.levels.map (fun L => Spec.nbLevels a.cols a.on a.across a.filters (itemsOf a L.key))).sum := by
  intro hall
  have h : runNb exNone = .ok 2 := by decide +kernel
  obtain ⟨T, hT, hn⟩ := runNb_ok h (by intro e he; rw [runNb, he] at h; cases h)
  have := hall E0 exNone T 2 E0_lawful exNone_ok rfl hT hn
  have h2 : (match init E0 exNone with
    | .error _ => 0
    | .ok T => (T.levels.map (fun L => Spec.nbLevels exNone.cols exNone.on exNone.across exNone.filters (itemsOf exNone L.key))).sum) = 1 := by decide +kernel
  rw [hT] at h2
  simp only [h2] at this
  omega

/-- a task across two columns: X differs from A in one of them only -/
def exAcross : Args Nat := ⟨["on", "ac", "sp"], "on", ["ac", "sp"], [], ⟨["on"], ["ac", "sp"], []⟩, [], [],
  [(0, mk "a" 0 0), (1, mk "b" 0 0), (2, mk "a" 0 1)], [0, 1, 2]⟩

theorem exAcross_ok : exAcross.OK := Args.OK.flat rfl (by decide +kernel) (by intro f hf; cases hf) (by intro f hf; cases hf)
  (by intro f hf; cases hf) (by intro f hf; cases hf) (by decide +kernel)

/-- C63 is false with two across columns: the table has no triplets, the number reported is 1. -/
theorem C63_violated_across : ¬ ∀ (e : Env) (a : Args Nat) (T : Task Nat) (n : Nat), e.Lawful → a.OK → a.filters = [] → a.across ≠ [] → init e a = .ok T → nbLevels e T = .ok n →
    n = (T.levels.map (fun L => Spec.nbLevels a.cols a.on a.across a.filters (itemsOf a L.key))).sum := by
  intro hall
  have h : runNb exAcross = .ok 1 := by decide +kernel
  obtain ⟨T, hT, hn⟩ := runNb_ok h (by intro e he; rw [runNb, he] at h; cases h)
  have := hall E0 exAcross T 1 E0_lawful exAcross_ok rfl (by decide) hT hn
  have h2 : (match init E0 exAcross with
    | .error _ => 7
    | .ok T => (T.levels.map (fun L => Spec.nbLevels exAcross.cols exAcross.on exAcross.across exAcross.filters (itemsOf exAcross L.key))).sum) = 0 := by decide +kernel
  rw [hT] at h2
  simp only [h2] at this
  omega

/-- the hypotheses of `C63_several_partial` hold for it: the number reported is that of the triples whose X differs from A in one of the across columns -/
example : ∃ T, init E0 exAcross = .ok T ∧ nbLevels E0 T = .ok 1 ∧
    1 = (T.levels.map (fun L => Spec.nbLevelsSome exAcross.cols exAcross.on exAcross.across exAcross.filters (keptOf exAcross L.key))).sum := by
  have h : runNb exAcross = .ok 1 := by decide +kernel
  obtain ⟨T, hT, hn⟩ := runNb_ok h (by intro e he; rw [runNb, he] at h; cases h)
  exact ⟨T, hT, hn, C63_several_partial E0_lawful exAcross_ok (.of_not_bare (by intro f hf; cases hf)) hT (by decide) hn⟩

/-- a filter removes the first item -/
def exFilter : Args Nat := args0 [mk "z" 1 1, mk "a" 1, mk "b" 1, mk "b" 1, mk "a" 2, mk "q" 5] [keepF] []

theorem exFilter_ok : exFilter.OK := Args.OK.flat rfl (by decide +kernel)
  (by intro f hf; simp only [exFilter, args0, List.mem_cons, List.not_mem_nil, or_false] at hf
      subst hf; constructor <;> simp [keepF, exFilter, args0])
  (by intro f hf; cases hf)
  (by intro f hf; simp only [exFilter, args0, List.mem_cons, List.not_mem_nil, or_false] at hf
      subst hf; simp [keepF, exFilter, args0])
  (by intro f hf; cases hf) (by decide +kernel)

/-- C63 is false after a filter that removes an item, with one across column: the triplets have one combination of labels,
the number reported is 2. -/
theorem C63_violated_filter : ¬ ∀ (e : Env) (a : Args Nat) (T : Task Nat) (n : Nat), e.Lawful → a.OK → a.across.length = 1 → init e a = .ok T → nbLevels e T = .ok n →
    n = (T.levels.map (fun L => Spec.nbLevels a.cols a.on a.across a.filters (itemsOf a L.key))).sum := by
  intro hall
  have h : runNb exFilter = .ok 2 := by decide +kernel
  obtain ⟨T, hT, hn⟩ := runNb_ok h (by intro e he; rw [runNb, he] at h; cases h)
  have := hall E0 exFilter T 2 E0_lawful exFilter_ok rfl hT hn
  have h2 : (match init E0 exFilter with
    | .error _ => 7
    | .ok T => (T.levels.map (fun L => Spec.nbLevels exFilter.cols exFilter.on exFilter.across exFilter.filters (itemsOf exFilter L.key))).sum) = 1 := by decide +kernel
  rw [hT] at h2
  simp only [h2] at this
  omega

#print axioms C63_single_partial
#print axioms C63_none_partial
#print axioms C63_several_partial
#print axioms C63_reported
#print axioms C63_violated_none
#print axioms C63_violated_across
#print axioms C63_violated_filter

end ABX.Task
