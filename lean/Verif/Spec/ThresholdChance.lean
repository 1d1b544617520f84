import Verif.Spec.SamplerChance
import Verif.Model.TaskGen
/-!
Specification for C103: a threshold with random numbers.

`S c w` are the random numbers that sampling from a group of `c` triplets uses, when the chance is `w`.
-/
namespace ABX.Task
open MeasureTheory Sampler

variable {Ω : Type} [Inhabited Ω]

/-- the random numbers of the successive groups, with the sizes `counts` -/
def runSrc (S : Nat → Ω → Src) (counts : List Nat) (ω : Nat → Ω) (j : Nat) : Src := S (counts.getD j 0) (ω j)

/-- the sizes of the groups of triplets with equal index in the order of `permut` (lines 1183-1187 of task.py) -/
def runSizes (permut : List Nat) (newIndex : List Int) : List Nat := match ExtSort.gather newIndex permut with
  | .ok s => runCounts (uniqueIdx s)
  | .error _ => []

/-- up to factors `lo` and `hi`, `sample_without_replacement(T, c)` gives each set of `T` of the numbers below `c ≤ M` with the same probability -/
structure FairDraw [MeasurableSpace Ω] (μ : Measure Ω) (S : Nat → Ω → Src) (lo hi : ℝ) (T M : Nat) : Prop where
  lawful : ∀ c w, (S c w).Lawful
  low : 0 ≤ lo ∧ lo ≤ 1
  high : 1 ≤ hi
  draw : ∀ (c : Nat) (l : List Nat), T < c → c ≤ M → l.Pairwise (· < ·) → (∀ x ∈ l, x < c) → l.length = T →
    let p := μ.real {w | sampleWithoutReplacement T c (S c w) = .ok l}
    lo * (1 / (c.choose T : ℝ)) ≤ p ∧ p ≤ hi * (1 / (c.choose T : ℝ))

/-- `W` is a selection: it has, of each group of elements with equal index, `T` or all of them -/
structure Selection (newIndex : List Int) (T : Nat) (W : Finset Nat) : Prop where
  lt : ∀ x ∈ W, x < newIndex.length
  count : ∀ v, (W.filter (fun x => newIndex.getD x 0 = v)).card = min T (newIndex.count v)

/-- one divided by the number of selections: the groups are independent -/
noncomputable def selectionProb (newIndex : List Int) (T : Nat) : ℝ := ∏ v ∈ newIndex.toFinset, 1 / (((newIndex.count v).choose (min T (newIndex.count v)) : Nat) : ℝ)

/-- `Q` is a choice of triplets of a block: it has, of each group of triplets with the same row of regressors, `T` or all of them -/
structure Choice (trips : List (Nat × Nat × Nat)) (rows : List (List Nat)) (T : Nat) (Q : Finset (Nat × Nat × Nat)) : Prop where
  mem : ∀ q ∈ Q, q ∈ trips
  count : ∀ r, ((trips.zip rows).filter (fun p => p.2 = r ∧ p.1 ∈ Q)).length = min T (rows.count r)

/-- one divided by the number of choices -/
noncomputable def choiceProb (rows : List (List Nat)) (T : Nat) : ℝ := ∏ r ∈ rows.toFinset, 1 / (((rows.count r).choose (min T (rows.count r)) : Nat) : ℝ)

/-- the random numbers of a group of at most `M` triplets: those of `Knuth_sampling` and the table of those of `rejection_sampling`, as in `Chance` -/
abbrev Draws (M R : Nat) : Type := (n : Fin (M + 1)) → (Fin n.val → Fin (2 ^ 53)) × ((k : Fin (n.val + 1)) → Fin R → Fin k.val → Fin n.val)

/-- all of them are independent and uniform -/
noncomputable def draws (M R : Nat) : Measure (Draws M R) := Measure.pi fun n : Fin (M + 1) =>
  (ProbabilityTheory.uniformOn (Set.univ : Set (Fin n.val → Fin (2 ^ 53)))).prod (Measure.pi fun k : Fin (n.val + 1) => ProbabilityTheory.uniformOn (Set.univ : Set (Fin R → Fin k.val → Fin n.val)))

/-- the random numbers of a group of `c` triplets as the model takes them, when `T` of them are to be drawn -/
def drawSrc (M R T c : Nat) (w : Draws M R) : Src where
  prop := fun _ => (0, false)
  ub := 0
  u := if hc : c < M + 1 then stream (w ⟨c, hc⟩).1 else fun _ => 0
  draw := if hc : c < M + 1 then if hk : T < c + 1 then padDraw ((w ⟨c, hc⟩).2 ⟨T, hk⟩) else fun _ _ j => List.replicate j 0 else fun _ _ j => List.replicate j 0
  fuel := R

end ABX.Task
