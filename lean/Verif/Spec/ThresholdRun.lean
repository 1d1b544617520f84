import Verif.Spec.ThresholdChance
import Verif.Spec.SamplerUniform
import Verif.Properties.Pipeline
import Mathlib.MeasureTheory.Constructions.Pi
import Mathlib.MeasureTheory.Integral.Bochner.Basic
/-!
Specification for C106: a row of the results of an experiment with a threshold, for given random numbers of a block.
-/
namespace ABX.Pipeline
open MeasureTheory ABX.Task SideOps Sampler Analyze
variable {ρ φ δ Ω : Type}

/-- an experiment with a threshold ends with the row `o'` for the labels and the level of `o`, the random numbers with which the block `k` of this level is sampled are those of `ω` (`Sr c w`: the random numbers for a group of `c` triplets);
all other choices, the random numbers of the other blocks among them, are free -/
def Rerun [Inhabited Ω] (threshold : Nat) (N : Num) (e : Env) (T : Task.Task ρ) (getFeat : ρ → Except Err φ) (distance : φ → φ → Except Err δ) (lt : δ → δ → Bool) (labels : List (List Val)) (Sr : Nat → Ω → Src) (k : List Val) (sizes : List Nat)
    (ω : Fin sizes.length → Ω) (o o' : OutRow) : Prop :=
  ∃ (c : Choices) (F : File) (S : List Int) (rows : List OutRow), c.Lawful ∧ c.num = N ∧ (∀ j, c.src o.by_ k j = runSrc Sr sizes (extend ω) j) ∧ RanT threshold c e T getFeat distance lt F S ∧
    collapse c.sortRows labels F S = .ok rows ∧ o' ∈ rows ∧ o'.labels = o.labels ∧ o'.by_ = o.by_

/-- the score of the row `o` is estimated by experiments with a threshold: up to 2^-52 their score is a random variable `X` of the random numbers with which the block of the row is sampled (the `g` groups of the block are sampled one after the other);
the expectation of `X` is the score of `o`, and it is rarely far from it (at most as often as Chebyshev's inequality gives for the mean of `threshold` independent draws) -/
def Estimated [Inhabited Ω] [MeasurableSpace Ω] (μ : Measure Ω) (Sr : Nat → Ω → Src) (lo hi : ℝ) (threshold : Nat) (N : Num) (e : Env) (a : Args ρ) (T : Task.Task ρ) (getFeat : ρ → Except Err φ) (distance : φ → φ → Except Err δ) (lt : δ → δ → Bool)
    (labels : List (List Val)) (o : OutRow) : Prop :=
  ∃ (k : List Val) (sizes : List Nat) (g : Nat) (X : (Fin sizes.length → Ω) → ℝ),
    (∃ t ∈ tripsSpec a o.by_, k = keyOf (a.on :: a.across) t.1.2 ∧ Spec.IsLabels labels ((colRegs T.regressors).map (fun f => Spec.regValue a.cols f t)) o.labels ∧
      g ≤ ((tripsSpec a o.by_).filter (Spec.sameBlock a.on a.across t)).length) ∧
    (∀ ω o', Rerun threshold N e T getFeat distance lt labels Sr k sizes ω o o' → |(o'.score : ℝ) - X ω| ≤ 2 ^ (-52 : ℤ)) ∧
    lo ^ g * ((o.score : ℝ) - 2 ^ (-52 : ℤ)) ≤ ∫ ω, X ω ∂(Measure.pi (fun _ : Fin sizes.length => μ)) ∧
    ∫ ω, X ω ∂(Measure.pi (fun _ : Fin sizes.length => μ)) ≤ hi ^ g * ((o.score : ℝ) + 2 ^ (-52 : ℤ)) ∧
    ∀ ε : ℝ, 0 < ε → (Measure.pi (fun _ : Fin sizes.length => μ)).real {ω | ∃ o', Rerun threshold N e T getFeat distance lt labels Sr k sizes ω o o' ∧ ε + 2 * 2 ^ (-52 : ℤ) ≤ |(o'.score : ℝ) - o.score|} ≤
      hi ^ g * (1 / (4 * threshold * ε ^ 2))

end ABX.Pipeline
