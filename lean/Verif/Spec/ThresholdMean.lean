import Verif.Spec.Choices
import Verif.Model.TaskGen
/-!
Specification for C104: the mean score of the triplets of a row, complete or kept by a threshold.
-/
namespace ABX.Task

/-- the mean of the scores `f` of the triplets with the regressors `v` -/
noncomputable def groupMean (f : Nat × Nat × Nat → ℝ) (row : Nat × Nat × Nat → List Nat) (v : List Nat) (trips : List (Nat × Nat × Nat)) : ℝ :=
  ((trips.filter (fun t => row t = v)).map f).sum / (trips.filter (fun t => row t = v)).length

/-- the mean of the scores of the triplets with the regressors `v` that are written, 0 if nothing is written -/
noncomputable def keptMean (f : Nat × Nat × Nat → ℝ) (row : Nat × Nat × Nat → List Nat) (v : List Nat) (out : Except Err (List (Nat × Nat × Nat) × List Nat × List Nat)) : ℝ := match out with
  | .ok (trips, _, _) => groupMean f row v trips
  | .error _ => 0

end ABX.Task
