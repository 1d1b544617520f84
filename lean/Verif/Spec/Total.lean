import Verif.Model.Analyze
/-!
What the rows of results say of the scores of a set of triplets as a whole: independent of levels and regressors.
-/
namespace ABX.Spec
open Analyze

/-- what the rows `out` say of numbers `s` (the scores of triplets): their number and, up to rounding, the sum of (s + 1) / 2 -/
structure Sums (out : List OutRow) (s : List Int) : Prop where
  count : (out.map (·.n)).sum = s.length
  total : |(out.map (fun o => (o.n : ℚ) * o.score)).sum - (s.map (fun x : Int => ((x : ℚ) + 1) / 2)).sum| ≤ s.length * 2 ^ (-52 : ℤ)

end ABX.Spec
