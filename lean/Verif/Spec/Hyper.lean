import Mathlib.Data.Real.Basic
import Mathlib.Data.Nat.Choose.Basic
/-!
Specification for C101: the hypergeometric distribution.
-/
namespace ABX.Spec

/-- the probability that a set of `n` of `N` items contains `k` of `K` given items, when all sets have the same probability -/
noncomputable def hyperPmf (N K n k : Nat) : ℝ := if k ≤ n then (K.choose k * (N - K).choose (n - k) : ℝ) / N.choose n else 0

end ABX.Spec
