import Mathlib.Data.Finset.Powerset
import Mathlib.Data.Finset.Image
import Mathlib.Data.Nat.Choose.Basic
import Mathlib.Data.Real.Basic
import Mathlib.Algebra.BigOperators.Group.Finset.Basic
/-!
Specification for C104: choices of at most `T` elements of each class, and means.
-/
namespace ABX.Spec

variable {α β : Type} [DecidableEq α] [DecidableEq β]

/-- the elements of `U` in the class `v` -/
def classOf (U : Finset α) (r : α → β) (v : β) : Finset α := U.filter (fun x => r x = v)

/-- the subsets of `U` with `T` elements of each class with more, and all elements of the other ones -/
def choices (U : Finset α) (r : α → β) (T : Nat) : Finset (Finset α) :=
  U.powerset.filter (fun Q => ∀ v ∈ U.image r, (classOf Q r v).card = min T (classOf U r v).card)

/-- the mean of `f` on a set -/
noncomputable def meanOn (f : α → ℝ) (A : Finset α) : ℝ := (∑ x ∈ A, f x) / A.card

end ABX.Spec
