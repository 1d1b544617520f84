import Verif.Spec.ChanceTask
import Verif.Spec.Task
import Verif.Model.F64
/-!
Specification for C108: triplets that are right and wrong, and what their numbers say of a score.
-/
namespace ABX.Spec

open Classical in
/-- the number of the triplets (A, B, X) in which X is nearer to A than to B -/
noncomputable def rightCount {ρ δ : Type} (lt : δ → δ → Bool) (dist : ρ → ρ → Except Err δ) (recs : List ρ) (Q : List (Item × Item × Item)) : Nat :=
  Q.countP (fun t => decide (nearerAt lt dist recs t.1.1 t.2.1.1 t.2.2.1))

open Classical in
/-- the number of the triplets (A, B, X) in which X is nearer to B than to A -/
noncomputable def wrongCount {ρ δ : Type} (lt : δ → δ → Bool) (dist : ρ → ρ → Except Err δ) (recs : List ρ) (Q : List (Item × Item × Item)) : Nat :=
  Q.countP (fun t => decide (nearerAt lt dist recs t.2.1.1 t.1.1 t.2.2.1))

/-- what a score says of the numbers of right and wrong triplets among `n` -/
structure Says (score : ℚ) (right wrong n : Nat) : Prop where
  one : score = 1 ↔ right = n
  zero : score = 0 ↔ wrong = n
  half : score = 1 / 2 ↔ right = wrong
  above : 1 / 2 < score ↔ wrong < right

/-- the exact score: the mean of 1 for right, 0 for wrong and 1/2 for the other triplets -/
def exactScore (right wrong n : Nat) : ℚ := (right + ((n : ℚ) - right - wrong) / 2) / n

/-- the score as it is computed in float64, from the mean of 1 for right, -1 for wrong and 0 for the other triplets -/
def floatScore (right wrong n : Nat) : ℚ := F64.rnd (F64.rnd (((right : ℚ) - wrong) / n) + 1) / 2

end ABX.Spec
