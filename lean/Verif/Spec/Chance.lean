import Mathlib.Algebra.BigOperators.Group.Finset.Basic
import Mathlib.Algebra.Order.BigOperators.Group.Finset
import Mathlib.Data.Fintype.Perm
import Verif.Spec.Lines
/-!
Specification for C105: random distances that carry no information.
-/
namespace ABX.Spec
open SideOps Analyze

/-- X is nearer to A than to B -/
def nearer {δ : Type} (lt : δ → δ → Bool) (dist : Line → Line → Except Err δ) (A B X : Line) : Bool :=
  match dist A X, dist B X with
  | .ok d, .ok d' => lt d d'
  | _, _ => false

/-- `dist i` are the distances when chance gives the outcome `i`, which has probability `w i`.  They carry no information on the lines `L`: of three different lines, X is nearer to A than to B with the same probability as it is nearer
to B than to A. -/
structure Uninformative {δ ι : Type} [Fintype ι] (w : ι → ℚ) (lt : δ → δ → Bool) (dist : ι → Line → Line → Except Err δ) (L : List Line) : Prop where
  nonneg : ∀ i, 0 ≤ w i
  total : ∑ i, w i = 1
  even : ∀ A ∈ L, ∀ B ∈ L, ∀ X ∈ L, A.2 ≠ B.2 → X.2 ≠ A.2 → X.2 ≠ B.2 →
    ∑ i, (if nearer lt (dist i) A B X then w i else 0) = ∑ i, (if nearer lt (dist i) B A X then w i else 0)

/-- the features of the `n` lines are shuffled: when the permutation is `π`, line `i` has the features of line `π i`; `D` are the distances before -/
def Shuffled {δ : Type} {n : Nat} (D : Fin n → Fin n → δ) (dist : Equiv.Perm (Fin n) → Line → Line → Except Err δ) (L : List Line) : Prop :=
  ∀ π, ∀ A ∈ L, ∀ X ∈ L, ∀ i j : Fin n, A.2 = i → X.2 = j → dist π A X = .ok (D (π i) (π j))

/-- the distances are dealt at random to the pairs of lines: `pair` is the place of two lines in the set Ω of places (ordered or unordered pairs, say), and place `p` gets the distance `D (π p)` -/
def Dealt {δ Ω : Type} (D : Ω → δ) (pair : Nat → Nat → Ω) (dist : Equiv.Perm Ω → Line → Line → Except Err δ) (L : List Line) : Prop :=
  ∀ π, ∀ A ∈ L, ∀ X ∈ L, dist π A X = .ok (D (π (pair A.2 X.2)))

/-- `o` is the only row of the table for the level `key` and the labels `l`, and it counts `n` triplets; the columns of labels are `vars` -/
structure TheRow (on : String) (vars : List Var) (rows : List OutRow) (key : List Val) (l : Labels) (n : Nat) (o : OutRow) : Prop where
  mem : o ∈ rows
  level : o.by_ = key
  labels : o.labels = vars.map (l.at on)
  count : o.n = n
  only : ∀ o' ∈ rows, o'.by_ = key → o'.labels = vars.map (l.at on) → o' = o

end ABX.Spec
