import Verif.Model.CommandLine
/-! Specification for command lines (C70, C71); only the types of the model are used. -/
namespace ABX.CommandLine.Spec
open Database (Text splitext)

/-- no file but `o` differs -/
def Frame {κ : Type} (o : Text) (fs fs' : Files κ) : Prop := ∀ q, q ≠ o → fs' q = fs q

/-- no existing file differs -/
def Keeps {κ : Type} (fs fs' : Files κ) : Prop := ∀ q c, fs q = some c → fs' q = some c

/-- an existing `o` is kept, or the program ends normally and there is a new one -/
def Safe {κ : Type} (o : Text) (prog : Files κ → Files κ × End) : Prop :=
  ∀ fs c, fs o = some c → (prog fs).1 o = some c ∨ ((prog fs).2 = .ok ∧ ((prog fs).1 o).isSome)

/-- `parts` are the maximal pieces of `t` without dots -/
inductive Pieces : Text → List Text → Prop
  | last (w : Text) : '.' ∉ w → Pieces w [w]
  | cons (w t : Text) (ws : List Text) : '.' ∉ w → Pieces t ws → Pieces (w ++ '.' :: t) (w :: ws)

/-- `x` can be made `y` with `n` insertions, deletions and substitutions -/
inductive Edits {ψ : Type} : List ψ → List ψ → Nat → Prop
  | nil : Edits [] [] 0
  | keep (a : ψ) {x y n} : Edits x y n → Edits (a :: x) (a :: y) n
  | sub (a b : ψ) {x y n} : Edits x y n → Edits (a :: x) (b :: y) (n + 1)
  | del (a : ψ) {x y n} : Edits x y n → Edits (a :: x) y (n + 1)
  | ins (b : ψ) {x y n} : Edits x y n → Edits x (b :: y) (n + 1)

/-- the Levenshtein distance -/
def IsLev {ψ : Type} (x y : List ψ) (n : Nat) : Prop := Edits x y n ∧ ∀ m, Edits x y m → n ≤ m

/-- the name of the task file -/
def taskFile (a : TaskArgs) : Text := match a.output with
  | some o => o
  | none => (splitext a.database).1 ++ ".abx".toList

end ABX.CommandLine.Spec
