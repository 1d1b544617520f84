import Verif.Spec.Plain
/-!
Specification of the results of a plain ABX experiment in terms of the lines of the item file.
-/
namespace ABX.Spec
open SideOps Analyze

/-- a line of an item file: its fields and its number -/
abbrev Line := List (Option Val) × Nat

/-- the lines with an 'on' label and 'across' labels; `val` gives the label of a line in a column -/
def lineCell (val : Line → String → Option Val) (on : String) (across : List String) (lines : List Line) (l : Val) (s : String → Val) : List Line :=
  lines.filter (fun p => val p on == some l && across.all (fun c => val p c == some (s c)))

/-- the triplets of lines with given labels; without across column X is another line than A -/
def lineGroup (val : Line → String → Option Val) (on : String) (across : List String) (lines : List Line) (l : Labels) : List (Line × Line × Line) :=
  (lineCell val on across lines l.on1 l.across1).flatMap (fun A => (lineCell val on across lines l.on2 l.across1).flatMap (fun B =>
    ((lineCell val on across lines l.on1 l.across2).filter (fun X => !across.isEmpty || X.2 != A.2)).map (fun X => (A, B, X))))

/-- `q` is the ABX score of three lines: 1 when X is nearer to A, 0 when it is nearer to B, 1/2 otherwise; `dist` is the distance of two lines -/
def IsLineAbx {δ : Type} (lt : δ → δ → Bool) (dist : Line → Line → Except Err δ) (t : Line × Line × Line) (q : ℚ) : Prop :=
  ∃ dAX dBX, dist t.1 t.2.2 = .ok dAX ∧ dist t.2.1 t.2.2 = .ok dBX ∧ q = if lt dAX dBX then 1 else if lt dBX dAX then 0 else 1 / 2

end ABX.Spec
