import Verif.Model.Names
/-!
Specification of the names of levels and of tab-separated tables.
-/
namespace ABX.Names.Spec
open Database (Text)

/-- two values of the same column: both integers or both strings -/
inductive SameKind : Val → Val → Prop where
  | int {m n} : SameKind (.int m) (.int n)
  | str {s t} : SameKind (.str s) (.str t)

/-- a value without a slash -/
def NoSlash : Val → Prop
  | .int _ => True
  | .str s => '/' ∉ s.toList

/-- a value that can be the name of a group: not empty, not a dot -/
def Nameable : Val → Prop
  | .int _ => True
  | .str s => s ≠ "" ∧ s ≠ "."

/-- a text without tabs and ends of line -/
def Clean (t : Text) : Prop := '\t' ∉ t ∧ '\n' ∉ t

/-- a value without tabs and ends of line -/
def CleanVal : Val → Prop
  | .int _ => True
  | .str s => Clean s.toList

/-- the text of a line of cells: the cells, with tabs between them -/
inductive LineOf : List Text → Text → Prop where
  | one {a} : LineOf [a] a
  | cons {a rest t} : LineOf rest t → LineOf (a :: rest) (a ++ ['\t'] ++ t)

/-- a text is that of a table of cells: the lines, each with its end -/
inductive Lines : List (List Text) → Text → Prop where
  | nil : Lines [] []
  | cons {row rows t u} : LineOf row t → Lines rows u → Lines (row :: rows) (t ++ ['\n'] ++ u)

/-- what a reader of tab-separated text finds: cells without tabs and ends of line -/
def Reads (t : Text) (rows : List (List Text)) : Prop := Lines rows t ∧ ∀ row ∈ rows, ∀ c ∈ row, Clean c

end ABX.Names.Spec
