import Verif.Spec.Task
import Verif.Model.TaskGen
/-!
The triplets of a task in terms of the lines of the item table, and what a task file says of them: independent of levels, numbers of items in a level and blocks.
-/
namespace ABX.Spec
open SideOps

/-- the lines `t` of the table make a triplet of the task: they agree on the 'by' columns, are a legal triplet and the filters hold -/
def LineTriplet (c : Cols) (on : String) (across by_ : List String) (filters : List (DBFun Bool)) (rows : List Row) (t : Nat × Nat × Nat) : Prop :=
  ∃ rA rB rX, rows[t.1]? = some rA ∧ rows[t.2.1]? = some rB ∧ rows[t.2.2]? = some rX ∧ by_.map rB = by_.map rA ∧ by_.map rX = by_.map rA ∧
    legal on across (t.1, rA) (t.2.1, rB) (t.2.2, rX) = true ∧ ∀ f ∈ filters, holds c f rA rB rX = true

/-- the lines of a level, with their numbers in the table -/
def levelLines (by_ : List String) (rows : List Row) (key : List Val) : List (Row × Nat) := rows.zipIdx.filter (fun p => by_.map p.1 == key)

/-- the line of an item of a level -/
def lineOf (by_ : List String) (rows : List Row) (key : List Val) (n : Int) : Option Nat := (levelLines by_ rows key)[n.toNat]?.map (·.2)

/-- the triplets of a task file as lines of the table: the rows of by_index[i] speak of items of the level bys[i] (of the whole table if there are no 'by' columns) -/
def fileLines (by_ : List String) (rows : List Row) : Option Task.File → List (Option Nat × Option Nat × Option Nat)
  | none => []
  | some F => (F.bys.zip F.byIndex).flatMap (fun p =>
      let key := if by_ = [] then [] else p.1
      ((F.data.take p.2.2.toNat).drop p.2.1.toNat).map (fun t => (lineOf by_ rows key t.1, lineOf by_ rows key t.2.1, lineOf by_ rows key t.2.2)))

/-- three lines -/
def lines (t : Nat × Nat × Nat) : Option Nat × Option Nat × Option Nat := (some t.1, some t.2.1, some t.2.2)

end ABX.Spec
