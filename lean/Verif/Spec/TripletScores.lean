import Verif.Spec.TaskLines
/-!
The scores of a file of scores in terms of the lines of the item table: independent of levels, numbers of items, pairs and blocks.
-/
namespace ABX.Spec
open SideOps

/-- the rows of a task file as lines of the table, each with its number in the file of scores (see `fileLines`) -/
def scoredLines (by_ : List String) (rows : List Row) (F : Task.File) (S : List Int) : List ((Option Nat × Option Nat × Option Nat) × Int) :=
  (F.bys.zip F.byIndex).flatMap (fun p =>
    let key := if by_ = [] then [] else p.1
    (((F.data.zip S).take p.2.2.toNat).drop p.2.1.toNat).map (fun t => ((lineOf by_ rows key t.1.1, lineOf by_ rows key t.1.2.1, lineOf by_ rows key t.1.2.2), t.2)))

/-- `w` is the score of the lines (A, B, X): 1 when X is nearer to A, -1 when it is nearer to B, 0 otherwise.  `recs` are the records of the lines of the table. -/
def IsLineScore {ρ δ : Type} (lt : δ → δ → Bool) (dist : ρ → ρ → Except Err δ) (recs : List ρ) (u : Nat × Nat × Nat) (w : Int) : Prop :=
  ∃ rA rB rX dAX dBX, recs[u.1]? = some rA ∧ recs[u.2.1]? = some rB ∧ recs[u.2.2]? = some rX ∧ dist rA rX = .ok dAX ∧ dist rB rX = .ok dBX ∧
    w = if lt dAX dBX then 1 else if lt dBX dAX then -1 else 0

end ABX.Spec
