import Verif.Spec.Task
/-! Specification of the number of levels of a task. -/
namespace ABX.Spec
open SideOps

/-- the 'on' and 'across' labels of an item -/
def labelsOf (on : String) (across : List String) (p : Item) : List Val := (on :: across).map p.2

/-- the number of triplets when triplets with the same 'on' and 'across' labels of A, B and X are counted as one -/
def nbLevels (c : Cols) (on : String) (across : List String) (filters : List (DBFun Bool)) (its : List Item) : Nat :=
  ((itemTriplets c on across filters its).map (fun t => (labelsOf on across t.1, labelsOf on across t.2.1, labelsOf on across t.2.2))).dedup.length

/-- the number of triplets when triplets with the same A and the same labels of B and X are counted as one -/
def nbLevelsA (c : Cols) (on : String) (across : List String) (filters : List (DBFun Bool)) (its : List Item) : Nat :=
  ((itemTriplets c on across filters its).map (fun t => (t.1.1, labelsOf on across t.2.1, labelsOf on across t.2.2))).dedup.length

end ABX.Spec
