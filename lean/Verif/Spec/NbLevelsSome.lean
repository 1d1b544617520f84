import Verif.Spec.Stats
/-! Specification of the number of levels with any number of across columns. -/
namespace ABX.Spec
open SideOps

/-- B has another 'on' label than A and the same 'across' labels; X has the 'on' label of A and differs from it in some 'across' column -/
def looselyLegal (on : String) (across : List String) (a b x : Item) : Bool :=
  (b.2 on != a.2 on && across.all (fun col => b.2 col == a.2 col)) && (x.2 on == a.2 on && across.any (fun col => x.2 col != a.2 col))

/-- the number of these triples of items when those with the same 'on' and 'across' labels of A, B and X are counted as one -/
def nbLevelsSome (c : Cols) (on : String) (across : List String) (filters : List (DBFun Bool)) (its : List Item) : Nat :=
  (((triples its).filter (fun t => admits c filters t.1 && looselyLegal on across t.1 t.2.1 t.2.2)).map
    (fun t => (labelsOf on across t.1, labelsOf on across t.2.1, labelsOf on across t.2.2))).dedup.length

end ABX.Spec
