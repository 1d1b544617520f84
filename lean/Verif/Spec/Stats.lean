import Verif.Spec.Task
import Verif.Spec.NbLevels
import Verif.Model.Names
/-! Specification of the statistics of a level: numbers of labels, of pairs and of triplets; format of the text. -/
namespace ABX.Spec
open SideOps

/-- the filter is decided by the item A alone, through columns that all the items A of a block share: columns determined by 'by', the
'on' and 'across' columns of A, and (X having the 'on' label of A) the columns of X determined by 'on' -/
def decidedByA (c : Cols) (f : DBFun Bool) : Bool :=
  f.inputs.all (fun v => c.by_.contains v.1 || v.2 == .one || v.2 == .AX || v.2 == .AB ||
    ((v.2 == .A || v.2 == .X) && c.on.contains v.1))

/-- the filter is decided by the item A alone, or selects items -/
def decidedEarly (c : Cols) (f : DBFun Bool) : Bool := decidedByA c f || bare c f

/-- the filters that are decided by A accept it -/
def admits (c : Cols) (filters : List (DBFun Bool)) (a : Item) : Bool :=
  filters.all (fun f => !decidedByA c f || f.fn (fun v => a.2 v.1))

/-- all the ordered pairs of items -/
def itemPairs (its : List Item) : List (Item × Item) := its.flatMap (fun a => its.map (fun b => (a, b)))

/-- the pairs (A, B): B has another 'on' label and the same 'across' labels -/
def pairsAB (c : Cols) (on : String) (across : List String) (filters : List (DBFun Bool)) (its : List Item) : List (Item × Item) :=
  (itemPairs its).filter (fun p => admits c filters p.1 && (p.2.2 on != p.1.2 on && across.all (fun col => p.2.2 col == p.1.2 col)))

/-- the pairs (A, X): X has the same 'on' label and other 'across' labels (is another item when there is no 'across') -/
def pairsAX (c : Cols) (on : String) (across : List String) (filters : List (DBFun Bool)) (its : List Item) : List (Item × Item) :=
  (itemPairs its).filter (fun p => admits c filters p.1 && (p.2.2 on == p.1.2 on &&
    (if across.isEmpty then p.2.1 != p.1.1 else across.all (fun col => p.2.2 col != p.1.2 col))))

/-- the pairs of items with the same 'on' label that differ in some 'across' column -/
def pairsSomeAX (c : Cols) (on : String) (across : List String) (filters : List (DBFun Bool)) (its : List Item) : List (Item × Item) :=
  (itemPairs its).filter (fun p => admits c filters p.1 && (p.2.2 on == p.1.2 on &&
    (if across.isEmpty then p.2.1 != p.1.1 else across.any (fun col => p.2.2 col != p.1.2 col))))

/-- the triplets when only the filters decided by A are applied -/
def admittedTriplets (c : Cols) (on : String) (across : List String) (filters : List (DBFun Bool)) (its : List Item) : List (Item × Item × Item) :=
  (triples its).filter (fun t => admits c filters t.1 && legal on across t.1 t.2.1 t.2.2)

/-- the items are in the same block: same 'on' and 'across' labels (the same item when there is no 'across') -/
def sameLabels (on : String) (across : List String) (a b : Item) : Bool :=
  if across.isEmpty then b.1 == a.1 else b.2 on == a.2 on && across.all (fun col => b.2 col == a.2 col)

/-- the item comes before the others of its block -/
def firstOfBlock (on : String) (across : List String) (its : List Item) (a : Item) : Bool :=
  its.all (fun b => !sameLabels on across a b || decide (a.1 ≤ b.1))

/-- the number of different labels -/
def nbLabels (cols : List String) (its : List Item) : Nat := (its.map (fun p => cols.map p.2)).dedup.length

open Database (Text)

/-- lines `name: number` -/
inductive StatFields : List (Text × Int) → Text → Prop where
  | nil : StatFields [] []
  | cons {name n fs t} : StatFields fs t → StatFields ((name, n) :: fs) (name ++ ": ".toList ++ Names.decimal n ++ ['\n'] ++ t)

/-- the levels: a line with the name of the level, then its lines -/
inductive StatLevels : List (Text × List (Text × Int)) → Text → Prop where
  | nil : StatLevels [] []
  | cons {name fs t ls u} : StatFields fs t → StatLevels ls u → StatLevels ((name, fs) :: ls) ("### by level: ".toList ++ name ++ " ###\n".toList ++ t ++ u)

/-- names that a reader of the lines can separate from the rest -/
def ReadableStats (ls : List (Text × List (Text × Int))) : Prop :=
  ∀ l ∈ ls, '\n' ∉ l.1 ∧ ∀ f ∈ l.2, ':' ∉ f.1 ∧ f.1.head? ≠ some '#'

end ABX.Spec
