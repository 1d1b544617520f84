import Verif.Spec.Filter
/-!
Specification of an ABX task, by comprehension over triples of items: independent of blocks, sets, index arithmetic and of
the points at which filters are applied.
-/
namespace ABX.Spec
open SideOps

/-- an item: its number in the 'by' level and its row -/
abbrev Item := Nat × Row

/-- (a, b, x) is an ABX triplet: A and X share 'on' and B differs; B shares all the 'across' columns with A; X
differs from A in every 'across' column, or is another item when there is no 'across' -/
def legal (on : String) (across : List String) (a b x : Item) : Bool :=
  a.2 on == x.2 on && b.2 on != a.2 on && across.all (fun c => b.2 c == a.2 c) &&
  (if across.isEmpty then x.1 != a.1 else across.all (fun c => x.2 c != a.2 c))

/-- the items of a 'by' level: the rows with these values in the by columns, numbered in file order -/
def items (by_ : List String) (rows : List Row) (key : List Val) : List Item :=
  (rows.filter (fun r => by_.map r == key)).zipIdx.map (fun p => (p.2, p.1))

/-- all the triples of items -/
def triples (its : List Item) : List (Item × Item × Item) := its.flatMap (fun a => its.flatMap (fun b => its.map (fun x => (a, b, x))))

/-- the triplets of a level: the legal triples on which every filter holds -/
def itemTriplets (c : Cols) (on : String) (across : List String) (filters : List (DBFun Bool)) (its : List Item) : List (Item × Item × Item) :=
  (triples its).filter (fun t => legal on across t.1 t.2.1 t.2.2 && filters.all (fun f => holds c f t.1.2 t.2.1.2 t.2.2.2))

/-- their item numbers -/
def triplets (c : Cols) (on : String) (across : List String) (filters : List (DBFun Bool)) (its : List Item) : List (Nat × Nat × Nat) :=
  (itemTriplets c on across filters its).map (fun t => (t.1.1, t.2.1.1, t.2.2.1))

/-- the value of a regressor in a triplet -/
def regValue (c : Cols) (f : DBFun Nat) (t : Item × Item × Item) : Nat := f.fn (sem c t.1.2 t.2.1.2 t.2.2.2)

/-- the regressor reads a column of B or of X (columns determined by 'on' have the same value in X and in A) -/
def readsBX (c : Cols) (f : DBFun Nat) : Bool :=
  f.inputs.any (fun v => !c.by_.contains v.1 && (v.2 == .B || v.2 == .two || (v.2 == .X && !c.on.contains v.1)))

/-- the filters that select items (those that name bare columns) accept the item -/
def keeps (c : Cols) (filters : List (DBFun Bool)) (p : Item) : Bool := filters.all (fun f => !bare c f || f.fn (fun v => p.2 v.1))

/-- the items that they keep -/
def kept (c : Cols) (filters : List (DBFun Bool)) (its : List Item) : List Item := its.filter (keeps c filters)

/-- two triplets belong to the same block: same 'on' and 'across' values of A (same item A when there is no 'across') -/
def sameBlock (on : String) (across : List String) (t u : Item × Item × Item) : Bool :=
  t.1.2 on == u.1.2 on && (if across.isEmpty then t.1.1 == u.1.1 else across.all (fun col => t.1.2 col == u.1.2 col))

/-- two triplets belong to the same group: same block and same regressors of B and X -/
def sameGroup (c : Cols) (on : String) (across : List String) (regs : List (DBFun Nat)) (t u : Item × Item × Item) : Bool :=
  sameBlock on across t u && regs.all (fun f => !readsBX c f || regValue c f t == regValue c f u)

/-- the number of combinations of values of the regressors of B and X that are possible given the largest value of each -/
def combinations (c : Cols) (regs : List (DBFun Nat)) (blk : List (Item × Item × Item)) : Nat :=
  ((regs.filter (readsBX c)).map (fun f => (blk.map (regValue c f)).foldl max 0 + 1)).prod

/-- where runs of elements that are `same` as their predecessor start, and the end -/
def runBounds (same : α → α → Bool) (l : List α) : List Nat :=
  (List.range (l.length + 1)).filter (fun i => i == 0 || i == l.length ||
    match l[i - 1]?, l[i]? with
    | some x, some y => !same x y
    | _, _ => true)

end ABX.Spec
