import Verif.Model.SideOps
/-!
Model of ABXpy/misc/tinytree.py as objects with links in both directions: editing (lines 55-173), navigation (175-241, 253-384) and inherited attributes (360-406).
(`Model/Tree.lean` has the trees as values, and what database.py and side_operations_manager.py do with them.)

Objects are numbers; `children` and `parent` are the attributes of lines 59-62, `attr` the other attributes of the instances.  An operation gives the links after it, or the exception it raises (what an
operation that raises leaves half done is not represented).  Loops that follow links have a bound on the number of steps (`diverge` stands for a loop that does not end).
Not represented: `dump` (it calls `unicode`, which python 3 does not have), attributes that every object has (`hasattr(i, 'count')`).
-/
namespace ABX.TreeHeap
open ExtSort (sequence)

/-- the links -/
structure Heap where
  children : Nat → List Nat
  parent : Nat → Option Nat

/-- replacement of a value of a function -/
def upd {β : Type} (f : Nat → β) (k : Nat) (x : β) : Nat → β := fun i => if i = k then x else f i

/-- `register`, lines 97-103 -/
def register (h : Heap) (n p : Nat) : Heap := { h with parent := upd h.parent n (some p) }

/-- `p.addChild(n)`, lines 84-95 -/
def addChild (h : Heap) (p n : Nat) : Heap := register { h with children := upd h.children p (h.children p ++ [n]) } n p

/-- `index`, lines 105-114 -/
def index (h : Heap) (n : Nat) : Except Err Nat :=
  match h.parent n with
  | none => .error .valueError
  | some p => if n ∈ h.children p then .ok ((h.children p).idxOf n) else .error .valueError

/-- `remove`, lines 116-124 -/
def remove (h : Heap) (n : Nat) : Except Err (Heap × Nat) :=
  match index h n with
  | .error e => .error e
  | .ok idx => match h.parent n with
    | none => .error .attributeError
    | some p => .ok (⟨upd h.children p ((h.children p).take idx ++ (h.children p).drop (idx + 1)), upd h.parent n none⟩, idx)

/-- the loop of lines 132-133 -/
def removeAll (h : Heap) : List Nat → Except Err Heap
  | [] => .ok h
  | i :: is => match remove h i with
    | .error e => .error e
    | .ok (h, _) => removeAll h is

/-- `clear`, lines 126-134 -/
def clear (h : Heap) (n : Nat) : Except Err Heap := removeAll h (h.children n)

/-- the loop of lines 147-148 -/
def registerAll (h : Heap) (p : Nat) : List Nat → Heap
  | [] => h
  | i :: is => registerAll (register h i p) p is

/-- `replace`, lines 136-148 -/
def replace (h : Heap) (n : Nat) (nodes : List Nat) : Except Err Heap :=
  match remove h n with
  | .error e => .error e
  | .ok (h', idx) => match h.parent n with                         -- line 144: before the removal
    | none => .error .attributeError
    | some p => .ok (registerAll { h' with children := upd h'.children p ((h'.children p).take idx ++ nodes ++ (h'.children p).drop idx) } p nodes)

/-- the loop of lines 157-159 -/
def moveAll (h : Heap) (node : Nat) : List Nat → Except Err Heap
  | [] => .ok h
  | i :: is => match remove h i with
    | .error e => .error e
    | .ok (h, _) => moveAll (addChild h node i) node is

/-- `n.inject(node)`, lines 150-162 -/
def inject (h : Heap) (n node : Nat) : Except Err Heap :=
  match moveAll h node (h.children n) with
  | .error e => .error e
  | .ok h => match clear h n with
    | .error e => .error e
    | .ok h => .ok (addChild h n node)

/-- `n.reparent(node)`, lines 164-173 -/
def reparent (h : Heap) (n node : Nat) : Except Err Heap :=
  match replace h n [node] with
  | .error e => .error e
  | .ok h => .ok (addChild h node n)

/-- an element of a nested list -/
inductive Nest where
  | obj (n : Nat)
  | seq (l : List Nest)

/-- the loop of `addChildrenFromList`, lines 70-82: an object is added; a list that follows an object is added to that object; a list that does not is refused by `addChild` (lines 90-93).
(`prev` is the object before, when a list may follow.) -/
def addFrom (h : Heap) (p : Nat) : (prev : Option Nat) → List Nest → Except Err Heap
  | _, [] => .ok h
  | _, .obj n :: l => addFrom (addChild h p n) p (some n) l
  | none, .seq _ :: _ => .error .valueError
  | some q, .seq m :: l => match addFrom h q none m with
    | .error e => .error e
    | .ok h => addFrom h p none l
termination_by _ l => sizeOf l

/-- `pathToRoot`, lines 203-214 -/
def pathToRoot (h : Heap) : (fuel : Nat) → (n : Nat) → Except Err (List Nat)
  | 0, _ => .error .diverge
  | fuel + 1, n => match h.parent n with
    | none => .ok [n]
    | some p => match pathToRoot h fuel p with
      | .error e => .error e
      | .ok l => .ok (n :: l)

/-- `pathFromRoot`, lines 216-223 -/
def pathFromRoot (h : Heap) (fuel n : Nat) : Except Err (List Nat) :=
  match pathToRoot h fuel n with
  | .error e => .error e
  | .ok l => .ok l.reverse

/-- `getRoot`, lines 225-231: the last of the loop -/
def getRoot (h : Heap) (fuel n : Nat) : Except Err Nat :=
  match pathToRoot h fuel n with
  | .error e => .error e
  | .ok l => match l.getLast? with
    | none => .error .nameError
    | some r => .ok r

/-- `getDepth`, lines 353-358 -/
def getDepth (h : Heap) (fuel n : Nat) : Except Err Nat :=
  match pathToRoot h fuel n with
  | .error e => .error e
  | .ok l => .ok l.length

/-- `n.isDescendantOf(node)`, lines 175-182 -/
def isDescendantOf (h : Heap) (fuel n node : Nat) : Except Err Bool :=
  match pathToRoot h fuel node with
  | .error e => .error e
  | .ok l => .ok (l.contains n)

/-- `siblings`, lines 192-201 -/
def siblings (h : Heap) (n : Nat) : List Nat :=
  match h.parent n with
  | none => [n]
  | some p => h.children p

/-- `n.isSiblingOf(node)`, lines 184-190 -/
def isSiblingOf (h : Heap) (n node : Nat) : Bool := (siblings h node).contains n

/-- `preOrder`, lines 233-241 -/
def preOrder (h : Heap) : (fuel : Nat) → (n : Nat) → Except Err (List Nat)
  | 0, _ => .error .diverge
  | fuel + 1, n => match sequence ((h.children n).map (preOrder h fuel)) with
    | .error e => .error e
    | .ok ls => .ok (n :: ls.flatten)

/-- `_find`, lines 253-270, where `sel` tells if a node has the attributes and passes the functions (see C56) -/
def find (sel : Nat → Bool) (itr : List Nat) : Option Nat := itr.find? sel

/-- `findParent`, lines 287-303 -/
def findParent (h : Heap) (fuel n : Nat) (sel : Nat → Bool) : Except Err (Option Nat) :=
  match pathToRoot h fuel n with
  | .error e => .error e
  | .ok l => .ok (find sel (l.drop 1))

/-- what is left of an iterator after the loop of lines 318-320 -/
def after (n : Nat) : List Nat → List Nat
  | [] => []
  | i :: itr => if i = n then itr else after n itr

/-- `findForwards`, lines 305-321 -/
def findForwards (h : Heap) (fuel n : Nat) (sel : Nat → Bool) : Except Err (Option Nat) :=
  match getRoot h fuel n with
  | .error e => .error e
  | .ok r => match preOrder h fuel r with
    | .error e => .error e
    | .ok l => .ok (find sel (after n l))

/-- `findBackwards`, lines 323-339 -/
def findBackwards (h : Heap) (fuel n : Nat) (sel : Nat → Bool) : Except Err (Option Nat) :=
  match getRoot h fuel n with
  | .error e => .error e
  | .ok r => match preOrder h fuel r with
    | .error e => .error e
    | .ok l => if n ∈ l.reverse then .ok (find sel (l.reverse.drop (l.reverse.idxOf n + 1))) else .error .valueError   -- line 338

/-- `getPrevious`, lines 341-345 -/
def getPrevious (h : Heap) (fuel n : Nat) : Except Err (Option Nat) := findBackwards h fuel n (fun _ => true)

/-- `getNext`, lines 347-351 -/
def getNext (h : Heap) (fuel n : Nat) : Except Err (Option Nat) := findForwards h fuel n (fun _ => true)

/-- `findAttr`, lines 360-371; `attr i` is the value of the attribute of the object `i`, if it has it -/
def findAttr (h : Heap) (fuel n : Nat) (attr : Nat → Option Val) (default : Val) : Except Err Val :=
  match pathToRoot h fuel n with
  | .error e => .error e
  | .ok l => .ok ((l.findSome? attr).getD default)

/-- `attrsToRoot`, lines 373-384; `truthy` tells the values that test true -/
def attrsToRoot (h : Heap) (fuel n : Nat) (attr : Nat → Option Val) (truthy : Val → Bool) : Except Err (List Val) :=
  match pathToRoot h fuel n with
  | .error e => .error e
  | .ok l => .ok ((l.filterMap attr).filter truthy)

/-- the getter of `treeProp`, lines 396-402 -/
def treeProp (h : Heap) (attr : Nat → Option Val) : (fuel : Nat) → (n : Nat) → Except Err Val
  | 0, _ => .error .diverge
  | fuel + 1, n => match attr n with
    | some v => .ok v
    | none => match h.parent n with
      | none => .error .valueError
      | some p => treeProp h attr fuel p

end ABX.TreeHeap
