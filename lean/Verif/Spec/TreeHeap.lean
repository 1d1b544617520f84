import Verif.Model.TreeHeap
import Mathlib.Logic.Relation
/-!
Specification for trees of linked objects.
-/
namespace ABX.TreeHeap.Spec

/-- `a` is `n` or above it -/
def Above (h : Heap) (n a : Nat) : Prop := Relation.ReflTransGen (fun x q => h.parent x = some q) n a

/-- the links make a forest: a child list has exactly the objects whose parent is its owner, once each, and the depth of the objects is bounded (no cycles) -/
structure Forest (h : Heap) : Prop where
  link : ∀ p n, n ∈ h.children p ↔ h.parent n = some p
  once : ∀ p, (h.children p).Nodup
  acyclic : ∃ (rank : Nat → Nat) (B : Nat), (∀ n p, h.parent n = some p → rank p < rank n) ∧ ∀ n p, h.parent n = some p → rank n < B


/-- the path from `n` to the root: it begins at `n`, every object is followed by its parent, the last has none -/
structure Path (h : Heap) (n : Nat) (l : List Nat) : Prop where
  first : l.head? = some n
  step : l.IsChain (fun x y => h.parent x = some y)
  last : ∃ r, l.getLast? = some r ∧ h.parent r = none

/-- `x` comes before `y` in a tree: `y` is below `x`, or they are below different children of an object, the one of `x` listed first -/
def Prec (h : Heap) (x y : Nat) : Prop :=
  (x ≠ y ∧ Above h y x) ∨ ∃ q c d, [c, d].Sublist (h.children q) ∧ Above h x c ∧ Above h y d

/-- `a` is the nearest object with a value: `n` or above it, and the others with a value are above it -/
def Nearest (h : Heap) (attr : Nat → Option Val) (n a : Nat) : Prop :=
  Above h n a ∧ (attr a).isSome ∧ ∀ b, Above h n b → (attr b).isSome → Above h a b

/-- a tree as a value -/
inductive Rose where
  | node (n : Nat) (kids : List Rose)

/-- its object -/
def Rose.root : Rose → Nat
  | .node n _ => n

/-- the objects of trees -/
def ids : List Rose → List Nat
  | [] => []
  | .node n ks :: rs => n :: (ids ks ++ ids rs)

/-- a nested list specifies trees: an object, or an object followed by the list of the trees of its children -/
inductive Encodes : List Nest → List Rose → Prop
  | nil : Encodes [] []
  | leaf {n l rs} : Encodes l rs → Encodes (.obj n :: l) (.node n [] :: rs)
  | inner {n m ks l rs} : Encodes m ks → Encodes l rs → Encodes (.obj n :: .seq m :: l) (.node n ks :: rs)

/-- the links below the objects are those of the trees -/
inductive Built (h : Heap) : List Rose → Prop
  | nil : Built h []
  | cons {n ks rs} : h.children n = ks.map Rose.root → Built h ks → Built h rs → Built h (.node n ks :: rs)

/-- no links -/
def Isolated (h : Heap) (n : Nat) : Prop := h.children n = [] ∧ h.parent n = none


/-- the links that the operations can make from objects without links, when an object that gets a parent has none and is not put below itself -/
inductive Reach : Heap → Prop
  | new : Reach ⟨fun _ => [], fun _ => none⟩
  | add {h p n} : Reach h → h.parent n = none → ¬ Above h p n → Reach (addChild h p n)
  | remove {h n h' i} : Reach h → TreeHeap.remove h n = .ok (h', i) → Reach h'
  | clear {h n h'} : Reach h → TreeHeap.clear h n = .ok h' → Reach h'
  | replace {h n p nodes h'} : Reach h → h.parent n = some p → nodes.Nodup → (∀ x ∈ nodes, x ≠ n → h.parent x = none) → (∀ x ∈ nodes, ¬ Above h p x) → TreeHeap.replace h n nodes = .ok h' → Reach h'
  | inject {h n node h'} : Reach h → h.parent node = none → ¬ Above h n node → TreeHeap.inject h n node = .ok h' → Reach h'
  | reparent {h n p node h'} : Reach h → h.parent n = some p → h.parent node = none → ¬ Above h p node → TreeHeap.reparent h n node = .ok h' → Reach h'

end ABX.TreeHeap.Spec
