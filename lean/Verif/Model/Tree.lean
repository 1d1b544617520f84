import Verif.Model.SideOps
/-!
Model of ABXpy/misc/tinytree.py: construction of a tree from a nested list (lines 49-103, 429-445), traversals (233-251), search
(253-285) and count (422-426); and of the use of the trees in side_operations_manager.py lines 20-73.

A node is its attributes (set by assignment, like `name`) and its children, in order.  Simplifications: the parent links are not
represented and a node object occurs at one place only (no sharing, no cycles); the attributes that every object has (`children`,
`count`, ...) are not visible to `hasattr`; what a raised exception leaves half built is not represented.
-/
namespace ABX.Tree

/-- `Tree`, lines 49-62 -/
inductive Tree where
  | node (attrs : List (String × Val)) (children : List Tree)

/-- the attributes of the node -/
def Tree.attrs : Tree → List (String × Val)
  | .node a _ => a

/-- `self.children` -/
def Tree.children : Tree → List Tree
  | .node _ cs => cs

mutual
/-- `preOrder`, lines 233-241: the node, then each child in order -/
def preOrder : Tree → List Tree
  | .node a cs => .node a cs :: preOrders cs
/-- the loop of lines 239-241 -/
def preOrders : List Tree → List Tree
  | [] => []
  | c :: cs => preOrder c ++ preOrders cs
end

mutual
/-- `postOrder`, lines 243-251 -/
def postOrder : Tree → List Tree
  | .node a cs => postOrders cs ++ [.node a cs]
/-- the loop of lines 248-250 -/
def postOrders : List Tree → List Tree
  | [] => []
  | c :: cs => postOrder c ++ postOrders cs
end

/-- `count`, lines 422-426 -/
def count (t : Tree) : Nat := (preOrder t).length

/-- `getattr`, if the node has the attribute -/
def getAttr (t : Tree) (k : String) : Option Val := (t.attrs.find? (fun p => p.1 == k)).map (·.2)

/-- the loop over the keyword arguments, lines 257-264: `true` if it ends without `break` -/
def kwLoop (t : Tree) : List (String × Val) → Bool
  | [] => true
  | (k, v) :: kw => match getAttr t k with
    | none => false                                          -- line 262
    | some w => if w = v then kwLoop t kw else false         -- lines 259-260

/-- `_find`, lines 253-270 -/
def find (func : List (Tree → Bool)) (kwargs : List (String × Val)) : List Tree → Option Tree
  | [] => none                                               -- line 270
  | i :: itr =>
    let kwpass := if kwargs.isEmpty then true else kwLoop i kwargs
    if kwpass && func.all (fun x => x i) then some i          -- lines 267-269
    else find func kwargs itr

/-- `findChild`, lines 272-285: the node itself is searched too -/
def findChild (t : Tree) (func : List (Tree → Bool)) (kwargs : List (String × Val)) : Option Tree :=
  find func kwargs (preOrder t)

/-- an element of the list given to `addChildrenFromList`: a tree or a list -/
inductive Nest where
  | tree (t : Tree)
  | seq (l : List Nest)

/-- `_isSequenceLike`, lines 38-46, of an element or `None`: only lists can be sliced -/
def isSeq : Option Nest → Bool
  | some (.seq _) => true
  | _ => false

/-- `Tree.children` after adding some children at the end -/
def Tree.append : Tree → List Tree → Tree
  | .node a cs, ds => .node a (cs ++ ds)

/-- the loop of lines 75-82 over the pairs `v` of successive elements; `rec` adds the children of a nested list.  The result is
the list of the children added. -/
def addLoop (rec : List Nest → Except Err (List Tree)) : Bool → List (Option Nest × Option Nest) → Except Err (List Tree)
  | _, [] => .ok []
  | true, _ :: v => addLoop rec false v                                        -- lines 76-78
  | false, (x, y) :: v => match x with
    | some (.tree t) => match y with
      | some (.seq l) => match rec l with                                      -- lines 80-82
        | .error e => .error e
        | .ok ds => match addLoop rec true v with
          | .error e => .error e
          | .ok r => .ok (t.append ds :: r)
      | _ => match addLoop rec false v with
        | .error e => .error e
        | .ok r => .ok (t :: r)
    | _ => .error .valueError                                                  -- lines 90-93

/-- the pairs of lines 71-74 -/
def pairs (children : List Nest) : List (Option Nest × Option Nest) :=
  (none :: children.map some).zip (children.map some ++ [none])

/-- `addChildrenFromList`, lines 64-82, with a bound on the depth of the recursion -/
def addFrom : Nat → List Nest → Except Err (List Tree)
  | 0, _ => .error .diverge
  | fuel + 1, children => addLoop (addFrom fuel) true (pairs children)

mutual
/-- nesting depth of an element -/
def Nest.depth : Nest → Nat
  | .tree _ => 0
  | .seq l => depths l + 1
/-- nesting depth of a list -/
def depths : List Nest → Nat
  | [] => 0
  | x :: xs => max x.depth (depths xs)
end

/-- `t.addChildrenFromList(children)` -/
def addChildrenFromList (t : Tree) (children : List Nest) : Except Err Tree :=
  match addFrom (depths children + 1) children with
  | .error e => .error e
  | .ok cs => .ok (t.append cs)

/-- the loop of `constructFromList`, lines 438-445; the first argument is `lst[i - 1]`, the last head is completed when a list
follows -/
def constructLoop : Option Nest → List Nest → List Tree → Except Err (List Tree)
  | _, [], heads => .ok heads
  | prev, .seq l :: rest, heads =>
    if prev.isNone || isSeq prev then .error .valueError                        -- lines 440-441
    else match heads.getLast? with
      | none => .error .valueError
      | some h => match addChildrenFromList h l with                            -- line 442
        | .error e => .error e
        | .ok h' => constructLoop (some (.seq l)) rest (heads.dropLast ++ [h'])
  | _, .tree t :: rest, heads => constructLoop (some (.tree t)) rest (heads ++ [t])   -- line 444

/-- `constructFromList`, lines 429-445 -/
def constructFromList (lst : List Nest) : Except Err (List Tree) := constructLoop none lst []

/-- the attribute `name` of a node, given by database.py line 79 -/
def nameOf (t : Tree) : Option String :=
  match getAttr t "name" with
  | some (.str s) => some s
  | _ => none

/-- lines 37-42 (and 47-53, 59-65) of side_operations_manager.py: the first tree that has a node of that name gives the node -/
def rootOf (forest : List Tree) (col : String) : Option Tree :=
  (forest.map (fun t => findChild t [fun x => nameOf x == some col] [])).findSome? id

/-- names of the nodes below a node, line 43 -/
def namesBelow (t : Tree) : List String := (preOrder t).filterMap nameOf

/-- side_operations_manager.py lines 35-67: the columns determined by on / across / by, as lists; `NameError` (UnboundLocalError)
when the 'on' column is not in the hierarchy; columns of across and by that are not in the hierarchy are ignored -/
def hierCols (forest : List Tree) (on : String) (across by_ : List String) : Except Err SideOps.Cols :=
  match rootOf forest on with
  | none => .error .nameError
  | some r => .ok ⟨namesBelow r, (across.filterMap (rootOf forest)).flatMap namesBelow, (by_.filterMap (rootOf forest)).flatMap namesBelow⟩

end ABX.Tree
