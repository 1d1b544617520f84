import Verif.Model.Script
/-!
Model of ABXpy/dbfun/lookuptable_connector.py (`LookupTableConnector`), which prepares the calls of functions of auxiliary files in a script, and of its use in dbfun_compute.py lines 99-110.

A syntax tree is made of names, attributes, calls, subscripts and other nodes.  The class `LookupTableConnector` has the methods that the file defines, its base classes those of the module `ast`: a call of a method
is looked for in the list of classes (`mro`), and `super(C, self).m` in what follows `C` in that list.  In python 3.5 and later a call has no attributes `kwargs` and `starargs`; `py2` tells if they exist (then `star`
tells if they are used).  Not represented: the text of the messages; the contexts of the nodes (a name that is called is always loaded).  What follows the first statement of `generic_visit` (lines 125-128) and the
functions that come after a visit of the children (`check_flatness`, `bundle_call_info`) are never reached (`C87_violated`): they are a parameter `after`.
-/
namespace ABX.Connector

/-- syntax trees -/
inductive Node where
  | name (id : String)
  | attr (value : Node) (attr : String)
  | call (func : Node) (args : List Node) (keywords : Bool) (star : Bool)
  | subscript (value slice : Node)
  | strings (l : List String)        -- a tuple of strings
  | other (children : List Node)

/-- the classes of a connector object in the order of lookup, with the methods that matter here -/
def mro : List (String × List String) :=
  [("LookupTableConnector", ["check_Call", "check_Subscript", "check_flatness", "bundle_call_info", "visit_Subscript", "visit_Call", "generic_visit"]),
   ("NodeTransformer", ["generic_visit"]),
   ("NodeVisitor", ["visit", "generic_visit"]),
   ("object", [])]

/-- `super(cls, self).method`: the class where it is found -/
def superLookup (classes : List (String × List String)) (cls method : String) : Except Err String :=
  match ((classes.dropWhile (fun c => c.1 != cls)).drop 1).find? (fun c => c.2.contains method) with
  | some c => .ok c.1
  | none => .error .attributeError

/-- `generic_visit`, lines 120-128; `after` is what the method found, and the rest of the function, would do -/
def genericVisit (after : String → Node → Except Err Node) (n : Node) : Except Err Node :=
  match superLookup mro "NodeVisitor" "generic_visit" with                     -- line 122
  | .error e => .error e
  | .ok c => after c n

/-- `node.func.id`: only names have it -/
def funcId : Node → Except Err String
  | .name x => .ok x
  | _ => .error .attributeError

/-- `check_Call`, lines 27-32 -/
def checkCall (py2 keywords star : Bool) : Except Err Unit :=
  if keywords then .error .valueError                  -- line 28: `not(node.keywords)`
  else if !py2 then .error .attributeError             -- line 29: `node.kwargs`
  else if star then .error .valueError
  else .ok ()

/-- `visit_Call`, lines 105-118 -/
def visitCall (py2 : Bool) (aliases : List String) (after : String → Node → Except Err Node) (func : Node) (args : List Node) (keywords star : Bool) : Except Err Node :=
  match funcId func with                                                         -- line 107
  | .error e => .error e
  | .ok x =>
    if aliases.contains x then
      match checkCall py2 keywords star with                                     -- line 113
      | .error e => .error e
      | .ok _ => genericVisit after (.call func args keywords star)              -- line 116
    else genericVisit after (.call func args keywords star)                      -- line 109

/-- `visit_Subscript`, lines 76-102 -/
def visitSubscript (py2 : Bool) (aliases : List String) (after : String → Node → Except Err Node) (value slice : Node) : Except Err Node :=
  match value with
  | .attr (.call func args keywords star) "out" => match funcId func with    -- lines 79-83
    | .error e => .error e
    | .ok x =>
      if aliases.contains x then
        match checkCall py2 keywords star with                                   -- line 90
        | .error e => .error e
        | .ok _ => match slice with                                              -- line 91: `check_Subscript`, lines 34-49
          | .strings _ => genericVisit after (.call func args keywords star)       -- line 95
          | _ => .error .valueError
      else genericVisit after (.subscript value slice)                           -- line 86
  | _ => genericVisit after (.subscript value slice)

/-- `visit`: dispatch on the class of the node -/
def visit (py2 : Bool) (aliases : List String) (after : String → Node → Except Err Node) : Node → Except Err Node
  | .call f as k s => visitCall py2 aliases after f as k s
  | .subscript v s => visitSubscript py2 aliases after v s
  | n => genericVisit after n

/-- the constructor, lines 21-25: `script`, `aux_functions` and `aliases` are needed -/
def construct (positional : Nat) : Except Err Unit := if positional < 3 then .error .typeError else .ok ()

/-- dbfun_compute.py lines 99-103: the connector is made, with two arguments, when there are auxiliary functions; then the code is visited -/
def connect (py2 : Bool) (aux aliases : List String) (after : String → Node → Except Err Node) (main : Node) : Except Err Node :=
  if aux.isEmpty then .ok main
  else match construct 2 with
    | .error e => .error e
    | .ok _ => visit py2 aliases after main

end ABX.Connector
