import Verif.Model.SideOps
/-!
Model of ABXpy/dbfun/dbfun_compute.py (`DBfun_Compute`): what is accepted as a script (`__init__` 23-37, `parse` 40-124, `process_with` 128-166), which columns are its inputs (`nameVisitor` 200-206),
how it is evaluated (`evaluate` 175-195), and of `result_generator`, sideop/side_operations_manager.py 429-432.

Python values are of any type `V`.  An expression is a literal, a name, an operation of two expressions (operators and calls of functions, as functions of the values that can fail) or an expression evaluated
in a scope of its own for the elements of another one: `[body for x in iter]`.  The last stands for the constructions that have their own scope: generator expressions, lambda, `def`, and, before python 3.12,
comprehensions.  Operations do not change the values in place.  A statement is an import of a name, an assignment of a name, an expression, or a `with`; `with` only appears at the top of a script.
`exec` and `eval` with two namespaces (lines 180, 194, 195): at the top of the script a name is looked for in the local namespace, then in the global one, which is empty, then among the builtins; in a nested scope,
in the enclosing nested scopes, then in the global namespace, then among the builtins.
Not represented: reading of python text (a parameter), other statements, auxiliary files (lines 141-165, 99-110, 182-189: they need a `with`, which fails in python 3).
-/
namespace ABX.Script
open ExtSort

/-- expressions -/
inductive Expr (V : Type) where
  | lit (v : V)
  | name (x : String)
  | op (f : V → V → Except Err V) (a b : Expr V)
  | nested (x : String) (iter body : Expr V)

/-- statements -/
inductive Stmt (V : Type) where
  /-- `import ... as x` with the value that it gives -/
  | imp (x : String) (v : Except Err V)
  | assign (x : String) (e : Expr V)
  | expr (e : Expr V)
  | with_

/-- a namespace: the first binding of a name is the current one -/
abbrev Ns (V : Type) := List (String × V)

/-- what is assumed of python: builtins, iteration over a value, building of a list -/
structure Python (V : Type) where
  builtins : String → Option V
  elems : V → Except Err (List V)
  pack : List V → V

/-- the value of a name: in a namespace, then among the builtins -/
def lookup {V : Type} (P : Python V) (ns : Ns V) (x : String) : Except Err V :=
  match ns.lookup x with
  | some v => .ok v
  | none => match P.builtins x with
    | some v => .ok v
    | none => .error .nameError

/-- `eval` of an expression: `top` tells if it is at the top of the script, where names are those of the local namespace -/
def eval {V : Type} (P : Python V) : (top : Bool) → Ns V → Expr V → Except Err V
  | _, _, .lit v => .ok v
  | _, ns, .name x => lookup P ns x
  | top, ns, .op f a b => match eval P top ns a with
    | .error e => .error e
    | .ok va => match eval P top ns b with
      | .error e => .error e
      | .ok vb => f va vb
  | top, ns, .nested x iter body => match eval P top ns iter with
    | .error e => .error e
    | .ok v => match P.elems v with
      | .error e => .error e
      | .ok vs => match sequence (vs.map (fun u => eval P false ((x, u) :: (if top then [] else ns)) body)) with
        | .error e => .error e
        | .ok us => .ok (P.pack us)

/-- `exec` of statements at the top: the namespace that they leave -/
def exec {V : Type} (P : Python V) : Ns V → List (Stmt V) → Except Err (Ns V)
  | ns, [] => .ok ns
  | ns, .imp x v :: rest => match v with
    | .error e => .error e
    | .ok v => exec P ((x, v) :: ns) rest
  | ns, .assign x e :: rest => match eval P true ns e with
    | .error e => .error e
    | .ok v => exec P ((x, v) :: ns) rest
  | ns, .expr e :: rest => match eval P true ns e with
    | .error e => .error e
    | .ok _ => exec P ns rest
  | ns, .with_ :: rest => exec P ns rest

/-- is it an import, lines 48-51 -/
def Stmt.isImport {V : Type} : Stmt V → Bool
  | .imp _ _ => true
  | _ => false

/-- is it a `with` -/
def Stmt.isWith {V : Type} : Stmt V → Bool
  | .with_ => true
  | _ => false

/-- names visited in an expression, lines 200-206 -/
def Expr.names {V : Type} : Expr V → List String
  | .lit _ => []
  | .name x => [x]
  | .op _ a b => a.names ++ b.names
  | .nested x iter body => iter.names ++ x :: body.names

/-- names visited in a statement -/
def Stmt.names {V : Type} : Stmt V → List String
  | .imp _ _ => []
  | .assign x e => x :: e.names
  | .expr e => e.names
  | .with_ => []

/-- the attributes of a `DBfun_Compute`: imports, code, final expression, inputs -/
structure Fun (V : Type) where
  imports : List (Stmt V)
  main : List (Stmt V)
  final : Expr V
  inputs : List String

/-- `process_with`, lines 128-136: in python 3 a `with` statement has no attribute `context_expr` -/
def processWith {V : Type} (rest : List (Stmt V)) : Except Err Unit :=
  if rest.any Stmt.isWith then .error .attributeError else .ok ()

/-- `parse`, lines 40-124 -/
def parse {V : Type} (columns : List String) (body : List (Stmt V)) : Except Err (Fun V) :=
  let imports := body.filter Stmt.isImport
  let rest := body.filter (fun s => !s.isImport)
  match processWith rest with                                                     -- line 64
  | .error e => .error e
  | .ok () => match rest.getLast? with
    | none => .error .indexError                                                  -- line 66
    | some (.expr e) =>
      .ok ⟨imports, rest.dropLast, e, (rest.flatMap Stmt.names).dedup.filter (fun x => columns.contains x)⟩      -- lines 78-91, 116-117
    | some _ => .error .valueError                                                -- lines 67-70

/-- `__init__`, lines 23-37: a definition that ends in `.py` is the name of a file; `read` reads a file, `ast` is `ast.parse` -/
def construct {V : Type} (read : String → Except Err String) (ast : String → Except Err (List (Stmt V))) (columns : List String) (definition : List Char) : Except Err (Fun V) :=
  let script := if definition.length ≥ 3 ∧ definition.drop (definition.length - 3) = ".py".toList then read (String.ofList definition) else .ok (String.ofList definition)
  match script with
  | .error e => .error e
  | .ok s => match ast s with
    | .error e => .error e
    | .ok body => parse columns body

/-- `evaluate`, lines 175-195: the value and the namespace that is left -/
def evaluate {V : Type} (P : Python V) (f : Fun V) (ctx : Ns V) : Except Err (V × Ns V) :=
  match exec P ctx f.imports with                                                 -- line 180
  | .error e => .error e
  | .ok ns => match exec P ns f.main with                                         -- line 194
    | .error e => .error e
    | .ok ns => match eval P true ns f.final with                                 -- line 195
      | .error e => .error e
      | .ok v => .ok (v, ns)

/-- `result_generator`, side_operations_manager.py 429-432: each function gets a copy of the context -/
def resultGenerator {V : Type} (P : Python V) (ctx : Ns V) : List (Fun V) → Except Err (List V)
  | [] => .ok []
  | f :: fs => match evaluate P f ctx with
    | .error e => .error e
    | .ok (v, _) => match resultGenerator P ctx fs with
      | .error e => .error e
      | .ok vs => .ok (v :: vs)

/-- `[context[var][e] for e in still_up]` for every variable of a context, filter_manager.py 107-109, when the values are lists -/
def restrict {V : Type} (P : Python V) (ps : List Nat) (ctx : Ns V) : Except Err (Ns V) :=
  sequence (ctx.map (fun b => match P.elems b.2 with
    | .error e => .error e
    | .ok vs => match gather vs ps with
      | .error e => .error e
      | .ok us => .ok (b.1, P.pack us)))

end ABX.Script
