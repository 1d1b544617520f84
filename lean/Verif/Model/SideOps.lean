import Verif.Model.ExtSort
import Mathlib.Data.List.Dedup
/-!
Model of ABXpy/sideop/side_operations_manager.py and of the filtering part of
ABXpy/sideop/filter_manager.py.

Column values are integers or strings.  A row is a function from column names to values.
A side operation (`DBFun`) is a list of extended column names and a pointwise function of their
values, as computed by a script (`DBfun_Compute`, ABXpy/dbfun/dbfun_compute.py lines 24-198) that maps
lists of equal length to a list; scripts that are not pointwise are not modelled.  Extended names
are pairs (radical, extension): the code concatenates the two, which is injective because columns cannot
contain underscores (task.py lines 275-277).
-/
namespace ABX

/-- values of the item file columns -/
inductive Val where
  | int (n : Int)
  | str (s : String)
  deriving DecidableEq, Repr

/-- a row of the item table -/
abbrev Row := String → Val

namespace SideOps

/-- the extensions of column names, side_operations_manager.py line 24 -/
inductive Ext where
  | none | A | B | X | AB | AX | one | two
  deriving DecidableEq, Repr

/-- an extended column name: (radical, extension) -/
abbrev Var := String × Ext

/-- a side operation: its inputs, a pointwise function, which only depends on its inputs -/
structure DBFun (β : Type) where
  inputs : List Var
  fn : (Var → Val) → β
  ext : ∀ e e', (∀ v ∈ inputs, e v = e' v) → fn e = fn e'

/-- the points of the computation at which a side operation can be evaluated -/
inductive Stage where
  | by | generic | onAcrossBy | A | B | X | ABX
  deriving DecidableEq, Repr

/-- the columns determined by on / across / by (lines 37-67: the descendants in the hierarchy) -/
structure Cols where
  on : List String
  across : List String
  by_ : List String

/-- what `add` records about one accepted operation: the stage at which it is appended and the variables
added to the contexts of that stage -/
structure Placed (β : Type) where
  op : DBFun β
  stage : Stage
  byVars : List Var := []
  genericVars : List Var := []
  onVars : List Var := []
  acrossVars : List Var := []
  aVars : List Var := []
  bVars : List Var := []
  xVars : List Var := []

/-- `check_extensions`, lines 148-174 (`C3` compares with `'AB'`, without underscore, and never holds) -/
def checkExtensions (c : Cols) (els : List Var) : Except Err Unit :=
  if els.any (fun v => (v.2 == .one || v.2 == .two) && !(c.on.contains v.1 || c.across.contains v.1)) then .error .valueError
  else if els.any (fun v => v.2 == .AX && !c.across.contains v.1) then .error .valueError
  else .ok ()

/-- `condition` of `classify_on_across_by`, lines 212-216 (the last test compares with `'A'`, `'B'` without
underscore and never excludes anything) -/
def condition (c : Cols) (v : Var) : Bool :=
  !(v.2 == .one || v.2 == .AX || v.2 == .AB) && !((v.2 == .A || v.2 == .X) && c.on.contains v.1)

/-- `get_ext`, lines 252-253 -/
def getExt (c : Cols) (v : Var) : Ext :=
  if v.2 = .two then (if c.on.contains v.1 then .B else .X) else v.2

/-- `add` (lines 288-302) with `classify_by` (176-191), `classify_generic` of the subclass,
`classify_on_across_by` (201-234) and `classify_ABX` (239-285).
`generic`: whether operations without extensions are accepted as 'generic' (FilterManager,
filter_manager.py lines 42-50) or refused (RegressorManager, regressor_manager.py lines 49-69). -/
def place (generic : Bool) (c : Cols) (f : DBFun β) : Except Err (Placed β) :=
  match checkExtensions c f.inputs with
  | .error e => .error e
  | .ok _ =>
    let byV := f.inputs.filter (fun v => c.by_.contains v.1)                      -- line 181
    if f.inputs.all (fun v => c.by_.contains v.1) then                            -- line 184
      .ok { op := f, stage := .by, byVars := byV }
    else
      let els := f.inputs.filter (fun v => !c.by_.contains v.1)                   -- line 190
      if els.all (fun v => v.2 == .none) then                                     -- classify_generic
        if generic then .ok { op := f, stage := .generic, genericVars := els }     -- the 'by' variables are not recorded
        else .error .valueError
      else if els.any (fun v => v.2 == .none) then .error .valueError             -- lines 205-208
      else
        let onV := els.filter (fun v => !condition c v && c.on.contains v.1)       -- lines 219-220
        let acV := els.filter (fun v => !condition c v && c.across.contains v.1)   -- lines 221-223
        let els := els.filter (condition c)                                        -- line 225
        if els.isEmpty then
          .ok { op := f, stage := .onAcrossBy, byVars := byV, onVars := onV, acrossVars := acV }
        else
          let aV := els.filter (fun v => getExt c v == .A)
          let bV := els.filter (fun v => getExt c v == .B)
          let xV := els.filter (fun v => getExt c v == .X)
          let stage : Stage :=                                                     -- lines 262-282
            if els.all (fun v => getExt c v == .A) then .A
            else if els.all (fun v => getExt c v == .B) then .B
            else if els.all (fun v => getExt c v == .X) then .X
            else .ABX
          .ok { op := f, stage, byVars := byV, onVars := onV, acrossVars := acV, aVars := aV, bVars := bV, xVars := xV }

/-- a manager: the accepted operations, in order of addition -/
abbrev Mgr (β : Type) := List (Placed β)

/-- constructor: all operations are added in turn (filter_manager.py lines 27-40) -/
def mgr (generic : Bool) (c : Cols) (fs : List (DBFun β)) : Except Err (Mgr β) :=
  ExtSort.sequence (fs.map (place generic c))

/-- the operations attributed to a stage -/
def Mgr.at (m : Mgr β) (s : Stage) : List (Placed β) := m.filter (fun p => p.stage == s)
def Mgr.ops (m : Mgr β) (s : Stage) : List (DBFun β) := (m.at s).map Placed.op

/-- `self.by_context[stage]` etc.: union over the operations of the stage -/
def Mgr.byCtx (m : Mgr β) (s : Stage) : List Var := (m.at s).flatMap Placed.byVars
def Mgr.genericCtx (m : Mgr β) (s : Stage) : List Var := (m.at s).flatMap Placed.genericVars
def Mgr.onCtx (m : Mgr β) (s : Stage) : List Var := (m.at s).flatMap Placed.onVars
def Mgr.acrossCtx (m : Mgr β) (s : Stage) : List Var := (m.at s).flatMap Placed.acrossVars
def Mgr.aCtx (m : Mgr β) (s : Stage) : List Var := (m.at s).flatMap Placed.aVars
def Mgr.bCtx (m : Mgr β) (s : Stage) : List Var := (m.at s).flatMap Placed.bVars
def Mgr.xCtx (m : Mgr β) (s : Stage) : List Var := (m.at s).flatMap Placed.xVars

/-- a context: python dict from variables to lists of values; the first binding of the list is the current one -/
abbrev Ctx := List (Var × List Val)

def Ctx.get (ctx : Ctx) (v : Var) : Option (List Val) := (ctx.find? (fun p => p.1 == v)).map (·.2)

/-- values of the variables at position `i` (default irrelevant: only used for bound variables, in range) -/
def Ctx.env (ctx : Ctx) (i : Nat) : Var → Val := fun v =>
  match ctx.get v with
  | some l => (l[i]?).getD (.int 0)
  | none => .int 0

/-- number of positions a pointwise script sees: that of the shortest of its inputs (`zip`), 1 for a script
without inputs -/
def lenOf (ctx : Ctx) : List Var → Except Err Nat
  | [] => .ok 1
  | [v] => match ctx.get v with
    | none => .error .nameError
    | some l => .ok l.length
  | v :: vs => match ctx.get v with
    | none => .error .nameError
    | some l => match lenOf ctx vs with
      | .error e => .error e
      | .ok n => .ok (min l.length n)

/-- `db_fun.evaluate(context)` for a pointwise script -/
def evaluate (f : DBFun β) (ctx : Ctx) : Except Err (List β) :=
  match lenOf ctx f.inputs with
  | .error e => .error e
  | .ok n => .ok ((List.range n).map (fun i => f.fn (ctx.env i)))

/-- `np.where(result)[0]` -/
def whereTrue (r : List Bool) : List Nat := (List.range r.length).filter (fun i => r[i]? == some true)

/-- `context[var] = [context[var][e] for e in still_up]`, filter_manager.py lines 107-109 -/
def Ctx.keep (still : List Nat) : Ctx → Except Err Ctx
  | [] => .ok []
  | (v, l) :: rest => match ExtSort.gather l still with
    | .error e => .error e
    | .ok l => match Ctx.keep still rest with
      | .error e => .error e
      | .ok rest => .ok ((v, l) :: rest)

/-- `vectorial_filter`, filter_manager.py lines 95-113 -/
def vectorialFilter : List (DBFun Bool) → Ctx → List Nat → Except Err (List Nat)
  | [], _, kept => .ok kept
  | f :: fs, ctx, kept =>
    match evaluate f ctx with
    | .error e => .error e
    | .ok r =>
      let still := whereTrue r                                   -- line 105
      match ExtSort.gather kept still with                        -- line 106
      | .error e => .error e
      | .ok kept => match Ctx.keep still ctx with                 -- lines 107-109
        | .error e => .error e
        | .ok ctx => if kept.isEmpty then .ok kept else vectorialFilter fs ctx kept   -- lines 111-112

/-- `singleton_filter` applied to a `singleton_result_generator`, filter_manager.py lines 86-92 -/
def singletonFilter (ctx : Ctx) : List (DBFun Bool) → Except Err Bool
  | [] => .ok true
  | f :: fs => match evaluate f ctx with
    | .error e => .error e
    | .ok r => match r[0]? with
      | none => .error .indexError
      | some true => singletonFilter ctx fs
      | some false => .ok false

/-- list of bindings of one context field to one repeated row value -/
def bindConst (vs : List Var) (row : Row) (n : Nat) : Ctx := vs.map (fun v => (v, List.replicate n (row v.1)))

/-- list of bindings of one context field to the column of a list of rows -/
def bindRows (vs : List Var) (rows : List Row) : Ctx := vs.map (fun v => (v, rows.map (fun r => r v.1)))

/-- `by_filter` (filter_manager.py 52-53, set_by_context 305-308, evaluate_by 350-354) -/
def Mgr.byFilter (m : Mgr Bool) (byRow : Row) : Except Err Bool :=
  singletonFilter (bindConst (m.byCtx .by) byRow 1) (m.ops .by)

/-- `on_across_by_filter` (filter_manager.py 58-59, evaluate_on_across_by 372-379); later bindings first -/
def Mgr.onAcrossByFilter (m : Mgr Bool) (row : Row) : Except Err Bool :=
  singletonFilter (bindConst (m.acrossCtx .onAcrossBy) row 1 ++ bindConst (m.onCtx .onAcrossBy) row 1 ++
    bindConst (m.byCtx .onAcrossBy) row 1) (m.ops .onAcrossBy)

/-- context of `evaluate_generic`, lines 358-368: positions of the surviving rows -/
def Mgr.genericFilter (m : Mgr Bool) (byRow : Row) (rows : List Row) : Except Err (List Nat) :=
  vectorialFilter (m.ops .generic)
    (bindRows (m.genericCtx .generic) rows ++ bindConst (m.byCtx .generic) byRow rows.length)
    (List.range rows.length)

/-- the constant part of the context of the A, B, X and ABX stages, lines 390-394, 418-422 -/
def Mgr.blockCtx (m : Mgr β) (s : Stage) (row : Row) (n : Nat) : Ctx :=
  bindConst (m.acrossCtx s) row n ++ bindConst (m.onCtx s) row n ++ bindConst (m.byCtx s) row n

/-- `A_filter` (evaluate_A_B_X 383-399): positions, among the given items, of those kept -/
def Mgr.aFilter (m : Mgr Bool) (row : Row) (rows : List Row) : Except Err (List Nat) :=
  vectorialFilter (m.ops .A) (bindRows (m.aCtx .A) rows ++ m.blockCtx .A row rows.length) (List.range rows.length)
def Mgr.bFilter (m : Mgr Bool) (row : Row) (rows : List Row) : Except Err (List Nat) :=
  vectorialFilter (m.ops .B) (bindRows (m.bCtx .B) rows ++ m.blockCtx .B row rows.length) (List.range rows.length)
def Mgr.xFilter (m : Mgr Bool) (row : Row) (rows : List Row) : Except Err (List Nat) :=
  vectorialFilter (m.ops .X) (bindRows (m.xCtx .X) rows ++ m.blockCtx .X row rows.length) (List.range rows.length)

/-- `ABX_filter` (evaluate_ABX 410-426, set_ABX_context 334-346) -/
def Mgr.abxFilter (m : Mgr Bool) (row : Row) (rows : List (Row × Row × Row)) : Except Err (List Nat) :=
  vectorialFilter (m.ops .ABX)
    (bindRows (m.xCtx .ABX) (rows.map (·.2.2)) ++ bindRows (m.bCtx .ABX) (rows.map (·.2.1)) ++
      bindRows (m.aCtx .ABX) (rows.map (·.1)) ++ m.blockCtx .ABX row rows.length)
    (List.range rows.length)

end SideOps
end ABX

/-! ### columns used as filters and as regressors (ABXpy/dbfun/dbfun_column.py) -/
namespace ABX.SideOps

/-- python truth value of a column value -/
def truthy : Val → Bool
  | .int n => n != 0
  | .str s => s != ""

/-- `DBfun_Column.evaluate` with `indexed=False` (lines 33-39): a list holding the list of values; this is what
filters given by a column name use (filter_manager.py lines 30-31) -/
def columnEvaluate (values : List Val) : List (List Val) := [values]

/-- `np.where(result)[0]` for a two-dimensional result: the row numbers of the true entries, in row-major order -/
def whereTrue2 (r : List (List Val)) : List Nat :=
  r.zipIdx.flatMap (fun p => (p.1.filter truthy).map (fun _ => p.2))

/-- `vectorial_filter` (filter_manager.py lines 95-113) with a single column filter -/
def columnVectorialFilter (values : List Val) (kept : List Nat) : Except Err (List Nat) :=
  ExtSort.gather kept (whereTrue2 (columnEvaluate values))

/-- `singleton_filter` (lines 86-92) with a single column filter: the result is `evaluate(...)[0]`, the list of the
values, and a non-empty list is true -/
def columnSingletonFilter (value : Val) : Except Err Bool :=
  match (columnEvaluate [value])[0]? with
  | none => .error .indexError
  | some l => .ok (!l.isEmpty)

/-- `DBfun_Column.__init__` with `indexed=True` (lines 13-22): the sorted set of the values; `sorted_` is the
sort (any function returning a permutation of its argument) -/
def columnIndex (sorted_ : List Val → List Val) (col : List Val) : List Val := sorted_ col.dedup

/-- `self.index.index(e)` (lines 33-37) -/
def indexOf (index : List Val) (e : Val) : Except Err Nat :=
  match index.findIdx? (· == e) with
  | none => .error .valueError
  | some i => .ok i

/-- `DBfun_Column.evaluate` with `indexed=True` (lines 33-37) on a non-empty index -/
def columnIndexedEvaluate (index : List Val) (values : List Val) : Except Err (List Nat) :=
  ExtSort.sequence (values.map (indexOf index))

end ABX.SideOps
