import Verif.Model.H5IO
import Verif.Model.TaskGen
/-!
Model of the names and indexes of the regressors in the task file: ABXpy/sideop/regressor_manager.py 96-127, `output_specs` of ABXpy/dbfun/dbfun_column.py 24-29 and
ABXpy/dbfun/dbfun_compute.py 170-171, ABXpy/task.py 767-774, 834 and 1125-1158; and of what ABXpy/analyze.py reads (76-77, 103-112, 157-162).

The columns of the regressors of a block are those of `Task.BlkOut.regs` (Model/TaskGen.lean): one column per regressor, in the order of the fields by, on_across_by, A, B, X.
Simplifications: a regressor that is a script has one output (its values are naturals); regressors that are lookup tables are not represented (tables: C48, C49);
the path of the group (line 772) is a parameter, see Model/Names.lean.
-/
namespace ABX.RegInfo
open ExtSort Task SideOps

/-- the extension of a column name (side_operations_manager.py 23) -/
def suffix : Ext → String
  | .none => ""
  | .A => "_A"
  | .B => "_B"
  | .X => "_X"
  | .AB => "_AB"
  | .AX => "_AX"
  | .one => "_1"
  | .two => "_2"

/-- the name of an extended column -/
def extName (v : Var) : String := v.1 ++ suffix v.2

/-- a regressor: a column with its index (dbfun_column.py 14-22), or a script with its number of outputs and the names that it gives them (dbfun_compute.py) -/
inductive Kind where
  | column (name : String) (index : List Val)
  | script (outputs : Nat) (names : Option (List String))

/-- `output_specs`, dbfun_column.py 24-29 and dbfun_compute.py 170-171: number of outputs, names, indexes -/
def Kind.specs : Kind → Nat × Option (List String) × List (String × List Val)
  | .column name index => (1, some [name], if index = [] then [] else [(name, index)])
  | .script n names => (n, names, [])

/-- `fetch_regressor_info`, regressor_manager.py 116-127: names and indexes of the regressors of a field, and the next `reg_id` -/
def fetch : (regId : Nat) → List Kind → List (List String) × List (List (String × List Val)) × Nat
  | n, [] => ([], [], n)
  | n, k :: ks =>
    match k.specs.2.1 with
    | none =>
      let r := fetch (n + k.specs.1) ks
      ((List.range k.specs.1).map (fun i => "reg_" ++ toString (n + i)) :: r.1, k.specs.2.2 :: r.2.1, r.2.2)   -- lines 121-123
    | some names =>
      let r := fetch n ks
      (names :: r.1, k.specs.2.2 :: r.2.1, r.2.2)

/-- lines 99-105, the fields one after the other: their names and indexes -/
def fetchAll : (regId : Nat) → List (List Kind) → List (List (List String) × List (List (String × List Val)))
  | _, [] => []
  | n, f :: fs => ((fetch n f).1, (fetch n f).2.1) :: fetchAll (fetch n f).2.2 fs

/-- assignment in a dictionary -/
def setItem (d : List (String × β)) (k : String) (x : β) : List (String × β) := if k ∈ H5IO.keysOf d then H5IO.put d k x else d ++ [(k, x)]

/-- several assignments -/
def update (d : List (String × β)) (l : List (String × β)) : List (String × β) := l.foldl (fun d p => setItem d p.1 p.2) d

/-- `get_regressor_info`, regressor_manager.py 96-114 -/
def info (fields : List (List Kind)) : List String × List (String × List Val) :=
  let r := fetchAll 0 fields
  (r.flatMap (fun f => f.1.flatten), update [] (r.flatMap (fun f => f.2.flatten)))

/-- the names of the regressors, one list per regressor (`by_names`, ..., `X_names`) -/
def nameLists (fields : List (List Kind)) : List (List String) := (fetchAll 0 fields).flatMap (fun f => f.1)

/-- the dictionary made by `_compute_regressors`, task.py 1125-1158, from the columns of the regressors -/
def table (names : List (List String)) (cols : List (List Nat)) : List (String × List Nat) :=
  update [] ((names.zip (cols.map (fun c => [c]))).flatMap (fun p => p.1.zip p.2))

/-- the labels that `get_array` (h5io.py 361-364) accepts: numbers, and strings of ASCII characters -/
def asciiVal : Val → Bool
  | .int _ => true
  | .str s => H5IO.asciiName s

/-- an array of one column -/
def input (c : List Nat) : H5IO.Input Val := .numbers ⟨1, c.map (fun x => [x])⟩

/-- what is written for a level: task.py 767-774, and line 834 for every block; `blocks` are the columns of the regressors of the blocks -/
def writeLevel (ascii : Val → Bool) (fs : Option (H5IO.File Val)) (group : String) (fields : List (List Kind)) (blocks : List (List (List Nat))) : Except Err (H5IO.File Val) :=
  match H5IO.init ascii fs group (some (.names (info fields).1, (info fields).2, [])) with
  | (some f, .ok g) => H5IO.session f group g (blocks.map (fun cols => (true, (table (nameLists fields) cols).map (fun p => (p.1, input p.2)))))
  | (none, .ok _) => .error .ioError
  | (_, .error e) => .error e

/-- the loop over the levels, task.py 757-774 -/
def writeLevels (ascii : Val → Bool) (fields : List (List Kind)) : H5IO.File Val → List (String × List (List (List Nat))) → Except Err (H5IO.File Val)
  | f, [] => .ok f
  | f, (group, blocks) :: rest => match writeLevel ascii (some f) group fields blocks with
    | .error e => .error e
    | .ok f => writeLevels ascii fields f rest

/-- the fields of the manager, in the order of regressor_manager.py 100-106; `kind` tells what the operations are -/
def fieldsOf (kind : DBFun Nat → Kind) (m : Mgr Nat) : List (List Kind) :=
  [m.ops .by, m.ops .onAcrossBy, m.ops .A, m.ops .B, m.ops .X, m.ops .ABX].map (fun l => l.map kind)

/-- the regressors of the task file, task.py 757-774: `f0` is the file before the loop, `place` gives the group of a level -/
def regFile (kind : DBFun Nat → Kind) (place : List Val → String) (e : Env) (N : Num) (threshold : Nat) (src : List Val → List Val → Nat → Sampler.Src)
    (f0 : H5IO.File Val) (T : Task.Task ρ) : Except Err (H5IO.File Val) :=
  match sequence (T.levels.map (fun L => (levelOut e N threshold src T L).map (fun o => (L.key, o)))) with
  | .error e => .error e
  | .ok outs => writeLevels asciiVal (fieldsOf kind T.regressors) f0 (outs.map (fun p => (place p.1, p.2.map BlkOut.regs)))

/-! ### what is read -/

/-- analyze.py 157-162: the names of the columns of the results -/
def readNames (f : H5IO.File Val) (group : String) : Except Err (List String) :=
  match f.groups.lookup group with
  | none => .error .keyError
  | some g => .ok (H5IO.keysOf g.indexed)

/-- analyze.py 103-106: the indexes in the order of the names -/
def readIndexes (f : H5IO.File Val) (group : String) : Except Err (List (List Val)) :=
  match f.groups.lookup group with
  | none => .error .keyError
  | some g => sequence ((H5IO.keysOf g.indexed).map (fun name => H5IO.get g.indexes name))

/-- analyze.py 76-77 -/
def readRows (f : H5IO.File Val) (group : String) : Except Err (List (List Nat)) :=
  match f.data.lookup (group, "indexed_data") with
  | none => .error .keyError
  | some rows => .ok rows

/-- analyze.py 109-112: the label number `j` of a row is the element of the index number `j` at the position that the row has in column `j` -/
def labelsOfRow (indexes : List (List Val)) (row : List Nat) : Except Err (List Val) :=
  sequence (indexes.zipIdx.map (fun p => match row[p.2]? with
    | none => .error .indexError
    | some x => match p.1[x]? with
      | none => .error .indexError
      | some v => .ok v))

/-- the labels of the rows -/
def readLabels (f : H5IO.File Val) (group : String) : Except Err (List (List Val)) :=
  match readIndexes f group with
  | .error e => .error e
  | .ok ixs => match readRows f group with
    | .error e => .error e
    | .ok rows => sequence (rows.map (labelsOfRow ixs))

end ABX.RegInfo
