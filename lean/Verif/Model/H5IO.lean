import Verif.Model.NP2H5
import Verif.Model.Lookup
import Verif.Model.Task
/-!
Model of ABXpy/h5tools/h5io.py (class H5IO): tables of several datasets written together, some of them indexed, some of them fused in one column of keys.

A file is its groups made by H5IO and its datasets made by writers (np2h5.py).  Values of indexes are of a type `ν`; `ascii` tells the values that `np.array(·, dtype='S')` accepts
(`get_array`, lines 361-364: numbers, and strings of ASCII characters).  Raw data are numbers, stored exactly as int64.
Simplifications: group names are not parsed (no nesting), the names that H5IO itself uses in a group ('indexes', ...) are not among those of the datasets; a creation or a write that raises
leaves the file as the model says only for the flags of an existing group (otherwise what it leaves is not represented); data of the wrong kind (strings for a raw dataset or
with `indexed=True`, arrays with `indexed=False`) are one error; `sort`, `find` and `read` do nothing in the code (lines 335-342).
-/
namespace ABX.H5IO
open ExtSort NP2H5 Task
open Lookup (indexOf fusedType fusedLevels keyWeights keyOf cap m64)

variable {ν : Type} [DecidableEq ν]

/-- a two-dimensional array of numbers -/
structure Mat where
  cols : Nat
  rows : List (List Nat)
  deriving DecidableEq, Repr

/-- what is given for one dataset: a list of values, or an array (one of one dimension is reshaped, lines 235-237) -/
inductive Input (ν : Type) where
  | values (l : List ν)
  | numbers (m : Mat)
  deriving DecidableEq, Repr

/-- the number of columns, lines 245-246 -/
def Input.cols : Input ν → Nat
  | .values _ => 1
  | .numbers m => m.cols

/-- the argument `datasets`: names, or a dictionary from names to names of indexes or None -/
inductive Decl where
  | names (l : List String)
  | mapping (l : List (String × Option String))
  deriving DecidableEq, Repr

def Decl.managed : Decl → List String
  | .names l => l
  | .mapping l => l.map (·.1)

/-- what a group made by H5IO has -/
structure Group (ν : Type) where
  empty : Bool
  sorted : Bool
  managed : List String
  indexed : List (String × String)                   -- `indexed_datasets`, `indexed_datasets_indexes`
  indexes : List (String × List ν)
  fused : List (String × List String × List Nat)     -- members, `nb_levels`
  keyWeights : List (String × List Nat)              -- lines 295-297
  cumudims : Option (List Nat)                       -- lines 271-275
  deriving DecidableEq, Repr

/-- line 81 -/
def Group.raw (g : Group ν) : List String := (g.managed.filter (fun d => d ∉ g.indexed.map Prod.fst)).dedup

/-- lines 95-96 -/
def Group.nonFused (g : Group ν) : List String := (g.indexed.map Prod.fst).filter (fun d => d ∉ g.fused.flatMap (fun p => p.2.1))

structure File (ν : Type) where
  groups : List (String × Group ν)
  data : List ((String × String) × List (List Nat))   -- group and name, rows
  deriving DecidableEq, Repr

/-- the keys of a dictionary -/
def keysOf (l : List (κ × β)) : List κ := l.map Prod.fst

/-- a dictionary access -/
def get [DecidableEq κ] (l : List (κ × β)) (k : κ) : Except Err β :=
  match l.lookup k with
  | none => .error .keyError
  | some x => .ok x

/-- replacement of an entry -/
def put (l : List (String × β)) (k : String) (x : β) : List (String × β) := l.map (fun p => if p.1 = k then (k, x) else p)

/-- lines 48-53 -/
def checkFused (fused : List (String × List String)) (indexed : List (String × String)) : Except Err (List (String × String)) :=
  if ∀ d ∈ fused.flatMap Prod.snd, d ∈ keysOf indexed then .ok indexed else .error .valueError

/-- lines 31-53: the indexed datasets with their index -/
def checkDecl (d : Decl) (indexes : List (String × List ν)) (fused : List (String × List String)) : Except Err (List (String × String)) :=
  match d with
  | .mapping l =>
    let ix := l.filterMap (fun p => p.2.map (fun i => (p.1, i)))
    if (∀ i ∈ ix.map Prod.snd, i ∈ keysOf indexes) ∧ (∀ i ∈ keysOf indexes, i ∈ ix.map Prod.snd) then checkFused fused ix   -- lines 37-39
    else .error .valueError
  | .names l =>
    if ∀ i ∈ keysOf indexes, i ∈ l then checkFused fused (indexes.map (fun p => (p.1, p.1)))                             -- lines 44-46
    else .error .valueError

/-- `get_array`, lines 361-364 -/
def getArray (ascii : β → Bool) (l : List β) : Except Err Unit :=
  if l = [] then .error .indexError else if l.all ascii then .ok () else .error .valueError
  
/-- names must be ASCII -/
def asciiName (s : String) : Bool := s.toList.all (fun c => c.toNat < 128)

/-- lines 109-112 -/
def levelsOf (indexes : List (String × List ν)) (indexed : List (String × String)) (members : List String) : Except Err (List Nat) :=
  sequence (members.map (fun d => match get indexed d with
    | .error e => .error e
    | .ok i => match get indexes i with
      | .error e => .error e
      | .ok l => .ok l.length))

/-- lines 75-112: the content of a new group -/
def newGroup (ascii : ν → Bool) (managed : List String) (indexed : List (String × String)) (indexes : List (String × List ν)) (fused : List (String × List String)) : Except Err (Group ν) :=
  match getArray asciiName managed with                                                   -- lines 79-80
  | .error e => .error e
  | .ok () =>
    match sequence (if indexed = [] then [] else indexes.map (fun p => getArray ascii p.2)) with   -- lines 86-94
    | .error e => .error e
    | .ok _ =>
      match sequence (fused.map (fun p => match levelsOf indexes indexed p.2 with
        | .error e => .error e
        | .ok l => .ok (p.1, p.2, l))) with                                               -- lines 101-112
      | .error e => .error e
      | .ok fused => .ok ⟨true, false, managed, indexed, indexes, fused, [], none⟩

/-- `__load_metadata__`, lines 124-162: a fused dataset with stored weights is looked for under a wrong name (line 157) -/
def load (g : Group ν) : Except Err (Group ν) :=
  if g.keyWeights = [] then .ok g else .error .keyError

/-- `__init__`, lines 24-117.  `fs` is the file, if it exists; `decl` the arguments `datasets`, `indexes` and `fused`.  The error of line 59 (the file exists already) is caught
by line 66, so that the group is created in the existing file; if the group is there, its flags are reset (lines 75-76) before line 79 raises. -/
def init (ascii : ν → Bool) (fs : Option (File ν)) (group : String) (decl : Option (Decl × List (String × List ν) × List (String × List String))) :
    Option (File ν) × Except Err (Group ν) :=
  match decl with
  | none => match fs with
    | none => (fs, .error .ioError)                                                       -- lines 67-68
    | some f => match f.groups.lookup group with
      | none => (fs, .error .ioError)                                                     -- lines 63-68
      | some g => (fs, load g)
  | some (d, indexes, fused) => match checkDecl d indexes fused with
    | .error e => (fs, .error e)
    | .ok indexed =>
      let f := fs.getD ⟨[], []⟩
      match f.groups.lookup group with
      | some g => (some { f with groups := put f.groups group { g with empty := true, sorted := false } }, .error .runtimeError)
      | none => match newGroup ascii d.managed indexed indexes fused with
        | .error e => (some f, .error e)
        | .ok g => (some { f with groups := f.groups ++ [(group, g)] }, load g)

/-- what a writer stores: one raw dataset, the indexed datasets that are not fused side by side (lines 257-275), or the keys of a fused dataset -/
inductive Src where
  | raw (d : String)
  | indexed (ds : List String)
  | fused (members : List String) (weights : List Nat)
  deriving DecidableEq, Repr

/-- a writer to be added: its dataset, type and number of columns -/
structure OutDecl where
  path : String × String
  src : Src
  type : IntType
  cols : Nat
  deriving DecidableEq, Repr

/-- an entry of `self.out` -/
structure Out extends OutDecl where
  buf : Buf (List Nat)
  deriving DecidableEq, Repr

/-- the object, inside the `with` statement -/
structure Obj (ν : Type) where
  file : File ν
  group : String
  g : Group ν
  outs : List Out
  deriving DecidableEq, Repr

/-- the fill value of a dataset -/
def zeroRow (cols : Nat) : List Nat := List.replicate cols 0

/-- `NP2H5.add_dataset` with the arguments of lines 255, 269, 289: buffers of 100 kB, chunks of 10 kB (np2h5.py lines 81, 121, 149-151; h5py refuses chunks of 0 lines) -/
def addDataset (f : File ν) (outs : List Out) (d : OutDecl) : Except Err Out :=
  match nbLines (d.type.bits / 8) d.cols 100 with
  | .error e => .error e
  | .ok len =>
    let existing := if d.path ∈ outs.map (fun o => o.path) then some [] else f.data.lookup d.path
    match Buf.create (zeroRow d.cols) d.path.2 existing 0 len false false with
    | .error e => .error e
    | .ok b => match nbLines (d.type.bits / 8) d.cols 10 with
      | .error e => .error e
      | .ok n => if n = 0 then .error .valueError else .ok { d with buf := b }

/-- the writers are added one after the other; the first error ends it -/
def addAll (f : File ν) : (outs : List Out) → List (Except Err OutDecl) → Except Err (List Out)
  | outs, [] => .ok outs
  | _, .error e :: _ => .error e
  | outs, .ok d :: ds => match addDataset f outs d with
    | .error e => .error e
    | .ok o => addAll f (outs ++ [o]) ds

/-- `__parse_input_data__`, lines 219-228, for a dictionary -/
def parse (managed : List String) (data : List (String × β)) : Except Err (List (String × β)) :=
  if (∀ k ∈ keysOf data, k ∈ managed) ∧ (∀ k ∈ managed, k ∈ keysOf data) then .ok data else .error .valueError

/-- lines 220-224: data given as a list are matched with the datasets in order -/
def ofList (managed : List String) (data : List β) : List (String × β) := managed.zip data

/-- the columns of the datasets, lines 260 and 280 -/
def dimsOf (data : List (String × Input ν)) (ds : List String) : Except Err (List Nat) :=
  sequence (ds.map (fun d => match get data d with
    | .error e => .error e
    | .ok i => .ok i.cols))

/-- lines 248-249: `get_dtype` reads the first row (line 352); strings have no fixed type -/
def rawOk (data : List (String × Input ν)) (d : String) : Except Err Unit :=
  match get data d with
  | .error e => .error e
  | .ok (.values _) => .error .typeError
  | .ok (.numbers m) => if m.rows = [] then .error .indexError else .ok ()

/-- lines 251-256: a raw dataset goes to the root of the file, whatever the group -/
def rawDecl (data : List (String × Input ν)) (d : String) : Except Err OutDecl :=
  match dimsOf data [d] with
  | .ok [c] => .ok ⟨("/", d), .raw d, ⟨64, true⟩, c⟩
  | .ok _ => .error .keyError
  | .error e => .error e

/-- lines 260-270; line 261 looks for the index under the name of the dataset -/
def indexedDecl (group : String) (g : Group ν) (data : List (String × Input ν)) : Except Err OutDecl :=
  match dimsOf data g.nonFused with
  | .error e => .error e
  | .ok dims => match sequence (g.nonFused.map (get g.indexes)) with
    | .error e => .error e
    | .ok ixs => match fitIntegerType ((ixs.map List.length).foldl max 0 : Nat) false with
      | .error e => .error e
      | .ok t => .ok ⟨(group, "indexed_data"), .indexed g.nonFused, t, dims.sum⟩

/-- lines 278-294; `M` is `m64`, a parameter so that Lean does not compute with it -/
def fusedDecl (M : Nat) (group : String) (data : List (String × Input ν)) (p : String × List String × List Nat) : Except Err OutDecl :=
  match dimsOf data p.2.1 with
  | .error e => .error e
  | .ok dims => match fusedType M p.2.2 dims with
    | .error e => .error e
    | .ok t =>
      if p.2.1 = [] then .error .valueError                                    -- line 291: nothing to concatenate
      else .ok ⟨(group, p.1), .fused p.2.1 (keyWeights (cap t) (fusedLevels t p.2.2 dims)), t, 1⟩

/-- the weights to store, lines 295-297 -/
def weightsOf (outs : List Out) : List (String × List Nat) :=
  outs.filterMap (fun o => match o.src with
    | .fused _ w => some (o.path.2, w)
    | _ => none)

/-- `np.cumsum` -/
def cumsum : (acc : Nat) → List Nat → List Nat
  | _, [] => []
  | acc, n :: ns => (acc + n) :: cumsum (acc + n) ns

/-- `__initialize_datasets__`, lines 241-297 -/
def initDatasets (o : Obj ν) (data : List (String × Input ν)) : Except Err (Obj ν) :=
  match parse o.g.managed data with
  | .error e => .error e
  | .ok data => match sequence (o.g.raw.map (rawOk data)) with
    | .error e => .error e
    | .ok _ => match addAll o.file [] (o.g.raw.map (rawDecl data) ++ (if o.g.nonFused = [] then [] else [indexedDecl o.group o.g data]) ++ o.g.fused.map (fusedDecl m64 o.group data)) with
      | .error e => .error e
      | .ok outs => match dimsOf data o.g.nonFused with
        | .error e => .error e
        | .ok dims => .ok { o with outs := outs, g := { o.g with keyWeights := weightsOf outs, cumudims := if o.g.nonFused = [] then none else some (cumsum 0 dims) } }

/-- `np.concatenate(·, axis=1)` -/
def concatCols : List Mat → Except Err Mat
  | [] => .error .valueError
  | [m] => .ok m
  | m :: ms => match concatCols ms with
    | .error e => .error e
    | .ok r => if m.rows.length = r.rows.length then .ok ⟨m.cols + r.cols, List.zipWith (· ++ ·) m.rows r.rows⟩ else .error .valueError

/-- assignment of an array to rows of `cols` columns: one column is broadcast, another number of columns is refused -/
def fitCols (cols : Nat) (m : Mat) : Except Err (List (List Nat)) :=
  if m.cols = cols then .ok m.rows
  else if m.cols = 1 then .ok (m.rows.map (fun r => r.flatMap (fun x => List.replicate cols x)))
  else .error .valueError

/-- `__compute_indexes__` for one dataset, lines 322-325 -/
def computeIndexes (g : Group ν) (d : String) (i : Input ν) : Except Err (Input ν) :=
  match g.indexed.lookup d with
  | none => .ok i
  | some ix => match get g.indexes ix with
    | .error e => .error e
    | .ok index => match i with
      | .numbers _ => .error .valueError
      | .values l => match sequence (l.map (indexOf index)) with
        | .error e => .error e
        | .ok ns => .ok (.numbers ⟨1, ns.map (fun n => [n])⟩)

/-- the array written for a dataset -/
def matOf (data : List (String × Input ν)) (d : String) : Except Err Mat :=
  match get data d with
  | .error e => .error e
  | .ok (.values _) => .error .valueError
  | .ok (.numbers m) => .ok m

/-- `__compute_keys__` for one row, lines 327-333 (one value or one weight is broadcast) -/
def rowKey (t : IntType) (w row : List Nat) : Except Err Nat :=
  if row.length = w.length then .ok (keyOf (cap t) w row)
  else match row, w with
    | [x], _ => .ok (keyOf (cap t) w (List.replicate w.length x))
    | _, [y] => .ok (keyOf (cap t) (List.replicate row.length y) row)
    | _, _ => .error .valueError

/-- the rows that `__write__` gives to a writer, lines 304-318, in the type of the dataset -/
def rowsFor (d : OutDecl) (data : List (String × Input ν)) : Except Err (List (List Nat)) :=
  match d.src with
  | .raw n => match matOf data n with                                                      -- lines 305-307
    | .error e => .error e
    | .ok m => fitCols d.cols m
  | .indexed ds => match sequence (ds.map (matOf data)) with                                -- lines 309-313
    | .error e => .error e
    | .ok ms => match concatCols ms with
      | .error e => .error e
      | .ok m => match fitCols d.cols m with
        | .error e => .error e
        | .ok rows => .ok (rows.map (List.map (castNat d.type)))
  | .fused ds w => match sequence (ds.map (matOf data)) with                                -- lines 315-318
    | .error e => .error e
    | .ok ms => match concatCols ms with
      | .error e => .error e
      | .ok m => match sequence (m.rows.map (rowKey d.type w)) with
        | .error e => .error e
        | .ok ks => .ok (ks.map (fun k => [castNat d.type k]))

/-- all writers, in order -/
def writeOuts (data : List (String × Input ν)) : List Out → Except Err (List Out)
  | [] => .ok []
  | o :: os => match rowsFor o.toOutDecl data with
    | .error e => .error e
    | .ok rows => match o.buf.write (zeroRow o.cols) rows with
      | .error e => .error e
      | .ok b => match writeOuts data os with
        | .error e => .error e
        | .ok os => .ok ({ o with buf := b } :: os)

/-- lines 322-325 for all datasets -/
def indexAll (g : Group ν) (data : List (String × Input ν)) : Except Err (List (String × Input ν)) :=
  sequence (data.map (fun p => match computeIndexes g p.1 p.2 with
    | .error e => .error e
    | .ok i => .ok (p.1, i)))

/-- `__write__`, lines 299-318 -/
def write1 (o : Obj ν) (indexed : Bool) (data : List (String × Input ν)) : Except Err (Obj ν) :=
  match parse o.g.managed data with
  | .error e => .error e
  | .ok data => match (if indexed then .ok data else indexAll o.g data) with
    | .error e => .error e
    | .ok data => match writeOuts data o.outs with
      | .error e => .error e
      | .ok outs => .ok { o with outs := outs }

/-- lines 203-210: the flags, in the file too -/
def setFlags (o : Obj ν) : Obj ν :=
  { o with g := { o.g with empty := false, sorted := false }, file := { o.file with groups := put o.file.groups o.group { o.g with empty := false, sorted := false } } }

/-- `write`, lines 184-217, with `iterate=False` -/
def write (o : Obj ν) (append indexed : Bool) (data : List (String × Input ν)) : Except Err (Obj ν) :=
  if ¬ o.g.empty ∧ ¬ append then .error .ioError                                          -- lines 188-189
  else if o.g.empty then match initDatasets o data with                                     -- lines 191-196
    | .error e => .error e
    | .ok o => write1 (setFlags o) indexed data
  else if o.outs = [] then .error .valueError                                             -- lines 200-202
  else write1 (setFlags o) indexed data

/-- the loop of lines 214-215 -/
def write1All (o : Obj ν) (indexed : Bool) : List (List (String × Input ν)) → Except Err (Obj ν)
  | [] => .ok o
  | d :: ds => match write1 o indexed d with
    | .error e => .error e
    | .ok o => write1All o indexed ds

/-- `write` with `iterate=True`: an iterator has no attribute `next` in python 3 (line 193) -/
def writeIter (o : Obj ν) (append indexed : Bool) (datas : List (List (String × Input ν))) : Except Err (Obj ν) :=
  if ¬ o.g.empty ∧ ¬ append then .error .ioError
  else if o.g.empty then .error .attributeError
  else if o.outs = [] then .error .valueError
  else write1All (setFlags o) indexed datas

/-- the flush of the writers at the end of the `with` statement (lines 176-182) -/
def flushOuts : List Out → Except Err (List ((String × String) × List (List Nat)))
  | [] => .ok []
  | o :: os => match o.buf.flush (zeroRow o.cols) with
    | .error e => .error e
    | .ok b => match flushOuts os with
      | .error e => .error e
      | .ok l => .ok ((o.path, b.data) :: l)

/-- the file after the `with` statement, when no exception was raised in it -/
def exit (o : Obj ν) : Except Err (File ν) :=
  match flushOuts o.outs with
  | .error e => .error e
  | .ok l => .ok ⟨put o.file.groups o.group o.g, o.file.data ++ l⟩

/-- calls to `write`, each with its flag `indexed` -/
def writeAll (o : Obj ν) : List (Bool × List (String × Input ν)) → Except Err (Obj ν)
  | [] => .ok o
  | c :: cs => match write o true c.1 c.2 with
    | .error e => .error e
    | .ok o => writeAll o cs

/-- `with H5IO(...) as h:` and calls to `write` -/
def session (file : File ν) (group : String) (g : Group ν) (calls : List (Bool × List (String × Input ν))) : Except Err (File ν) :=
  match writeAll ⟨file, group, g, []⟩ calls with
  | .error e => .error e
  | .ok o => exit o

end ABX.H5IO
