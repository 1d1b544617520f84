import Verif.Model.Task
import Verif.Model.Tree
/-!
Model of ABXpy/database/database.py (all of it) and of its use by task.py line 205.

Text is a list of characters.  A file read by pandas is its column names and its rows; a field is `none` when it is missing.
Simplifications: pandas' own parsing (line `pandas.read_csv`) is in Model/ReadCsv.lean, here names of columns are those that pandas gives, and a
row that has fewer fields than there are columns has its last fields missing; the csv file that lists the dropped rows (line 63) is in Model/Removed.lean; a file that cannot be read raises `IOError`.
-/
namespace ABX.Database
open ExtSort

/-- text -/
abbrev Text := List Char

/-- what pandas reads in a file: column names and rows -/
structure Raw (β : Type) where
  columns : List Text
  rows : List (List (Option β))

/-- a data frame: column names, and rows with their index labels -/
structure Table (β : Type) where
  columns : List Text
  rows : List (Nat × List (Option β))

/-- a field of a row; the missing last fields of a short row are missing values -/
def fieldAt (row : List (Option β)) (i : Nat) : Option β :=
  match row[i]? with
  | none => none
  | some v => v

/-- `read_table`, lines 11-15: the rows with a missing value in every column are dropped, the others keep their index label -/
def readTable (r : Raw β) : Table β :=
  ⟨r.columns, (r.rows.zipIdx.filter (fun p => (List.range r.columns.length).any (fun i => (fieldAt p.1 i).isSome))).map (fun p => (p.2, p.1))⟩

/-- `os.path.splitext` (posix): the extension starts at the last dot of the last component, unless only dots precede it there -/
def splitext (p : Text) : Text × Text :=
  let ext := p.reverse.takeWhile (fun c => c ≠ '.' && c ≠ '/')
  match p.reverse.dropWhile (fun c => c ≠ '.' && c ≠ '/') with
  | [] => (p, [])
  | c :: stem =>
    if c = '.' && (stem.takeWhile (· ≠ '/')).any (· ≠ '.') then (stem.reverse, '.' :: ext.reverse) else (p, [])

/-- the extension of line 21 -/
def itemExt : Text := ".item".toList

/-- lines 22-23 (a negative start of the slice, for a name of less than 5 characters, gives less than 5 characters) -/
def addExt (filename : Text) : Text :=
  if itemExt.length ≤ filename.length && filename.drop (filename.length - itemExt.length) == itemExt then filename
  else filename ++ itemExt

/-- `' '.join` -/
def join : List Text → Text
  | [] => []
  | [x] => x
  | x :: xs => x ++ ' ' :: join xs

/-- the loop of lines 35-39: the positions of the names that start with '#', and the names without it; the number of the first column
is an argument.  An empty name raises `IndexError`. -/
def sharps : Nat → List Text → Except Err (List Nat × List Text)
  | _, [] => .ok ([], [])
  | i, c :: cs => match c with
    | [] => .error .indexError
    | ch :: rest => match sharps (i + 1) cs with
      | .error e => .error e
      | .ok (l, ns) => if ch = '#' then .ok (i :: l, rest :: ns) else .ok (l, c :: ns)

/-- positions of the columns selected by `db[names]`: every column of that name, for each name in turn -/
def selectPos (columns names : List Text) : List Nat :=
  names.flatMap (fun n => (List.range columns.length).filter (fun i => columns[i]? == some n))

/-- `db[names]` -/
def select (t : Table β) (names : List Text) : Table β :=
  ⟨(selectPos t.columns names).filterMap (fun i => t.columns[i]?),
    t.rows.map (fun p => (p.1, (selectPos t.columns names).map (fieldAt p.2)))⟩

/-- the name of a node of the hierarchy, line 79 -/
def leafNamed (c : Text) : Tree.Tree := .node [("name", .str (String.ofList c))] []

/-- `load_aux_dbs`, lines 76-99.  An auxiliary file that exists is read, and the recursive call of line 89, which lacks an argument,
raises `TypeError`; a file without any column raises pandas' `EmptyDataError`, a `ValueError`. -/
def loadAux (fs : Text → Option (Raw β)) (basename mainfile : Text) : List Text → Except Err (List Tree.Tree)
  | [] => .ok []
  | col :: cols =>
    let auxfile := basename ++ '.' :: col                            -- line 81
    let next := match loadAux fs basename mainfile cols with
      | .error e => .error e
      | .ok f => .ok (leafNamed col :: f)
    if auxfile = mainfile then next                                   -- line 82
    else match fs auxfile with
      | none => next                                                  -- lines 97-98
      | some r => match r.columns with
        | [] => .error .valueError
        | c :: _ => if col = c then .error .typeError                 -- lines 89-90
          else .error .assertion                                      -- lines 84-87

/-- the result of `load` with `features_info=True` -/
structure Loaded (β : Type) where
  db : Table β
  hierarchy : List Tree.Tree
  feat : Table β

/-- lines 60-65: the rows of the label table that have a missing value are dropped from both tables -/
def dropMissing (db feat : Table β) : Table β × Table β :=
  let nanrows := db.rows.map (fun p => p.2.any Option.isNone)
  (⟨db.columns, ((db.rows.zip nanrows).filter (fun p => !p.2)).map (·.1)⟩,
    ⟨feat.columns, ((feat.rows.zip nanrows).filter (fun p => !p.2)).map (·.1)⟩)

/-- lines 26-50 and 56-72 once the main file is read -/
def process (fs : Text → Option (Raw β)) (filename : Text) (t : Table β) : Except Err (Loaded β) :=
  if join (t.columns.take 3) ≠ "#file onset offset".toList then .error .assertion        -- lines 31-33
  else match sharps 0 t.columns with
    | .error e => .error e
    | .ok (l, names) =>
      match l with
      | [i0, i1] =>
        if i0 ≠ 0 then .error .assertion                                                  -- lines 41-43
        else
          let t : Table β := ⟨names, t.rows⟩                                              -- line 40
          let feat := select t (names.take i1)                                            -- line 47
          let db := select t (names.drop i1)                                              -- line 48
          match loadAux fs (splitext filename).1 filename db.columns with                 -- lines 56-57
          | .error e => .error e
          | .ok forest =>
            let (db, feat) := dropMissing db feat
            .ok ⟨db, forest, feat⟩
      | _ => .error .assertion                                                            -- lines 41-46

/-- `load(filename, features_info=True)`, lines 19-72 -/
def load (fs : Text → Option (Raw β)) (filename : Text) : Except Err (Loaded β) :=
  let filename := addExt filename
  match fs filename with
  | none => .error .ioError
  | some r => process fs filename (readTable r)

/-- a row of the label table as the task sees it: the value of the (first) column of a name; the rows that are left have no missing
value, a name that is not a column is never read -/
def toRow (columns : List Text) (fields : List (Option Val)) : Row := fun c =>
  match fieldAt fields (columns.findIdx (fun d => String.ofList d == c)) with
  | some v => v
  | none => .int 0

/-- task.py lines 205-206 and side_operations_manager.py: the arguments of the preparation of a task, from the loaded file -/
def toArgs (L : Loaded Val) (on : String) (across by_ : List String) (filters : List (SideOps.DBFun Bool)) (regressors : List (SideOps.DBFun Nat))
    (cols : SideOps.Cols) : Task.Args (Nat × List (Option Val)) :=
  { columns := L.db.columns.map String.ofList, on := on, across := across, by_ := by_, cols := cols, filters := filters, regressors := regressors,
    db := L.db.rows.map (fun p => (p.1, toRow L.db.columns p.2)), feat := L.feat.rows }

/-- `Task(db_name, on, across, by, filters, regressors)` up to the statistics: the file is loaded, then the task is prepared.  (The
hierarchy is used when the side operations are set up, after the check of the columns; here an 'on' column that is not in the
hierarchy is reported by the check, as the hierarchy has all columns.) -/
def fromFile (e : Task.Env) (fs : Text → Option (Raw Val)) (filename : Text) (on : String) (across by_ : List String)
    (filters : List (SideOps.DBFun Bool)) (regressors : List (SideOps.DBFun Nat)) : Except Err (Task.Task (Nat × List (Option Val))) :=
  match load fs filename with
  | .error e => .error e
  | .ok L => match Tree.hierCols L.hierarchy on across by_ with
    | .error _ => .error .assertion
    | .ok cols => Task.init e (toArgs L on across by_ filters regressors cols)

end ABX.Database
