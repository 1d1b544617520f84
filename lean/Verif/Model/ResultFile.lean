import Verif.Model.Names
import Verif.Model.RegInfo
/-!
Model of `analyze` (ABXpy/analyze.py 142-166, with `collapse`, 61-121) as it reads the task file: the rows, the names and the indexes of the regressors come from the group of each level
in the file written by `H5IO` (Model/RegInfo.lean), not from the columns of Model/Analyze.lean.

`bys` and `byIndex` are the datasets `bys` and `triplets/by_index` of the task file, `scores` is the dataset of the score file, `first` is the path of the group of `/regressors` that is listed first.
The file is represented by its groups that have datasets; they are named by their paths.
Simplifications: the type of the rows is computed from the indexes, as it is when the dataset is made (h5io.py 260-268); the indexes of a level are read before its rows are encoded (here an index
that is missing is an error before those of lines 84-101).
-/
namespace ABX.ResultFile
open Database (Text)
open ExtSort Task SideOps RegInfo

/-- `'/'.join(...)` -/
def slashed : List Text → Text
  | [] => []
  | [a] => a
  | a :: b :: rest => a ++ '/' :: slashed (b :: rest)

/-- the path of the group of a level, task.py 772, analyze.py 74 -/
def groupName (key : List Val) : String := String.ofList (slashed (Names.place key))

/-- the columns of an array with rows `rows`, `indices[:, i]`, lines 84, 89, 91 -/
def columnsOf (width : Nat) (rows : List (List Nat)) : List (List Nat) := (List.range width).map (fun j => rows.filterMap (·[j]?))

/-- lines 74-116 for one level -/
def collapseGroup (argsort : List Int → List Nat) (f : H5IO.File Val) (by_ : List Val) (scores : List Int) : Except Err (List Analyze.OutRow) :=
  match readRows f (groupName by_) with                                             -- lines 74-77
  | .error e => .error e
  | .ok [] => .ok []                                                                -- lines 78-79
  | .ok (row :: rows) => match readIndexes f (groupName by_) with                   -- lines 103-106
    | .error e => .error e
    | .ok indexes => match Analyze.indexedBits indexes with
      | .error e => .error e
      | .ok dt => Analyze.collapseLevel argsort dt indexes by_ (columnsOf row.length (row :: rows)) scores

/-- the loop over the levels, lines 70-116 -/
def collapseGroups (argsort : List Int → List Nat) (f : H5IO.File Val) (byIndex : List (Int × Int)) (scores : List Int) : List (List Val × Nat) → Except Err (List Analyze.OutRow)
  | [] => .ok []
  | p :: ps => match byIndex[p.2]? with                                             -- line 72
    | none => .error .indexError
    | some iv => match collapseGroup argsort f p.1 (npSlice scores iv.1.toNat iv.2.toNat) with
      | .error e => .error e
      | .ok out => match collapseGroups argsort f byIndex scores ps with
        | .error e => .error e
        | .ok outs => .ok (out ++ outs)

/-- `collapse`, lines 61-121 -/
def collapse (argsort : List Int → List Nat) (f : H5IO.File Val) (bys : List (List Val)) (byIndex : List (Int × Int)) (scores : List Int) : Except Err (List Analyze.OutRow) :=
  collapseGroups argsort f byIndex scores bys.zipIdx

/-- `analyze`, lines 142-166: the text of the results -/
def analyze (num : ℚ → Text) (argsort : List Int → List Nat) (f : H5IO.File Val) (first : String) (bys : List (List Val)) (byIndex : List (Int × Int)) (scores : List Int) : Except Err Text :=
  match readNames f first with                                                      -- lines 157-163
  | .error e => .error e
  | .ok names => match collapse argsort f bys byIndex scores with                   -- line 166
    | .error e => .error e
    | .ok rows => .ok (Names.header (names.map String.toList) ++ rows.flatMap (Names.line num))

end ABX.ResultFile
