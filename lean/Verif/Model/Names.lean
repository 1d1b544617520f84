import Verif.Model.Analyze
import Verif.Model.Items
/-!
Model of the names of the levels of 'by' in the files: `str(by)` (ABXpy/task.py 772, 795, 875, 911, 928, 930, 974, 979; ABXpy/analyze.py 74), and of the text written by `analyze` (ABXpy/analyze.py 109-116, 155-166).

A key of a 'by' group is a value when there is one 'by' column, a tuple of values when there are several (pandas `groupby`, task.py 285); here always the list of values.
`str` and `repr` of python: integers in decimal; the text of a tuple holds the `repr` of its values: a string between quotes with escapes.
Simplification: `repr` escapes other characters that are not printable too.
HDF5 paths: pieces between slashes, where empty pieces and `.` are skipped.
-/
namespace ABX.Names
open Database (Text)
open ExtSort Task SideOps

/-- `str(n)` for an integer -/
def decimal (n : Int) : Text := if n < 0 then '-' :: Items.str n.natAbs else Items.str n.natAbs

/-- a character in the `repr` of a string with the quote `q` -/
def escape (q c : Char) : Text :=
  if c = '\\' then ['\\', '\\']
  else if c = q then ['\\', q]
  else if c = '\t' then ['\\', 't']
  else if c = '\n' then ['\\', 'n']
  else if c = '\r' then ['\\', 'r']
  else [c]

/-- the quote that `repr` uses -/
def quote (s : Text) : Char := if s.contains '\'' && !s.contains '"' then '"' else '\''

/-- `repr(v)` -/
def repr : Val → Text
  | .int n => decimal n
  | .str s => quote s.toList :: (s.toList.flatMap (escape (quote s.toList)) ++ [quote s.toList])

/-- `str(v)` -/
def str : Val → Text
  | .int n => decimal n
  | .str s => s.toList

/-- the values of a tuple after the first one -/
def tupleRest : List Val → Text
  | [] => [')']
  | v :: vs => ',' :: ' ' :: (repr v ++ tupleRest vs)

/-- `str(by)` -/
def keyName : List Val → Text
  | [] => ['(', ')']
  | [v] => str v
  | v :: w :: vs => '(' :: (repr v ++ tupleRest (w :: vs))

/-- the pieces between slashes -/
def pieces : (current : Text) → Text → List Text
  | cur, [] => [cur]
  | cur, c :: cs => if c = '/' then cur :: pieces [] cs else pieces (cur ++ [c]) cs

/-- the groups on a path of HDF5 -/
def groups (path : Text) : List Text := (pieces [] path).filter (fun p => p ≠ [] ∧ p ≠ ['.'])

/-- the group of the regressors of a level, task.py line 772 -/
def place (key : List Val) : List Text := groups ("/regressors/".toList ++ keyName key ++ ['/'])

/-! ### the text of the results -/

/-- `'\t'.join(...)` -/
def join : List Text → Text
  | [] => []
  | [a] => a
  | a :: b :: rest => a ++ '\t' :: join (b :: rest)

/-- the names of the regressors of the first group, analyze.py 157-159; `levels` are the levels of the file, which all have the regressors `names`;
`first` is the group that is listed first.  It has no datasets unless it is the group of a level. -/
def headerNames (levels : List (List Val)) (names : List Text) (first : Text) : Except Err (List Text) :=
  if (levels.map place).contains ["regressors".toList, first] then .ok names else .error .keyError

/-- the header, analyze.py 160-163 -/
def header (names : List Text) : Text := names.flatMap (· ++ ['\t']) ++ "by\tscore\tn\n".toList

/-- a line, analyze.py 110-116; `num` is the text of a float64 -/
def line (num : ℚ → Text) (r : Analyze.OutRow) : Text := join (r.labels.map str ++ [keyName r.by_, num r.score, decimal r.n]) ++ ['\n']

/-- `analyze`, lines 155-166: the text of the file -/
def csv (num : ℚ → Text) (argsort : List Int → List Nat) (names : List Text) (first : Text) (indexes : List (List Val)) (F : Task.File) (scores : List Int) : Except Err Text :=
  match headerNames (F.regs.map Prod.fst) names first with
  | .error e => .error e
  | .ok names => match Analyze.collapse argsort indexes F scores with
    | .error e => .error e
    | .ok rows => .ok (header names ++ rows.flatMap (line num))

end ABX.Names
