import Verif.Model.Database
import Verif.Model.Verify
/-!
Model of ABXpy/misc/items.py: `generate_testitems` (lines 11-32), `generate_named_testitems` (lines 35-61), the names given by
`generate_features` (lines 64-78) and `csv_cmp` (lines 102-115).

The arguments are natural numbers.  A generated file is a table of texts (`np.savetxt` with `fmt='%s'` and one blank between columns).  The division
by `base ** j` is never reached for base 0: there is no line then, or no label column.  The random arrays of `generate_features` are not
represented.
-/
namespace ABX.Items
open Database (Text)

/-- `str(n)` -/
def str (n : Nat) : Text := Nat.toDigits 10 n

/-- the headers of lines 18 and 42 for the first four columns -/
def head4 (fourth : Text) : Nat → Text
  | 0 => "#file".toList
  | 1 => "onset".toList
  | 2 => "offset".toList
  | _ => fourth

/-- the letters of line 22 -/
def letter : Nat → Char
  | 0 => 's'
  | 1 => 'n'
  | 2 => 'f'
  | _ => 'i'

/-- `fun(i, j)` of `generate_testitems`, lines 15-26 -/
def cell (base i j : Nat) : Text :=
  if i = 0 then
    if j < 4 then head4 "#src".toList j else 'c' :: str (j - 4)
  else if j < 4 then letter j :: str (i - 1)
  else str ((i - 1) / base ^ (j - 4) % base)

/-- `fun(i, j)` of `generate_named_testitems`, lines 40-55 -/
def namedCell (base i j : Nat) : Text :=
  if i = 0 then
    if j < 4 then head4 "#item".toList j else 'c' :: str (j - 4)
  else if j = 0 then 's' :: str (i - 1)
  else if j = 1 ∨ j = 2 then ['0']
  else if j = 3 then 'i' :: str (i - 1)
  else 'c' :: str (j - 4) ++ '_' :: 'v' :: str ((i - 1) / base ^ (j - 4) % base)

/-- lines 13 and 28-29 (37 and 57-58) -/
def table (f : Nat → Nat → Text) (base n repeats : Nat) : List (List Text) :=
  (List.range (base ^ n * (repeats + 1) + 1)).map (fun i => (List.range (n + 4)).map (f i))

/-- `generate_testitems(base, n, repeats)` -/
def testitems (base n repeats : Nat) : List (List Text) := table (cell base) base n repeats

/-- `generate_named_testitems(base, n, repeats)` -/
def namedTestitems (base n repeats : Nat) : List (List Text) := table (namedCell base) base n repeats

/-- the text that `np.savetxt` writes -/
def render (rows : List (List Text)) : Text := (rows.map (fun r => Database.join r ++ ['\n'])).flatten

/-- the names of the features, lines 72-78, with the number of files of line 87 (`generate_db_and_feat`) -/
def featNames (base n repeats : Nat) : List Text := (List.range (base ^ n * (repeats + 1))).map (fun i => 's' :: str i)

/-- `l.sort()` in python: the list is sorted in place, the value of the call is `None` -/
def pySort (l : List Text) : List Text × Option (List Text) := (l.mergeSort (fun a b => decide (a ≤ b)), none)

/-- `csv_cmp(f1, f2)`, lines 102-115, on the lines of the two files (columns in order, printed again by `to_csv`): line 115 compares the values of
the two calls of `sort` -/
def csvCmp (lines1 lines2 : List Text) : Bool := (pySort lines1).2 == (pySort lines2).2

end ABX.Items
