import Verif.Model.Database
/-!
Model of the reading of an item file as text: `read_table`, ABXpy/database/database.py 11-15, that is `pandas.read_csv(filename, sep='[ \t]+', engine='python')`.  (What follows in database.py is in
Model/Database.lean, which starts from the columns and rows given by pandas.)

Assumed of pandas (its python engine with a regular expression as separator, before version 1): lines are stripped and split at the separators, blank lines are skipped; the first line that is left has the names of
the columns, repeated names get a number; if the next line has more fields than there are columns then the first fields of all lines are not data but labels of the rows; other lines with more fields than the first
raise ParserError (a ValueError), lines with fewer fields are completed with missing values; a field is also missing if it is one of a list of words; then each column is converted as a whole: to numbers if
all fields that are not missing are numbers, else to booleans if they are all such words, else it is left as it is.
Simplifications: the byte order mark is not represented; which texts are numbers, and their values, are a parameter (`Conv`).
-/
namespace ABX.ReadCsv
open Database (Text Raw Loaded addExt process readTable)

/-- characters that `str.strip` removes -/
def isSpace (c : Char) : Bool :=
  let n := c.toNat
  (9 ≤ n && n ≤ 13) || (28 ≤ n && n ≤ 32) || n == 0x85 || n == 0xa0 || n == 0x1680 || (0x2000 ≤ n && n ≤ 0x200a) || n == 0x2028 || n == 0x2029 || n == 0x202f || n == 0x205f || n == 0x3000

/-- characters of the separators, `[ \t]` (database.py 12) -/
def isSep (c : Char) : Bool := c == ' ' || c == '\t'

/-- ends of line.  (A line that ends with two of them gives a blank line more.) -/
def isEnd (c : Char) : Bool := c == '\n' || c == '\r'

/-- `line.strip()` -/
def strip (t : Text) : Text := ((t.dropWhile isSpace).reverse.dropWhile isSpace).reverse

/-- the lines of a file -/
def lines : (acc : Text) → Text → List Text
  | acc, [] => [acc]
  | acc, c :: cs => if isEnd c then acc :: lines [] cs else lines (acc ++ [c]) cs

/-- `re.split('[ \t]+', line)`; `skip` when the last character was a separator -/
def split : (acc : Text) → (skip : Bool) → Text → List Text
  | acc, _, [] => [acc]
  | acc, skip, c :: cs => if isSep c then (if skip then split acc true cs else acc :: split [] true cs) else split (acc ++ [c]) false cs

/-- the fields of the lines that are not blank -/
def fields (t : Text) : List (List Text) := ((lines [] t).map (fun l => split [] false (strip l))).filter (· ≠ [[]])

/-- a name that occurred already gets a number: the loop over `cur_count` in pandas.  `counts` has the number of times that a name was given. -/
def rename : (fuel : Nat) → (counts : List (Text × Nat)) → Text → Text × List (Text × Nat)
  | 0, counts, c => (c, counts)
  | fuel + 1, counts, c => match (counts.lookup c).getD 0 with
    | 0 => (c, (c, 1) :: counts)
    | n + 1 => rename fuel ((c, n + 2) :: counts) (c ++ '.' :: Nat.toDigits 10 (n + 1))

/-- the names of the columns -/
def dedupe : (counts : List (Text × Nat)) → List Text → List Text
  | _, [] => []
  | counts, c :: cs => (rename (counts.length + 2) counts c).1 :: dedupe (rename (counts.length + 2) counts c).2 cs

/-- the words that are missing values -/
def naWords : List Text := ["-1.#IND", "1.#QNAN", "1.#IND", "-1.#QNAN", "#N/A", "N/A", "n/a", "NA", "#NA", "NULL", "null", "NaN", "-NaN", "nan", "-nan", ""].map String.toList

/-- the words that are booleans -/
def boolWord (t : Text) : Option Bool :=
  if t ∈ ["True", "TRUE", "true"].map String.toList then some true else if t ∈ ["False", "FALSE", "false"].map String.toList then some false else none

/-- the values of the fields: `num floats t` is the number that `t` writes, if it writes one, in a column of floats or of integers; `isInt` tells which are written as integers -/
structure Conv (β : Type) where
  isInt : Text → Bool
  num : Bool → Text → Option β
  bool : Bool → β
  text : Text → β

/-- a field of a line, without the first `skip` fields: missing if the line is too short or if it is one of the words -/
def cell (skip : Nat) (row : List Text) (i : Nat) : Option Text := (row[skip + i]?).filter (fun t => !naWords.contains t)

/-- the conversion of a column -/
def convert (c : Conv β) (column : List (Option Text)) : List (Option β) :=
  let given := column.filterMap id
  if given.all (fun t => (c.num false t).isSome) then column.map (fun x => x.bind (c.num (column.any Option.isNone || !given.all c.isInt)))
  else if given.all (fun t => (boolWord t).isSome) then column.map (fun x => (x.bind boolWord).map c.bool)
  else column.map (fun x => x.map c.text)

/-- how many of the first fields of the lines are labels of the rows, and the lines with data.  (In the second case the names of these labels are on a line of their own.) -/
def indexOf (n : Nat) : List (List Text) → Nat × List (List Text)
  | [] => (0, [])
  | [first] => (first.length - n, [first])
  | first :: second :: rest => if second.length = first.length + n then (first.length, second :: rest) else (first.length - n, first :: second :: rest)

/-- what `pandas.read_csv` returns: the number of fields that became labels of the rows (their values are not represented), and the columns and rows -/
structure Parsed (β : Type) where
  index : Nat
  raw : Raw β

/-- `pandas.read_csv`, database.py 12 -/
def readCsv (c : Conv β) (t : Text) : Except Err (Parsed β) :=
  match fields t with
  | [] => .error .valueError
  | header :: rest =>
    let p := indexOf header.length rest
    if p.2.any (fun row => decide (header.length + p.1 < row.length)) then .error .valueError
    else
      let columns := (List.range header.length).map (fun i => convert c (p.2.map (fun row => cell p.1 row i)))
      .ok ⟨p.1, dedupe [] header, (List.range p.2.length).map (fun k => columns.map (fun col => (col[k]?).join))⟩

/-- the files as pandas reads them; a file that it cannot read is not represented here -/
def filesOf (c : Conv β) (texts : Text → Option Text) (f : Text) : Option (Raw β) := match texts f with
  | none => none
  | some t => match readCsv c t with
    | .error _ => none
    | .ok p => some p.raw

/-- `load(filename, features_info=True)`, database.py 19-72, from the texts of the files.  Simplification: an auxiliary file that cannot be read by pandas counts as absent. -/
def loadText (c : Conv β) (texts : Text → Option Text) (filename : Text) : Except Err (Loaded β) :=
  match texts (addExt filename) with
  | none => .error .ioError
  | some t => match readCsv c t with
    | .error e => .error e
    | .ok p => process (filesOf c texts) (addExt filename) (readTable p.raw)

end ABX.ReadCsv
