import Verif.Model.Database
/-!
Model of the file that lists the lines removed from an item file: ABXpy/database/database.py 60-64 (`dropped.to_csv(basename + '-removed' + ext)`).

`to_csv` writes the index labels of the rows in a first column without a name, missing values as empty fields, and puts a field between quotes when it has a comma, a quote or an end of line (csv.QUOTE_MINIMAL),
with the quotes of the field doubled.  `sh` is the text of a value.  An old file of the same name is replaced.
-/
namespace ABX.Database
variable {β : Type}

/-- a field of a csv file -/
def csvField (t : Text) : Text :=
  if t.any (fun c => c == ',' || c == '"' || c == '\n') then '"' :: t.flatMap (fun c => if c = '"' then ['"', '"'] else [c]) ++ ['"'] else t

/-- fields separated by commas -/
def csvJoin : List Text → Text
  | [] => []
  | [x] => csvField x
  | x :: xs => csvField x ++ ',' :: csvJoin xs

/-- a line of a csv file; a line with one empty field has quotes -/
def csvLine (fields : List Text) : Text := (if fields = [[]] then ['"', '"'] else csvJoin fields) ++ ['\n']

/-- a value in a csv file -/
def csvValue (sh : β → Text) : Option β → Text
  | none => []
  | some v => sh v

/-- `DataFrame.to_csv` -/
def toCsv (sh : β → Text) (t : Table β) : Text :=
  (csvLine ([] :: t.columns) :: t.rows.map (fun p => csvLine (Nat.toDigits 10 p.1 :: p.2.map (csvValue sh)))).flatten

/-- line 62: the rows with a missing value -/
def droppedOf (db : Table β) : Table β := ⟨db.columns, db.rows.filter (fun p => p.2.any Option.isNone)⟩

/-- the label table of line 48 -/
def labelTable (t : Table β) : Option (Table β) := match sharps 0 t.columns with
  | .ok ([_, i1], names) => some (select ⟨names, t.rows⟩ (names.drop i1))
  | _ => none

/-- lines 60-64: the name and the text of the file that `load` writes, if it comes to these lines and some row has a missing value -/
def removedFile (sh : β → Text) (fs : Text → Option (Raw β)) (filename : Text) : Option (Text × Text) :=
  match load fs filename with
  | .error _ => none
  | .ok _ => match fs (addExt filename) with
    | none => none
    | some r => match labelTable (readTable r) with
      | none => none
      | some db => if (droppedOf db).rows.isEmpty then none else some ((splitext (addExt filename)).1 ++ "-removed".toList ++ itemExt, toCsv sh (droppedOf db))

end ABX.Database
