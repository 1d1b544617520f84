import Verif.Model.Database
/-!
Model of ABXpy/verify.py, `check` (lines 25-51).

The item file is a text; python reads it line by line, the end of line belongs to the line.  The feature file is the list of names found in
`h5f['features']['files']`, `none` if that dataset does not exist (`h5py.File(features_file)` with the default mode creates a file that is
missing; the look-up then raises `KeyError`).  Names are compared as text (h5py < 3 gives text).
-/
namespace ABX.Verify
open Database (Text)

/-- the lines of a text, with their ends -/
def lines : Text → List Text
  | [] => []
  | c :: cs => if c = '\n' then ['\n'] :: lines cs
    else match lines cs with
      | [] => [[c]]
      | l :: ls => (c :: l) :: ls

/-- white space of `str.split()` (ascii) -/
def isSpace (c : Char) : Bool := c = ' ' || c = '\t' || c = '\n' || c = '\r' || c = '\x0b' || c = '\x0c'

/-- `str.split(s)`; the accumulator is the word that is being read -/
def wordsAux : Text → Text → List Text
  | acc, [] => if acc = [] then [] else [acc]
  | acc, c :: cs => if isSpace c then (if acc = [] then wordsAux [] cs else acc :: wordsAux [] cs) else wordsAux (acc ++ [c]) cs

/-- `str.split(s)` -/
def words (s : Text) : List Text := wordsAux [] s

/-- `str.split(line, ' ')[0]`, line 48 -/
def source (line : Text) : Text := line.takeWhile (· ≠ ' ')

/-- the loop of lines 47-51 -/
def checkLines (files : List Text) : List Text → Except Err Unit
  | [] => .ok ()
  | l :: ls => if files.contains (source l) then checkLines files ls else .error .assertion

/-- lines 36-40 -/
def checkHeader (cols : List Text) : Except Err Unit :=
  match cols with
  | c0 :: c1 :: c2 :: c3 :: _ =>
    if c0 ≠ "#file".toList then .error .assertion
    else if c1 ≠ "onset".toList then .error .assertion
    else if c2 ≠ "offset".toList then .error .assertion
    else match c3 with
      | [] => .error .indexError
      | c :: _ => if c ≠ '#' then .error .assertion else .ok ()
  | _ => .error .assertion

/-- `check(item_file, features_file)`, lines 25-51 -/
def check (item : Text) (files : Option (List Text)) : Except Err Unit :=
  let ls := lines item
  let header := match ls with
    | [] => []
    | l :: _ => l
  match checkHeader (words header) with                -- lines 35-40
  | .error e => .error e
  | .ok _ => match files with                            -- lines 43-44
    | none => .error .keyError
    | some fs => checkLines fs ls.tail

end ABX.Verify
