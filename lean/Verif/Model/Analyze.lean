import Verif.Model.TaskGen
import Verif.Model.F64
/-!
Model of ABXpy/analyze.py: `npdecode` (lines 39-50), `collapse` (61-121) and `unique` (126-139).

A table of indices (`regressors/<by>/indexed_data`) is a list of columns of naturals, of an unsigned type with `dt` bits; `indexes` are the values of the
indexed datasets (`regressors/<by>/indexes`), one per column (h5io.py lines 256-271, datasets of one column).  Arithmetic on unsigned arrays wraps; a numpy scalar combined
with an array takes the type of the array unless its value does not fit (numpy before version 2).  float64 is `F64.rnd`.
Simplifications: a row of the csv file is a record, not a string (the text is in Model/Names.lean); lines 82-83 compute a value that is not used; the header (lines 155-165) is left out.
-/
namespace ABX.Analyze
open ExtSort Task SideOps F64

/-- number of bits of the smallest unsigned type for `n` (`np.min_scalar_type`) -/
def minBits (n : Nat) : Nat := if n < 2 ^ 8 then 8 else if n < 2 ^ 16 then 16 else if n < 2 ^ 32 then 32 else 64

/-- `np.max(indices, 0) + 1`, line 84, in the type of the table -/
def nIndices (dt : Nat) (cols : List (List Nat)) : List Nat := cols.map (fun c => (c.foldl max 0 + 1) % 2 ^ dt)

/-- lines 90-91 for one row; `w` is the number of bits of the type of `new_index` -/
def encodeLoop (dt : Nat) : (w acc : Nat) → List Nat → List Nat → Nat
  | w, acc, n :: ns, x :: xs =>
    let w1 := max w (minBits n)
    encodeLoop dt (max w1 dt) ((x + n * acc % 2 ^ w1) % 2 ^ max w1 dt) ns xs
  | _, acc, _, _ => acc

/-- lines 89-91 for one row; `ind` is the number of bits of `ind_type` -/
def encode (dt ind : Nat) : (ns row : List Nat) → Nat
  | _ :: ns, x :: xs => encodeLoop dt ind (x % 2 ^ ind) ns xs
  | _, _ => 0

/-- the iterations of lines 46-48 on float64 numbers; `ns` are the remaining radices, last first, `acc` the columns to the right.
`np.mod` of float64 numbers is exact. -/
def decodeLoop : (ns : List Nat) → (aux : ℚ) → (acc : List ℚ) → List ℚ
  | [], aux, acc => aux :: acc                                                     -- line 49
  | n :: ns, aux, acc =>
    let r := aux - rnd n * ⌊aux / rnd n⌋
    decodeLoop ns (rnd (rnd (aux - r) / rnd n)) (r :: acc)

/-- `npdecode`, lines 39-50, for one key; in the first iteration the key is an integer -/
def npdecode (key : Nat) (ns : List Nat) : List ℚ :=
  match ns.tail.reverse with
  | [] => [rnd key]
  | n :: rest =>
    let r := rnd ((key % n : Nat) : ℚ)
    decodeLoop rest (rnd (rnd (rnd key - r) / rnd n)) [r]

/-- `int(x)` -/
def trunc (q : ℚ) : Int := if q < 0 then ⌈q⌉ else ⌊q⌋

/-- lines 133-138: `(mean + 1) / 2` of the parts of `scores` (the division by two is exact) -/
def means (scores : List Int) : (counts : List Nat) → (i : Nat) → List ℚ
  | [], _ => []
  | c :: cs, i => rnd (rnd (((npSlice scores i (i + c)).sum : ℚ) / c) + 1) / 2 :: means scores cs (i + c)

/-- `unique`, lines 126-139: keys, scores and counts -/
def unique (index : List Int) (scores : List Int) : Except Err (List (Int × ℚ × Nat)) :=
  match gather index (uniqueIdx index).dropLast with                                -- lines 127-131
  | .error e => .error e
  | .ok keys => .ok (keys.zip ((means scores (runCounts (uniqueIdx index)) 0).zip (runCounts (uniqueIdx index))))

/-- a row of the csv file -/
structure OutRow where
  labels : List Val
  by_ : List Val
  score : ℚ
  n : Nat
  deriving DecidableEq

/-- lines 110-112: the labels of a decoded key -/
def labelsOf (indexes : List (List Val)) (key : List ℚ) : Except Err (List Val) :=
  sequence (indexes.zipIdx.map (fun p => match key[p.2]? with
    | none => .error .indexError
    | some q => match p.1[(trunc q).toNat]? with
      | none => .error .indexError
      | some v => .ok v))

/-- lines 74-116 for one level -/
def collapseLevel (argsort : List Int → List Nat) (dt : Nat) (indexes : List (List Val)) (by_ : List Val) (cols : List (List Nat)) (scores : List Int) :
    Except Err (List OutRow) :=
  if (rowsOf cols).isEmpty then .ok [] else                                         -- lines 78-79
  let ns := nIndices dt cols
  let prod : Nat := ns.prod % 2 ^ 64                                                      -- np.prod is a uint64
  if prod ≥ 18446744073709551615 then .error .assertion else                        -- line 85
  match fitIntegerType (prod : Int) false with                                              -- lines 86-87
  | .error e => .error e
  | .ok t =>
    let newIndex : List Int := (rowsOf cols).map (fun r => (encode dt t.bits ns r : Int))
    match gather scores (argsort newIndex) with                                     -- lines 93-96
    | .error e => .error e
    | .ok ss => match gather newIndex (argsort newIndex) with                       -- line 97
      | .error e => .error e
      | .ok si => match unique si ss with
        | .error e => .error e
        | .ok groups =>
          if ns.tail.any (· == 0) then .error .valueError else                      -- line 101: division by zero in npdecode; int(nan), line 112
          sequence (groups.map (fun g => match labelsOf indexes (npdecode g.1.toNat ns) with
            | .error e => .error e
            | .ok labels => .ok ⟨labels, by_, g.2.1, g.2.2⟩))

/-- the type of the table of indices (h5io.py lines 260-268) -/
def indexedBits (indexes : List (List Val)) : Except Err Nat :=
  match fitIntegerType ((indexes.map List.length).foldl max 0 : Nat) false with
  | .error e => .error e
  | .ok t => .ok t.bits

/-- the loop over the levels, lines 70-116 -/
def collapseLoop (argsort : List Int → List Nat) (dt : Nat) (indexes : List (List Val)) (F : File) (scores : List Int) : List (List Val × Nat) → Except Err (List (List OutRow))
  | [] => .ok []
  | p :: ps =>
    match F.byIndex[p.2]? with                                                      -- line 72
    | none => .error .indexError
    | some iv => match F.regs.lookup p.1 with                                       -- lines 74-77
      | none => .error .keyError
      | some cols => match collapseLevel argsort dt indexes p.1 cols (npSlice scores iv.1.toNat iv.2.toNat) with
        | .error e => .error e
        | .ok out => match collapseLoop argsort dt indexes F scores ps with
          | .error e => .error e
          | .ok outs => .ok (out :: outs)

/-- `collapse`, lines 61-121: the rows of the csv file -/
def collapse (argsort : List Int → List Nat) (indexes : List (List Val)) (F : File) (scores : List Int) : Except Err (List OutRow) :=
  match indexedBits indexes with
  | .error e => .error e
  | .ok dt => match collapseLoop argsort dt indexes F scores F.bys.zipIdx with
    | .error e => .error e
    | .ok outs => .ok outs.flatten

end ABX.Analyze
