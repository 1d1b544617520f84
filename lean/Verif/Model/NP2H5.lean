import Verif.Model.Base
/-!
Model of `ABXpy/h5tools/np2h5.py`: buffered writing to a HDF5 dataset.
A row of the dataset is a value of an arbitrary type `α`, `zero` is the fill value.
Simplification: numbers of columns and item types are not represented (all rows have
the shape of the dataset), the file is always open inside the session.
-/
namespace ABX.NP2H5

/-- `NP2H5buffer`, np2h5.py lines 95-158.  `data` is the content of the HDF5 dataset. -/
structure Buf (α : Type) where
  name : String         -- group + '/' + dataset, line 129
  fixed : Bool          -- self.fixed_size, line 110
  bufLen : Nat          -- self.buf_len, line 121
  buf : List α          -- self.buf (array of buf_len rows), line 122
  bufIx : Nat           -- self.buf_ix, line 123
  dsIx : Nat            -- self.dataset_ix, line 126
  nRows : Nat           -- self.n_rows, line 156
  data : List α         -- rows of self.dataset in the file
  deriving DecidableEq, Repr

/-- `NP2H5buffer.__init__`, lines 99-158, with the arguments that matter here.
`existing` is the dataset of that name already in the file, if any; `bufLen` is the
result of `nb_lines` (line 121). -/
def Buf.create (zero : α) (name : String) (existing : Option (List α)) (nRows bufLen : Nat)
    (overwrite fixed : Bool) : Except Err (Buf α) :=
  if nRows = 0 ∧ fixed = true then .error .valueError            -- lines 104-106
  else if overwrite = true ∧ fixed = false then .error .valueError -- lines 107-109
  else match existing with
    | some d =>                                                   -- line 129
      if overwrite then
        if d.length ≠ nRows then .error .ioError                   -- lines 132-134
        else .ok { name, fixed, bufLen, buf := List.replicate bufLen zero, bufIx := 0, dsIx := 0,
                   nRows, data := d }
      else .error .ioError                                        -- lines 135-137
    | none =>                                                     -- lines 138-153
      .ok { name, fixed, bufLen, buf := List.replicate bufLen zero, bufIx := 0, dsIx := 0, nRows,
            data := List.replicate nRows zero }

/-- the loop `while target_ix >= self.buf_len`, lines 176-188; returns the final object,
the remaining data and `target_ix`. -/
def Buf.writeLoop (fuel : Nat) (b : Buf α) (data : List α) (target : Nat) :
    Except Err (Buf α × List α × Nat) :=
  if b.bufLen ≤ target then
    match fuel with
    | 0 => .error .diverge
    | fuel + 1 =>
      let space := b.bufLen - b.bufIx                              -- line 178
      match npAssign b.buf b.bufIx b.bufLen (data.take space) with -- line 179
      | .error e => .error e
      | .ok buf =>
        match h5Assign b.data b.dsIx (b.dsIx + b.bufLen) buf with  -- lines 181-183
        | .error e => .error e
        | .ok ds =>
          Buf.writeLoop fuel { b with buf := buf, data := ds, dsIx := b.dsIx + b.bufLen, bufIx := 0 }
            (data.drop space) (target - b.bufLen)                  -- lines 184-188
  else .ok (b, data, target)

/-- first part of `NP2H5buffer.write`, lines 165-174: make a dataset without fixed size
big enough. -/
def Buf.grow (zero : α) (b : Buf α) (target : Nat) : Except Err (Buf α) :=
  if b.fixed then .ok b                                             -- line 167
  else if b.bufLen = 0 then .error .zeroDivision                    -- `//` of line 169
  else
    let need := b.dsIx + b.bufLen * (target / b.bufLen)             -- lines 168-169
    if need > b.nRows then                                          -- line 170
      .ok { b with nRows := need, data := h5Resize zero b.data need } -- lines 171-174
    else .ok b

/-- second part of `NP2H5buffer.write`, lines 175-191. -/
def Buf.fill (b : Buf α) (data : List α) (target : Nat) : Except Err (Buf α) :=
  match Buf.writeLoop (target + 1) b data target with
  | .error e => .error e
  | .ok (b, data, target) =>
    match npAssign b.buf b.bufIx target data with                   -- line 190
    | .error e => .error e
    | .ok buf => .ok { b with buf := buf, bufIx := target }          -- line 191

/-- `NP2H5buffer.write`, lines 160-191. -/
def Buf.write (zero : α) (b : Buf α) (data : List α) : Except Err (Buf α) :=
  let target := b.bufIx + data.length                               -- line 165
  match b.grow zero target with
  | .error e => .error e
  | .ok b => b.fill data target

/-- `NP2H5buffer.flush`, lines 193-202. -/
def Buf.flush (zero : α) (b : Buf α) : Except Err (Buf α) :=
  if b.bufIx > 0 then                                               -- line 195
    let e := b.dsIx + b.bufIx                                       -- line 197
    let ds := if b.fixed = false ∧ e > b.nRows then h5Resize zero b.data e else b.data -- 198-199
    match h5Assign ds b.dsIx e (b.buf.take b.bufIx) with            -- line 200
    | .error e => .error e
    | .ok ds => .ok { b with data := ds, dsIx := e, bufIx := 0 }     -- lines 201-202
  else .ok b

/-- `NP2H5buffer.iscomplete`, lines 208-213. -/
def Buf.isComplete (b : Buf α) : Bool := if b.fixed then b.dsIx == b.nRows else true

/-- What the user does with one writer object between `add_dataset` and the end of the
`with` block. -/
inductive Op (α : Type) where
  | write (rows : List α)
  | flush
  deriving DecidableEq, Repr

def Buf.step (zero : α) (b : Buf α) : Op α → Except Err (Buf α)
  | .write rows => b.write zero rows
  | .flush => b.flush zero

/-- a sequence of calls; stops at the first exception -/
def Buf.run (zero : α) (b : Buf α) : List (Op α) → Except Err (Buf α)
  | [] => .ok b
  | o :: os => match b.step zero o with
    | .error e => .error e
    | .ok b => b.run zero os

/-- a session: several datasets of one file, calls addressed to dataset number `i`
(an index out of range cannot occur in python, it is an object reference). -/
def runSession (zero : α) (bs : List (Buf α)) : List (Nat × Op α) → Except Err (List (Buf α))
  | [] => .ok bs
  | (i, o) :: os => match bs[i]? with
    | none => .error .indexError
    | some b => match b.step zero o with
      | .error e => .error e
      | .ok b => runSession zero (bs.set i b) os

/-- flush every buffer, lines 50-51 of `__exit__` -/
def flushAll (zero : α) : List (Buf α) → Except Err (List (Buf α))
  | [] => .ok []
  | b :: bs => match b.flush zero with
    | .error e => .error e
    | .ok b => match flushAll zero bs with
      | .error e => .error e
      | .ok bs => .ok (b :: bs)

/-- `NP2H5.__exit__` when no exception escaped the block (`eValue is None`),
lines 47-79: flush, then raise a Warning unless all the datasets are complete. -/
def exitOk (zero : α) (bs : List (Buf α)) : Except Err (List (Buf α)) :=
  match flushAll zero bs with
  | .error e => .error e
  | .ok bs => if bs.all Buf.isComplete then .ok bs else .error .warning  -- lines 69-71

/-- `NP2H5buffer.delete`, lines 204-206: `del self.dataset` only removes the attribute of
the python object; the dataset in the file is untouched. -/
def Buf.delete (b : Buf α) : Buf α := b

/-- flush as far as possible; used for the exception path, where an exception of a flush
is swallowed (lines 72-77) -/
def flushSome (zero : α) : List (Buf α) → List (Buf α) × Bool
  | [] => ([], true)
  | b :: bs => match b.flush zero with
    | .error _ => (b :: bs, false)
    | .ok b => let (bs, ok) := flushSome zero bs; (b :: bs, ok)

/-- `NP2H5.__exit__` when an exception escaped the block, lines 47-79: what remains in
the file (dataset per buffer). -/
def exitErr (zero : α) (bs : List (Buf α)) : List (Buf α) :=
  match flushSome zero bs with
  | (bs, true) => bs.map Buf.delete      -- lines 58-66
  | (bs, false) => bs                     -- lines 72-77

/-- what a reader finds in the HDF5 file under the names of the datasets of a session -/
def fileOf (bs : List (Buf α)) : List (String × List α) := bs.map (fun b => (b.name, b.data))

/-- `nb_lines(item_size, n_columns, size_in_mem)`, lines 216-218:
`int(round(size_in_mem * 1000. / (item_size * n_columns)))` with python 3's
round-half-to-even.  Simplification: the quotient is taken exactly instead of in floating
point, sizes are natural numbers. -/
def nbLines (itemSize nCols sizeKB : Nat) : Except Err Nat :=
  if itemSize * nCols = 0 then .error .zeroDivision
  else .ok (roundDiv (sizeKB * 1000) (itemSize * nCols))

end ABX.NP2H5
