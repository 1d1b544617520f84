import Verif.Model.Base
/-!
Model of `ABXpy/h5tools/h52np.py`: buffered reading of a HDF5 dataset
(`H52NPbuffer`, lines 83-208, and `H5dataset2NPbuffer`, lines 211-280, which differs only by
the start and end indices).
Simplifications: the file is open; numpy handles overlapping slice copies correctly
(line 170); the refill policy of lines 159-160 is a parameter `pol bufIx bufLen`.
-/
namespace ABX.H52NP

/-- the attributes of a reader object -/
structure RBuf (α : Type) where
  ds : List α        -- rows of self.dataset
  dsIx : Nat         -- self.dataset_ix, lines 99 / 231, 235
  nRows : Nat        -- self.n_rows (= self.dataset_end), lines 95 / 232-237
  bufLen : Nat       -- self.buf_len, lines 108 / 246
  buf : List α       -- self.buf, lines 112 / 250
  bufIx : Nat        -- self.buf_ix: number of free rows at the front, lines 111 / 249
  deriving DecidableEq, Repr

/-- refill policy: `pol buf_ix buf_len` says whether the occupied portion is too small -/
abbrev Policy := Nat → Nat → Bool

/-- the policy of lines 159-160, `1. - buf_ix/buf_len < 0.25`, in exact arithmetic -/
def quarter : Policy := fun ix len => 4 * (len - ix) < len

/-- `refill_buffer`, lines 154-175 / 259-280 -/
def RBuf.refill (pol : Policy) (b : RBuf α) : Except Err (RBuf α) :=
  if b.dsIx = b.nRows then .ok b                                        -- line 155
  else if b.bufLen = 0 then .error .zeroDivision                         -- line 159
  else if pol b.bufIx b.bufLen then                                      -- line 160
    let nextIx := b.dsIx + b.bufIx                                       -- line 163
    let nextBufIx := nextIx - b.nRows           -- lines 164, 167 (max with 0)
    let amount := b.bufLen - b.bufIx                                     -- line 165
    let nextIx := min nextIx b.nRows                                     -- line 168
    match npAssign b.buf nextBufIx (nextBufIx + amount) (b.buf.drop b.bufIx) with   -- line 170
    | .error e => .error e
    | .ok buf =>
      match npAssign buf (nextBufIx + amount) b.bufLen (npSlice b.ds b.dsIx nextIx) with -- line 172
      | .error e => .error e
      | .ok buf => .ok { b with buf := buf, bufIx := nextBufIx, dsIx := nextIx }     -- lines 174-175
  else .ok b

/-- `isempty`, lines 184-186 -/
def RBuf.isEmpty (b : RBuf α) : Bool := b.dsIx == b.nRows && b.bufIx == b.bufLen

/-- `__init__` of `H5dataset2NPbuffer` (lines 214-252) for `indexes = (start, stop)`; the plain
`H52NPbuffer` (lines 84-114) is the case `start = 0`, `stop = ds.length`. -/
def RBuf.create (zero : α) (pol : Policy) (ds : List α) (start stop bufLen : Nat) : Except Err (RBuf α) :=
  RBuf.refill pol { ds, dsIx := start, nRows := stop, bufLen, buf := List.replicate bufLen zero, bufIx := bufLen }

/-- the loop of `read`, lines 134-151; `acc` is `data` concatenated so far -/
def RBuf.readLoop (pol : Policy) (fuel : Nat) (b : RBuf α) (amount found : Nat) (acc : List α) :
    Except Err (RBuf α × List α) :=
  if found < amount ∧ b.isEmpty = false then                             -- line 134
    match fuel with
    | 0 => .error .diverge
    | fuel + 1 =>
      let needed := amount - found                                       -- line 135
      let inBuf := b.bufLen - b.bufIx                                    -- line 136
      let next := if inBuf > needed then b.bufIx + needed else b.bufLen  -- lines 137-143
      let found := if inBuf > needed then amount else found + inBuf
      match RBuf.refill pol { b with bufIx := next } with                 -- lines 148-151
      | .error e => .error e
      | .ok b' => RBuf.readLoop pol fuel b' amount found (acc ++ npSlice b.buf b.bufIx next) -- line 147
  else .ok (b, acc)

/-- `read(amount)`, lines 118-152 (`none` is the default argument).  Fuel: one iteration per row
still to be read, plus one, is enough. -/
def RBuf.read (pol : Policy) (b : RBuf α) (amount : Option Int) : Except Err (RBuf α × List α) :=
  match amount with
  | some a =>
    if a ≤ 0 then .error .valueError                                      -- lines 122-124
    else if b.isEmpty then .error .stopIteration                          -- lines 129-130
    else RBuf.readLoop pol (b.bufLen + b.nRows + 1) b a.toNat 0 []
  | none =>
    if b.isEmpty then .error .stopIteration
    else if b.bufLen - b.bufIx = 0 then .error .valueError   -- np.concatenate([]), line 152
    else RBuf.readLoop pol (b.bufLen + b.nRows + 1) b (b.bufLen - b.bufIx) 0 []     -- lines 126-127

/-- `for chunk in reader`: `__next__` (lines 177-181) until StopIteration; any other exception
propagates. -/
def RBuf.iterate (pol : Policy) (fuel : Nat) (b : RBuf α) : Except Err (List (List α)) :=
  match fuel with
  | 0 => .error .diverge
  | fuel + 1 => match b.read pol none with
    | .error .stopIteration => .ok []
    | .error e => .error e
    | .ok (b, chunk) => match RBuf.iterate pol fuel b with
      | .error e => .error e
      | .ok cs => .ok (chunk :: cs)

/-- `current_tail`, lines 198-201: `self.buf[-1, 0]` -/
def RBuf.currentTail (b : RBuf α) : Except Err α :=
  match b.buf.getLast? with
  | none => .error .indexError
  | some x => .ok x

/-- `nb_lower_than`, lines 205-208: `bisect_right` of the buffered (sorted) rows, i.e. the length of
the longest prefix of elements `≤ x` when the buffer is sorted (that is the only use). -/
def RBuf.nbLowerThan (le : α → α → Bool) (b : RBuf α) (x : α) : Nat :=
  ((b.buf.drop b.bufIx).takeWhile (fun y => le y x)).length

end ABX.H52NP
