import Verif.Model.Base
import Verif.Model.TypeFit
import Verif.Model.ExtSort
import Verif.Model.Score
/-!
Model of ABXpy/dbfun/dbfun_lookuptable.py (DBfun_LookupTable) and of the keys of ABXpy/h5tools/h5io.py (fused datasets).

A query or a row of inputs is a list of values, one per input; `indexes` is the list of the indexes of the inputs (`self.indexes[t]` for the type `t` of each input).
The outputs are datasets of rows `δ`; the dataset `indexed_outputs` is one of them, its encoding and decoding are not represented.  The code path (`self.code`) is not represented: line 145 looks
for `code` among the datasets of the file, where line 57 does not put it, so `self.code` is never set.
Line 97 (`synopsis in ('indexed_outputs')`, a test of a dictionary in a string) raises TypeError: no table can be created by this version (`create`).
The model of the other functions starts from an object loaded from an empty table (`empty`), as lines 52-112 create it without that test.
-/
namespace ABX.Lookup
open ExtSort

/-- 2^64 -/
def m64 : Nat := 18446744073709551616

/-- `np.cumprod` with an unsigned type of `m` values -/
def cumprod (m : Nat) : (acc : Nat) → List Nat → List Nat
  | _, [] => []
  | acc, n :: ns => (acc * n % m) :: cumprod m (acc * n % m) ns

/-- dbfun_lookuptable.py lines 133-135, h5io.py lines 293-294 -/
def keyWeights (m : Nat) (levels : List Nat) : List Nat := 1 :: (cumprod m 1 levels).dropLast

/-- dbfun_lookuptable.py line 286, h5io.py lines 330-331: the products wrap modulo `m`, `np.sum` of an unsigned type is computed in uint64 -/
def keyOf (m : Nat) (w v : List Nat) : Nat := ((w.zip v).map (fun p => p.1 * (p.2 % m) % m)).sum % m64

/-! ### h5io.py

`M` is the number of values of uint64, `m64`; it is a parameter so that Lean does not compute with it. -/

/-- lines 279-282: `max_key`, in uint64 -/
def fusedMaxKey (M : Nat) (levels dims : List Nat) : Nat :=
  (((levels.zip dims).map (fun p => p.1 ^ p.2 % M)).foldl (fun a b => a * b % M) 1 + (M - 1)) % M

/-- lines 283-287: the type of the keys -/
def fusedType (M : Nat) (levels dims : List Nat) : Except Err IntType :=
  if M ≤ fusedMaxKey M levels dims then .error .valueError
  else fitIntegerType (fusedMaxKey M levels dims) false

/-- the number of values of an unsigned type -/
def cap (t : IntType) : Nat := 2 ^ t.bits

/-- lines 291-292 -/
def fusedLevels (t : IntType) (levels dims : List Nat) : List Nat := (levels.zip dims).flatMap (fun p => List.replicate p.2 (p.1 % cap t))

/-- the key stored for a row of indices (`__compute_keys__`, lines 327-333, and the conversion when line 318 writes it) -/
def fusedKey (M : Nat) (levels dims : List Nat) (row : List Nat) : Except Err Nat :=
  match fusedType M levels dims with
  | .error e => .error e
  | .ok t => .ok (keyOf (cap t) (keyWeights (cap t) (fusedLevels t levels dims)) row % cap t)

/-! ### dbfun_lookuptable.py -/

/-- the creation of a table, lines 69-109 -/
def create (inTypesOk : Bool) (levels : List Nat) : Except Err Unit :=
  if ¬ inTypesOk then .error .valueError                                -- lines 69-72
  else if m64 ≤ levels.prod - 1 then .error .valueError                 -- lines 88-93
  else .error .typeError                                                -- line 97

structure Table (ν δ : Type) where
  indexes : List (List ν)
  keys : List Nat
  data : List (List δ)
  isEmpty : Bool
  isSorted : Bool

/-- an empty table with `nd` datasets, lines 53-55, 106-109, 194-230 -/
def empty {ν δ : Type} (indexes : List (List ν)) (nd : Nat) : Table ν δ := ⟨indexes, [], List.replicate nd [], true, false⟩

/-- `self.indexes[i_type].index(e)` -/
def indexOf {ν : Type} [DecidableEq ν] (index : List ν) (e : ν) : Except Err Nat := if e ∈ index then .ok (index.idxOf e) else .error .valueError

/-- `get_keys` for one row, lines 275-287; a row with too few values raises KeyError or IndexError (line 278 or 282) -/
def getKey {ν : Type} [DecidableEq ν] (indexes : List (List ν)) (row : List ν) : Except Err Nat :=
  if row.length < indexes.length then .error .keyError
  else match sequence ((indexes.zip row).map (fun p => indexOf p.1 p.2)) with
    | .error e => .error e
    | .ok v => .ok (keyOf m64 (keyWeights m64 (indexes.map List.length)) v)

/-- `write`, lines 234-271: each output is appended to its dataset -/
def Table.write {ν δ : Type} [DecidableEq ν] (zero : δ) (t : Table ν δ) (ins : List (List ν)) (outs : List (List δ)) : Except Err (Table ν δ) :=
  match sequence (ins.map (getKey t.indexes)) with                       -- line 237
  | .error e => .error e
  | .ok ks =>
    let old := t.keys.length                                             -- line 238
    let new := old + ks.length                                           -- line 239
    match sequence ((t.data.zip outs).map (fun p => h5Assign (h5Resize zero p.1 new) old new p.2)) with   -- lines 249-271
    | .error e => .error e
    | .ok data => .ok { t with keys := t.keys ++ ks, data := data }

/-- `fill`, lines 167-192, with `iterate=False` -/
def Table.fill {ν δ : Type} [DecidableEq ν] (zero : δ) (t : Table ν δ) (append : Bool) (ins : List (List ν)) (outs : List (List δ)) : Except Err (Table ν δ) :=
  if ¬ t.isEmpty ∧ ¬ append then .error .ioError                         -- lines 168-170
  else { t with isEmpty := false, isSorted := false }.write zero ins outs   -- lines 180-192

/-- indexing with an array of positions -/
def takeAt {α : Type} (order : List Nat) (l : List α) : Except Err (List α) :=
  sequence (order.map (fun i => match l[i]? with | none => .error .indexError | some x => .ok x))

/-- `pack`, lines 296-314; `order` is the result of `numpy.argsort(keys)` (line 305) -/
def Table.pack {ν δ : Type} (order : List Nat) (t : Table ν δ) : Except Err (Table ν δ) :=
  match takeAt order t.keys with                                          -- line 306
  | .error e => .error e
  | .ok ks => match sequence (t.data.map (takeAt order)) with             -- lines 308-310
    | .error e => .error e
    | .ok data => .ok { t with keys := ks, data := data, isSorted := true }   -- line 312

/-- `numpy.searchsorted(self.keys, key)`, line 338 -/
def insertionPoint (keys : List Nat) (k : Nat) : Nat := Score.bisect (keys.map Int.ofNat) k keys.length 0 keys.length

/-- `evaluate`, lines 328-407: one list of rows per dataset -/
def Table.evaluate {ν δ : Type} [DecidableEq ν] (t : Table ν δ) (queries : List (List ν)) : Except Err (List (List δ)) :=
  if ¬ t.isSorted then .error .ioError                                    -- lines 330-333
  else match sequence (queries.map (getKey t.indexes)) with               -- line 336
    | .error e => .error e
    | .ok ks =>
      if t.keys = [] then .error .attributeError                          -- line 338; lines 158-159 set `self.keys` only if there is a key
      else
        let ips := ks.map (insertionPoint t.keys)                         -- line 338
        match takeAt ips t.keys with                                      -- line 344
        | .error e => .error e
        | .ok found =>
          if found ≠ ks then .error .runtimeError                         -- lines 344-349, 370-372
          else if queries = [] then .error .nameError                     -- line 407: `data` is not assigned
          else sequence (t.data.map (takeAt ips))                         -- lines 375-391, 403-404

end ABX.Lookup
