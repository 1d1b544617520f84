import Verif.Model.Pairs
/-!
Model of ABXpy/score.py, lines 51-120: scores of the triplets of a task.

A distance is a value of any type `δ` with a comparison `lt` (`<` of float64; `a > b` is `b < a`); `F64` below is the type of float64 with
exact rationals for the finite values.  Simplifications: checks of file names and default names (lines 64-73) are not modelled;
`np.searchsorted` is the plain binary search (numpy's also starts from the previous result, with the same result on sorted arrays).
Arithmetic: `base` is a numpy int64, so its square wraps; an int64 array compared with uint64 keys is compared in float64 (numpy's
common type of int64 and uint64).
-/
namespace ABX.Score
open ExtSort H52NP Task Pairs
variable {δ : Type}

/-- nearest float64 of an integer, ties to even (below 2^1024) -/
def toF64 (x : Int) : Int :=
  let n := x.natAbs
  let e := Nat.log2 n - 52
  let r : Int := (roundDiv n (2 ^ e) * 2 ^ e : Nat)
  if x < 0 then -r else r

/-- `np.searchsorted(l, key)`, side left: binary search between `lo` and `hi` -/
def bisect (l : List Int) (key : Int) : (fuel lo hi : Nat) → Nat
  | 0, lo, _ => lo
  | fuel + 1, lo, hi =>
    if lo < hi then
      let mid := lo + (hi - lo) / 2
      match l[mid]? with
      | none => lo
      | some v => if v < key then bisect l key fuel (mid + 1) hi else bisect l key fuel lo mid
    else lo

/-- `np.searchsorted(pairs, key)` for an int64 array and keys of type `t`, lines 110-112 -/
def searchsorted (t : IntType) (pairs : List Int) (key : Int) : Nat :=
  if t = ⟨64, false⟩ then bisect (pairs.map toF64) (toF64 key) pairs.length 0 pairs.length
  else bisect pairs key pairs.length 0 pairs.length

/-- `np.int8(dis_AX < dis_BX) - np.int8(dis_AX > dis_BX)`, lines 113-114 -/
def sign (lt : δ → δ → Bool) (x y : δ) : Int := (if lt x y then 1 else 0) - (if lt y x then 1 else 0)

/-- lines 102-114 for one triplet -/
def tripScore (lt : δ → δ → Bool) (t : IntType) (base : Int) (pairs : List Int) (dis : List δ) (d : Int × Int × Int) : Except Err Int :=
  match dis[searchsorted t pairs (pairKey t base (t.cast d.1) (t.cast d.2.2))]? with
  | none => .error .indexError
  | some x => match dis[searchsorted t pairs (pairKey t base (t.cast d.2.1) (t.cast d.2.2))]? with
    | none => .error .indexError
    | some y => .ok (sign lt x y)

/-- lines 100-119: the loop over the chunks of triplets; `scores` is the dataset -/
def scoreLoop (f : Int × Int × Int → Except Err Int) : List (List (Int × Int × Int)) → (idx : Nat) → (scores : List Int) → Except Err (List Int)
  | [], _, scores => .ok scores
  | c :: cs, idx, scores =>
    match sequence (c.map f) with
    | .error e => .error e
    | .ok s => match h5Assign scores idx (idx + c.length) s with
      | .error e => .error e
      | .ok scores => scoreLoop f cs (idx + c.length) scores

/-- lines 85-119 for the level `p.1`, number `p.2` -/
def scoreLevel (lt : δ → δ → Bool) (bufLen : Nat) (F : File) (P : PairFile) (dist : List δ) (p : List Val × Nat) (scores : List Int) :
    Except Err (List Int) :=
  match F.byIndex[p.2]? with
  | none => .error .indexError
  | some iv => match P.attrs.lookup p.1 with
    | none => .error .keyError
    | some (base, start, stop) =>
      match fitIntegerType (int64.cast ((base : Nat) ^ 2 - 1)) false with      -- lines 96-97
      | .error e => .error e
      | .ok t => match chunksOf (0, 0, 0) F.data iv.1.toNat iv.2.toNat bufLen with
        | .error e => .error e
        | .ok chunks =>
          scoreLoop (tripScore lt t base (npSlice P.data start.toNat stop.toNat) (npSlice dist start.toNat stop.toNat)) chunks iv.1.toNat scores

/-- the loop over the levels, lines 84-119 -/
def scoreLevels (lt : δ → δ → Bool) (bufLen : Nat) (F : File) (P : PairFile) (dist : List δ) : List (List Val × Nat) → List Int → Except Err (List Int)
  | [], scores => .ok scores
  | p :: ps, scores => match scoreLevel lt bufLen F P dist p scores with
    | .error e => .error e
    | .ok scores => scoreLevels lt bufLen F P dist ps scores

/-- `score`, lines 78-119: the dataset of scores -/
def score (lt : δ → δ → Bool) (bufLen : Nat) (F : File) (P : PairFile) (dist : List δ) : Except Err (List Int) :=
  scoreLevels lt bufLen F P dist F.bys.zipIdx (List.replicate F.data.length 0)

/-- float64: not a number, infinities, and finite values (any rational) -/
inductive F64 where
  | nan | ninf | fin (q : Rat) | pinf
  deriving DecidableEq

/-- `<` of float64 -/
def F64.lt : F64 → F64 → Bool
  | .nan, _ => false
  | _, .nan => false
  | .ninf, .ninf => false
  | .ninf, _ => true
  | .fin _, .ninf => false
  | .fin p, .fin q => decide (p < q)
  | .fin _, .pinf => true
  | .pinf, _ => false

end ABX.Score
