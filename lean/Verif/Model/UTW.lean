import Verif.Model.Base
import Verif.Model.F64
/-!
Model of ABXpy/distances/metrics/utw.py.

`r` is the rounding of the operations of lines 41: the identity for exact arithmetic, `F64.rnd` for float64.  The sums (lines 32, 34) are exact.
`div` is applied to pairs of frames: a function on arrays as in the docstring, row by row.
-/
namespace ABX.UTW

/-- line 41: `l2[k]` -/
def l2 (r : ℚ → ℚ) (n1 n2 k : Nat) : ℚ := r (r ((n1 : ℚ) / n2) * ((k : ℚ) + 1 / 2))

structure Coords where
  iHalf : List Int
  jHalf : List Nat
  iWhole : List Int
  jWhole : List Nat

/-- `distance_coordinates`, lines 38-51 -/
def distanceCoordinates (r : ℚ → ℚ) (n1 n2 : Nat) : Except Err Coords :=
  if ¬ n1 ≤ n2 then .error .assertion                                              -- line 39
  else if n2 = 0 then .error .zeroDivision                                         -- line 41
  else
    let l3 : Nat → Int := fun k => ⌊l2 r n1 n2 k⌋                                  -- line 42
    let integers := (List.range n2).filter (fun k => l2 r n1 n2 k = (l3 k : ℚ))    -- line 43
    let others := (List.range n2).filter (fun k => l2 r n1 n2 k ≠ (l3 k : ℚ))      -- line 44
    .ok ⟨integers.map (fun k => l3 k - 1) ++ integers.map l3, integers ++ integers, others.map l3, others⟩   -- lines 45-50

/-- numpy indexing with an integer: a negative index counts from the end -/
def npGet {φ : Type} (x : List φ) (i : Int) : Except Err φ :=
  let i' := if i < 0 then i + x.length else i
  if i' < 0 then .error .indexError
  else match x[i'.toNat]? with
    | none => .error .indexError
    | some v => .ok v

/-- `np.sum(div(x[i, :], y[j, :]))` -/
def sumDiv {φ : Type} (div : φ → φ → ℚ) (x y : List φ) : List Int → List Nat → Except Err ℚ
  | i :: is, j :: js =>
    match npGet x i, npGet y j with
    | .ok a, .ok b => match sumDiv div x y is js with
      | .ok s => .ok (div a b + s)
      | .error e => .error e
    | .error e, _ => .error e
    | _, .error e => .error e
  | _, _ => .ok 0

/-- `utw`, lines 3-35, after the exchange of lines 24-26; the tests of lines 31 and 33 avoid sums over nothing, which are 0 -/
def utwOrdered {φ : Type} (r : ℚ → ℚ) (div : φ → φ → ℚ) (x y : List φ) : Except Err ℚ :=
  match distanceCoordinates r x.length y.length with
  | .error e => .error e
  | .ok c => match sumDiv div x y c.iHalf c.jHalf with
    | .error e => .error e
    | .ok h => match sumDiv div x y c.iWhole c.jWhole with
      | .error e => .error e
      | .ok w => .ok (h / 2 + w)

/-- `utw`, lines 3-35 -/
def utw {φ : Type} (r : ℚ → ℚ) (div : φ → φ → ℚ) (x y : List φ) : Except Err ℚ :=
  if x.length > y.length then utwOrdered r div y x else utwOrdered r div x y

end ABX.UTW
