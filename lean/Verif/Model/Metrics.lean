import Verif.Model.Base
import Mathlib.Analysis.SpecialFunctions.Log.Basic
import Mathlib.Analysis.SpecialFunctions.Trigonometric.Inverse
import Mathlib.Analysis.Real.Sqrt
import Mathlib.Algebra.BigOperators.Fin
/-!
Model of ABXpy/distances/metrics/cosine.py and ABXpy/distances/metrics/kullback_leibler.py.

Numbers are exact real numbers; `none` stands for everything else a numpy operation can return (NaN, infinite, complex).  It is absorbing, except that the entries of
an array can be overwritten.  A matrix has one frame per row.  The assertions on the dtype (both arrays float64, or both float32) are assumed to hold.
-/
namespace ABX.Metrics
open Finset

/-- a numpy number -/
abbrev Num := Option ℝ

abbrev Mat (n d : Nat) := Fin n → Fin d → Num

noncomputable section

def nadd (a b : Num) : Num := Option.map₂ (· + ·) a b
def nsub (a b : Num) : Num := Option.map₂ (· - ·) a b
def nmul (a b : Num) : Num := Option.map₂ (· * ·) a b

/-- `np.sum` -/
def nsum {d : Nat} (v : Fin d → Num) : Num :=
  haveI := Classical.propDecidable (∀ k, (v k).isSome)
  if h : ∀ k, (v k).isSome then some (∑ k, (v k).get (h k)) else none

/-- division: by zero it gives NaN or an infinite number -/
def ndiv (a b : Num) : Num := a.bind (fun a => b.bind (fun b => haveI := Classical.propDecidable (b = 0); if b = 0 then none else some (a / b)))

/-- `np.sqrt` -/
def nsqrt (a : Num) : Num := a.bind (fun a => haveI := Classical.propDecidable (0 ≤ a); if 0 ≤ a then some (Real.sqrt a) else none)

/-- `np.log`: of zero it gives minus infinity, of a negative number NaN -/
def nlog (a : Num) : Num := a.bind (fun a => haveI := Classical.propDecidable (0 < a); if 0 < a then some (Real.log a) else none)

/-- `np.lib.scimath.arccos`: complex outside of [-1, 1] -/
def narccos (a : Num) : Num := a.bind (fun a => haveI := Classical.propDecidable (-1 ≤ a ∧ a ≤ 1); if -1 ≤ a ∧ a ≤ 1 then some (Real.arccos a) else none)

/-- `a == 0.` -/
def isZero (a : Num) : Prop := a = some 0

/-! ### cosine.py -/

/-- lines 18-19: the norms of the frames -/
def norms {n d : Nat} (x : Mat n d) (i : Fin n) : Num := nsqrt (nsum (fun k => nmul (x i k) (x i k)))

/-- lines 22-28 -/
def angles {n m d : Nat} (x : Mat n d) (y : Mat m d) : Mat n m := fun i j =>
  ndiv (narccos (ndiv (nsum (fun k => nmul (x i k) (y j k))) (nmul (norms x i) (norms y j)))) (some Real.pi)

/-- lines 30-33: the entries of the null frames -/
def fixNull {n m : Nat} (x2 : Fin n → Num) (y2 : Fin m → Num) (a : Mat n m) : Mat n m :=
  haveI : DecidablePred isZero := fun _ => Classical.propDecidable _
  let a : Mat n m := fun i j => if isZero (x2 i) then some 1 else a i j            -- line 30
  let a : Mat n m := fun i j => if isZero (y2 j) then some 1 else a i j            -- line 31
  fun i j => if isZero (x2 i) ∧ isZero (y2 j) then some 0 else a i j               -- lines 32-33

/-- `cosine_distance`, lines 15-35 -/
def cosineDistance {n m d : Nat} (x : Mat n d) (y : Mat m d) : Except Err (Mat n m) :=
  let a := fixNull (norms x) (norms y) (angles x y)
  haveI := Classical.propDecidable (∀ i j, ∃ v, a i j = some v ∧ 0 ≤ v)
  if ∀ i j, ∃ v, a i j = some v ∧ 0 ≤ v then .ok a else .error .assertion          -- line 34

/-- `x /= x.sum(1).reshape(x.shape[0], 1)`, cosine.py lines 39-40, kullback_leibler.py lines 41-42 -/
def normalizeRows {n d : Nat} (x : Mat n d) : Mat n d := fun i k => ndiv (x i k) (nsum (x i))

/-- `normalize_cosine_distance`, lines 38-41 -/
def normalizeCosineDistance {n m d : Nat} (x : Mat n d) (y : Mat m d) : Except Err (Mat n m) := cosineDistance (normalizeRows x) (normalizeRows y)

/-! ### kullback_leibler.py -/

/-- `__kl_divergence`, lines 13-18 -/
def kl0 {n m d : Nat} (x : Mat n d) (y : Mat m d) : Mat n m := fun i j =>
  nsub (nsum (fun k => nmul (x i k) (nlog (x i k)))) (nsum (fun k => nmul (x i k) (nlog (y j k))))

/-- lines 44-48: add `eps` and normalize -/
def threshold {n d : Nat} (eps : ℝ) (x : Mat n d) : Mat n d := normalizeRows (fun i k => nadd (x i k) (some eps))

/-- what `kl_divergence` makes of an argument, lines 38-48 -/
def klPrepare {n d : Nat} (eps : ℝ) (thresholded normalize : Bool) (x : Mat n d) : Mat n d :=
  let x := if thresholded || normalize then normalizeRows x else x
  if thresholded then threshold eps x else x

/-- `kl_divergence`, lines 21-54 -/
def klDivergence {n m d : Nat} (eps : ℝ) (thresholded symmetrized normalize : Bool) (x : Mat n d) (y : Mat m d) : Mat n m :=
  let x := klPrepare eps thresholded normalize x
  let y := klPrepare eps thresholded normalize y
  if symmetrized then fun i j => nadd (nmul (some 0.5) (kl0 x y i j)) (nmul (some 0.5) (kl0 y x j i)) else kl0 x y

/-- `np.all(x.sum(1) != 0.)`; NaN is different from 0 -/
def sumsOk {n d : Nat} (x : Mat n d) : Prop := ∀ i, nsum (x i) ≠ some 0

/-- lines 72-82 of `js_divergence` -/
def js0 {n m d : Nat} (x : Mat n d) (y : Mat m d) : Mat n m := fun i j =>
  let mean : Fin d → Num := fun k => ndiv (nadd (x i k) (y j k)) (some 2)
  let xm := nsum (fun k => nmul (x i k) (nlog (mean k)))
  let ym := nsum (fun k => nmul (y j k) (nlog (mean k)))
  let xx := nsum (fun k => nmul (x i k) (nlog (x i k)))
  let yy := nsum (fun k => nmul (y j k) (nlog (y j k)))
  nadd (nmul (some 0.5) (nsub xx xm)) (nmul (some 0.5) (nsub yy ym))

/-- `js_divergence`, lines 57-83 -/
def jsDivergence {n m d : Nat} (normalize : Bool) (x : Mat n d) (y : Mat m d) : Except Err (Mat n m) :=
  haveI := Classical.propDecidable (sumsOk x ∧ sumsOk y)
  if sumsOk x ∧ sumsOk y then
    .ok (if normalize then js0 (normalizeRows x) (normalizeRows y) else js0 x y)
  else .error .assertion

/-- `sqrt_js_divergence`, lines 87-88 -/
def sqrtJsDivergence {n m d : Nat} (x : Mat n d) (y : Mat m d) : Except Err (Mat n m) :=
  (jsDivergence true x y).map (fun a i j => nsqrt (a i j))

/-- lines 104-111 of `hellinger_distance` -/
def hellinger0 {n m d : Nat} (x : Mat n d) (y : Mat m d) : Mat n m := fun i j =>
  nmul (ndiv (some 1) (nsqrt (some 2)))
    (nsqrt (nsum (fun k => nmul (nsub (nsqrt (x i k)) (nsqrt (y j k))) (nsub (nsqrt (x i k)) (nsqrt (y j k))))))

/-- `hellinger_distance`, lines 91-111 -/
def hellingerDistance {n m d : Nat} (x : Mat n d) (y : Mat m d) : Except Err (Mat n m) :=
  haveI := Classical.propDecidable (sumsOk x ∧ sumsOk y)
  if sumsOk x ∧ sumsOk y then .ok (hellinger0 (normalizeRows x) (normalizeRows y)) else .error .assertion

end
end ABX.Metrics

/-! ### the features in memory

The metrics below divide their arguments in place, thus change the features kept by `run_distance_job` (distances.py lines 266-292). -/
namespace ABX.Metrics
noncomputable section

/-- the features of the items, in memory; item `i` has `len i` frames of dimension `d` -/
abbrev Mem {ι : Type} (len : ι → Nat) (d : Nat) := (i : ι) → Mat (len i) d

variable {ι : Type} [DecidableEq ι] {len : ι → Nat} {d : Nat}

/-- `x /= x.sum(1).reshape(x.shape[0], 1)` for the array of item `i` -/
def inPlace (mem : Mem len d) (i : ι) : Mem len d := Function.update mem i (normalizeRows (mem i))

/-- the metrics which normalize their arguments (with their parameters) -/
inductive Metric where
  | kl (eps : ℝ) (thresholded symmetrized : Bool)
  | js
  | sqrtJs
  | hellinger
  | normalizeCosine

/-- a call on the items `a` and `x`: the memory after it and the result.  The normalizations are in place (kullback_leibler.py lines 41-42, 70-71, 102-103; cosine.py lines 39-40),
the other operations make new arrays. -/
def call (M : Metric) (mem : Mem len d) (a x : ι) : Mem len d × Except Err (Mat (len a) (len x)) :=
  let mem' := inPlace (inPlace mem a) x
  haveI := Classical.propDecidable (sumsOk (mem a) ∧ sumsOk (mem x))
  match M with
  | .kl eps thresholded symmetrized =>
    let p : {n : Nat} → Mat n d → Mat n d := fun x => if thresholded then threshold eps x else x
    (mem', .ok (if symmetrized then fun i j => nadd (nmul (some 0.5) (kl0 (p (mem' a)) (p (mem' x)) i j)) (nmul (some 0.5) (kl0 (p (mem' x)) (p (mem' a)) j i))
      else kl0 (p (mem' a)) (p (mem' x))))
  | .js => if sumsOk (mem a) ∧ sumsOk (mem x) then (mem', .ok (js0 (mem' a) (mem' x))) else (mem, .error .assertion)
  | .sqrtJs => if sumsOk (mem a) ∧ sumsOk (mem x) then (mem', .ok (fun i j => nsqrt (js0 (mem' a) (mem' x) i j))) else (mem, .error .assertion)
  | .hellinger => if sumsOk (mem a) ∧ sumsOk (mem x) then (mem', .ok (hellinger0 (mem' a) (mem' x))) else (mem, .error .assertion)
  | .normalizeCosine => (mem', cosineDistance (mem' a) (mem' x))

/-- the memory after a list of calls -/
def after (M : Metric) (mem : Mem len d) : List (ι × ι) → Mem len d
  | [] => mem
  | p :: ps => after M (call M mem p.1 p.2).1 ps

end
end ABX.Metrics
