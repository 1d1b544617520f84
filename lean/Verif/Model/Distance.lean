import Verif.Model.DTW
import Verif.Model.Metrics
/-!
Model of `default_distance` and `dtw_kl_distance` (ABXpy/distance.py lines 13-47) on features: dynamic time warping (`Model/DTW.lean`) over the distances of frames (`Model/Metrics.lean`).
Numbers are exact real numbers.  When the distance of some frames is not a number, the result is `none`: what dynamic time warping makes of it is not followed further.
-/
namespace ABX.Distance
open Metrics (Mat)
noncomputable section

/-- an array for `dtw`, which uses no index out of range -/
def ext {n m : Nat} (D : Fin n → Fin m → ℝ) : Nat → Nat → ℝ := fun i j => if h : i < n ∧ j < m then D ⟨i, h.1⟩ ⟨j, h.2⟩ else 0

/-- distance.py lines 19-29 and 37-47 with the distance of frames `metric` -/
def withMetric {n m d : Nat} (metric : Mat n d → Mat m d → Except Err (Mat n m)) (junk : Nat → Nat → ℝ) (x : Mat n d) (y : Mat m d) (normalized : Bool) : Except Err (Option (WithTop ℝ)) :=
  if 0 < n ∧ 0 < m then
    match metric x y with
    | .error e => .error e
    | .ok a =>
      haveI := Classical.propDecidable (∀ i j, (a i j).isSome)
      if h : ∀ i j, (a i j).isSome then
        (DTW.dtw (· + ·) (fun v k => v / (k : ℝ)) junk (ext fun i j => (a i j).get (h i j)) n m normalized).map (fun v : ℝ => some (v : WithTop ℝ))
      else .ok none
  else if n = m then .ok (some ((0 : ℝ) : WithTop ℝ))
  else .ok (some ⊤)

/-- `default_distance`, lines 13-29 -/
def defaultDistance {n m d : Nat} (junk : Nat → Nat → ℝ) (x : Mat n d) (y : Mat m d) (normalized : Bool) : Except Err (Option (WithTop ℝ)) :=
  withMetric Metrics.cosineDistance junk x y normalized

/-- `dtw_kl_distance`, lines 31-47: `kl_divergence` with its default arguments; `eps` is that of the type of the features -/
def klDistance {n m d : Nat} (eps : ℝ) (junk : Nat → Nat → ℝ) (x : Mat n d) (y : Mat m d) (normalized : Bool) : Except Err (Option (WithTop ℝ)) :=
  withMetric (fun x y => .ok (Metrics.klDivergence eps true true true x y)) junk x y normalized

end
end ABX.Distance
