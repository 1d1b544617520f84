import Verif.Model.Distance
import Verif.Model.CommandLine
/-!
Model of ABXpy/distances/example_distances.py (the distances given as examples for `-d module.function`), used as distance.py 81-87 and
distances.py 245-257 use them.  Numbers as in `Model/Distance.lean`.
-/
namespace ABX.Distance
open Metrics (Mat)
open CommandLine (Fun)
noncomputable section

/-- an item: its number of frames and its features -/
abbrev Item (d : Nat) := Σ n : Nat, Mat n d

/-- `dtw.dtw(x, y, metric)` or `dtw.dtw(x, y, metric, normalized=b)`, dtw.pyx line 26: the argument `normalized` has no default value -/
def dtwCall {n m d : Nat} (metric : Mat n d → Mat m d → Except Err (Mat n m)) (junk : Nat → Nat → ℝ) (x : Mat n d) (y : Mat m d) :
    Option Bool → Except Err (Option (WithTop ℝ))
  | none => .error .typeError
  | some b =>
    if n = 0 ∨ m = 0 then .error .valueError                                                       -- dtw.pyx lines 27-28
    else withMetric metric junk x y b

/-- `dtw_cosine` (lines 7-24) and `dtw_kl_divergence` (lines 27-35), with the distance of frames `metric` -/
def exampleDistance {n m d : Nat} (metric : Mat n d → Mat m d → Except Err (Mat n m)) (junk : Nat → Nat → ℝ) (x : Mat n d) (y : Mat m d) :
    Except Err (Option (WithTop ℝ)) :=
  if 0 < n ∧ 0 < m then dtwCall metric junk x y none                                                -- lines 16, 30
  else if n = m then .ok (some ((0 : ℝ) : WithTop ℝ))
  else .ok (some ⊤)

/-- `dtw_cosine` as a distance function: it does not take the argument `normalized` -/
def dtwCosine (d : Nat) (junk : Nat → Nat → ℝ) : Fun (Item d) (Option (WithTop ℝ)) :=
  ⟨.never, fun x y _ => exampleDistance Metrics.cosineDistance junk x.2 y.2⟩

/-- `dtw_kl_divergence` as a distance function -/
def dtwKlDivergence (d : Nat) (eps : ℝ) (junk : Nat → Nat → ℝ) : Fun (Item d) (Option (WithTop ℝ)) :=
  ⟨.never, fun x y _ => exampleDistance (fun x y => .ok (Metrics.klDivergence eps true true true x y)) junk x.2 y.2⟩

/-- `default_distance` and `dtw_kl_distance` of distance.py as distance functions -/
def defaultFun (d : Nat) (junk : Nat → Nat → ℝ) : Fun (Item d) (Option (WithTop ℝ)) := ⟨.always, fun x y b => defaultDistance junk x.2 y.2 b⟩
def klFun (d : Nat) (eps : ℝ) (junk : Nat → Nat → ℝ) : Fun (Item d) (Option (WithTop ℝ)) := ⟨.default true, fun x y b => klDistance eps junk x.2 y.2 b⟩

end
end ABX.Distance
