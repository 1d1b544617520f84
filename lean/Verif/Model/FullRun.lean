import Verif.Model.Items
import Verif.Model.Features
import Verif.Model.ExampleDistances
/-!
Model of the features of the example program: ABXpy/misc/items.py lines 61-75 (`generate_features`), what ABXpy/distances/distances.py lines 354-369 reads of them for the items of a
generated item file, and the distance of examples/complete_run.py lines 15-16.

The random frames are an argument: a list of recordings, each a list of frames.  Times are rational numbers (`np.linspace`: float64 numbers, of which only the comparison with 0 matters).
-/
namespace ABX.Items
open Database (Text)

/-- `np.linspace(0, 1, n)`, items.py line 72 -/
def linspace (n : Nat) : List ℚ := if n = 1 then [0] else (List.range n).map (fun i : Nat => (i : ℚ) / ((n - 1 : Nat) : ℚ))

/-- `generate_features`, lines 61-75, as `h5features.read` gives it back: the recording i is called 's<i>' -/
def genFeatures {ψ : Type} (recordings : List (List ψ)) : Distances.FeatFile ℚ ψ :=
  recordings.zipIdx.map (fun p => (String.ofList ('s' :: str p.2), (linspace p.1.length, p.1)))

/-- distances.py lines 354-368 for an item with the given record: file (line 359: `str(f)`), onset and offset.  Times that are not numbers cannot be compared. -/
def itemFeatures {ψ : Type} (F : Distances.FeatFile ℚ ψ) (r : Nat × List (Option Val)) : Except Err (List ψ) :=
  match r.2 with
  | [some f, some (.int on), some (.int off)] =>
    Distances.getRaw (fun x y => decide (x ≤ y)) F ⟨match f with | .str s => s | .int n => toString n, on, off⟩
  | _ => .error .typeError

/-- `dtw_cosine_distance(x, y, normalized)`, complete_run.py lines 15-16 -/
noncomputable def dtwCosineDistance {d : Nat} (junk : Nat → Nat → ℝ) (normalized : Bool) (x y : List (Fin d → ℝ)) : Except Err (Option (WithTop ℝ)) :=
  Distance.dtwCall Metrics.cosineDistance junk (fun i k => some (x.get i k)) (fun i k => some (y.get i k)) (some normalized)

/-- `<` of two distances; `none` is not a number -/
noncomputable def distLt : Option (WithTop ℝ) → Option (WithTop ℝ) → Bool
  | some x, some y => haveI := Classical.propDecidable (x < y); decide (x < y)
  | _, _ => false

end ABX.Items
