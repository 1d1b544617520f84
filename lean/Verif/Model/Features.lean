import Verif.Model.Workers
/-!
Model of the reading of the features: ABXpy/distances/distances.py, lines 157-171 (feature files) and 354-369 (`Features_Accessor.get_features_from_raw`).

A feature file is what `h5features.read` returns: two dictionaries with the same keys, the times and the frames of every recording, here one association list.
Times are of any type with a comparison `le` (float64); frames of any type.  The conversion of the keys to text (lines 343-351) is left out.
-/
namespace ABX.Distances
open ExtSort Task
variable {τ ψ : Type}

abbrev FeatFile (τ ψ : Type) := List (String × (List τ × List ψ))

/-- lines 158-170: the feature files are put together; a recording in two of them raises an AssertionError -/
def mergeFeatures : List (FeatFile τ ψ) → (acc : FeatFile τ ψ) → Except Err (FeatFile τ ψ)
  | [], acc => .ok acc
  | f :: fs, acc => if f.any (fun p => acc.any (fun q => q.1 == p.1)) then .error .assertion else mergeFeatures fs (acc ++ f)

/-- an item of the table of a level -/
structure Item (τ : Type) where
  file : String
  onset : τ
  offset : τ

/-- lines 359-368: the frames of an item -/
def getRaw (le : τ → τ → Bool) (F : FeatFile τ ψ) (r : Item τ) : Except Err (List ψ) :=
  match F.lookup r.file with
  | none => .error .keyError
  | some (times, frames) => gather frames (SideOps.whereTrue (times.map (fun t => le r.onset t && le t r.offset)))

end ABX.Distances
