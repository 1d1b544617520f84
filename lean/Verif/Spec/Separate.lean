import Verif.Spec.TripletScores
/-!
Features that tell the labels of a column apart, and features that tell nothing but the labels of some columns: in terms of the lines of the item table.
-/
namespace ABX.Spec
open SideOps
variable {ρ δ : Type}

/-- every line is nearer to the lines with the same label in column `on` than to the others -/
def Separates (lt : δ → δ → Bool) (dist : ρ → ρ → Except Err δ) (rows : List Row) (recs : List ρ) (on : String) : Prop :=
  ∀ (i k j : Nat) (ri rk rj : Row) (fi fk fj : ρ) (d d' : δ), rows[i]? = some ri → rows[k]? = some rk → rows[j]? = some rj → recs[i]? = some fi → recs[k]? = some fk → recs[j]? = some fj →
    dist fi fj = .ok d → dist fk fj = .ok d' → ri on = rj on → rk on ≠ rj on → lt d d' = true

/-- lines with the same labels in the columns `cs` are at the same distance from every line -/
def Blind (lt : δ → δ → Bool) (dist : ρ → ρ → Except Err δ) (rows : List Row) (recs : List ρ) (cs : List String) : Prop :=
  ∀ (i k j : Nat) (ri rk rj : Row) (fi fk fj : ρ) (d d' : δ), rows[i]? = some ri → rows[k]? = some rk → rows[j]? = some rj → recs[i]? = some fi → recs[k]? = some fk → recs[j]? = some fj →
    dist fi fj = .ok d → dist fk fj = .ok d' → (∀ c ∈ cs, ri c = rk c) → lt d d' = false

end ABX.Spec
