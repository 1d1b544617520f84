import Verif.Spec.Lines
/-!
Specification for C100: what two experiments must have in common to give the same results.
-/
namespace ABX.Spec
open SideOps Analyze

/-- the cell of a row in the column `v`, when the columns of labels are `vars` -/
def cellOf (vars : List Var) (o : OutRow) (v : Var) : Option Val := (vars.zip o.labels).lookup v

/-- what a row says, whatever the order of the columns: its labels, renamed by `ren`, the number of triplets and the score -/
def told (on : String) (across : List String) (ren : String → Val → Val) (vars : List Var) (o : OutRow) : List (Option Val) × Nat × ℚ :=
  ((plainVars on across).map (fun v => (cellOf vars o v).map (ren v.1)), o.n, o.score)

/-- the lines `L` and `L'` correspond: `σ` sends the ones to the others, their labels are the same up to the renaming `ren` of labels, which keeps different labels different,
and the comparisons of distances have the same results -/
structure Corresponds {δ δ' : Type} (on : String) (across : List String) (val val' : Line → String → Option Val) (lt : δ → δ → Bool) (lt' : δ' → δ' → Bool)
    (dist : Line → Line → Except Err δ) (dist' : Line → Line → Except Err δ') (ren : String → Val → Val) (σ : Line → Line) (L L' : List Line) : Prop where
  lines : (L.map σ).Perm L'
  labels : ∀ p ∈ L, ∀ c ∈ on :: across, val' (σ p) c = (val p c).map (ren c)
  inj : ∀ c ∈ on :: across, Function.Injective (ren c)
  order : ∀ A ∈ L, ∀ B ∈ L, ∀ X ∈ L, ∀ d1 d2 d1' d2', dist A X = .ok d1 → dist B X = .ok d2 → dist' (σ A) (σ X) = .ok d1' → dist' (σ B) (σ X) = .ok d2' → lt' d1' d2' = lt d1 d2

end ABX.Spec
