import Verif.Spec.Lines
/-!
Specification of the results of a plain ABX experiment with a threshold, in terms of the lines of the item file.
-/
namespace ABX.Spec
open SideOps Analyze

/-- a row of the results for given labels: as many triplets as the threshold allows, and the mean score of a sample of that many different triplets with these labels -/
structure SampledRow {τ : Type} (threshold : Nat) (on : String) (vars : List Var) (key : List Val) (grp : Labels → List τ) (isAbx : τ → ℚ → Prop) (l : Labels) (o : OutRow) : Prop where
  labels : o.labels = vars.map (l.at on)
  by_ : o.by_ = key
  n : o.n = min threshold (grp l).length
  score : ∃ Q : List (τ × ℚ), (Q.map (·.1)).Nodup ∧ (∀ q ∈ Q, q.1 ∈ grp l ∧ isAbx q.1 q.2) ∧ Q.length = o.n ∧ |o.score - (Q.map (·.2)).sum / o.n| ≤ 2 ^ (-52 : ℤ)
  range : 0 ≤ o.score ∧ o.score ≤ 1

/-- the rows of a level: one for each combination of labels of which there are triplets -/
structure SampledResults {τ : Type} (threshold : Nat) (on : String) (across : List String) (vars : List Var) (key : List Val) (grp : Labels → List τ) (isAbx : τ → ℚ → Prop) (out : List OutRow) : Prop where
  once : (out.map OutRow.labels).Nodup
  rows : ∀ o ∈ out, ∃ l : Labels, l.Possible across ∧ grp l ≠ [] ∧ SampledRow threshold on vars key grp isAbx l o
  all : ∀ l : Labels, l.Possible across → grp l ≠ [] → ∃ o ∈ out, SampledRow threshold on vars key grp isAbx l o

/-- the number of triplets of lines whose A has the labels `v` and `s` -/
def lineBlock (val : Line → String → Option Val) (on : String) (across : List String) (lines : List Line) (v : Val) (s : String → Val) : Nat :=
  (lineCell val on across lines v s).length * (lines.filter (fun p => val p on != some v && across.all (fun c => val p c == some (s c)))).length *
    (lines.filter (fun p => val p on == some v && across.all (fun c => val p c != some (s c)))).length

end ABX.Spec
