import Verif.Spec.LinesThreshold
/-!
Specification of the results of a plain ABX experiment with a threshold and without across columns: the triplets of each item A are sampled apart.
-/
namespace ABX.Spec
open SideOps Analyze

/-- a row of the results for given labels: the mean score of a sample of different triplets with these labels; of the triplets of each A (`first` is its number) it takes all, or `threshold` if there are more -/
structure EachRow {τ : Type} (threshold : Nat) (on : String) (vars : List Var) (key : List Val) (grp : Labels → List τ) (first : τ → Nat) (isAbx : τ → ℚ → Prop) (l : Labels) (o : OutRow) : Prop where
  labels : o.labels = vars.map (l.at on)
  by_ : o.by_ = key
  score : ∃ Q : List (τ × ℚ), (Q.map (·.1)).Nodup ∧ (∀ q ∈ Q, q.1 ∈ grp l ∧ isAbx q.1 q.2) ∧
    (∀ i, (Q.filter (fun q => first q.1 == i)).length = min threshold ((grp l).filter (fun t => first t == i)).length) ∧ Q.length = o.n ∧ |o.score - (Q.map (·.2)).sum / o.n| ≤ 2 ^ (-52 : ℤ)
  range : 0 ≤ o.score ∧ o.score ≤ 1

/-- the rows of a level: one for each pair of different labels of which there are triplets -/
structure EachResults {τ : Type} (threshold : Nat) (on : String) (vars : List Var) (key : List Val) (grp : Labels → List τ) (first : τ → Nat) (isAbx : τ → ℚ → Prop) (out : List OutRow) : Prop where
  once : (out.map OutRow.labels).Nodup
  rows : ∀ o ∈ out, ∃ l : Labels, l.Possible [] ∧ grp l ≠ [] ∧ EachRow threshold on vars key grp first isAbx l o
  all : ∀ l : Labels, l.Possible [] → grp l ≠ [] → ∃ o ∈ out, EachRow threshold on vars key grp first isAbx l o

/-- the lines with a label -/
def lineOn (val : Line → String → Option Val) (on : String) (lines : List Line) (v : Val) : List Line := lines.filter (fun p => val p on == some v)

/-- the lines with another label -/
def lineOff (val : Line → String → Option Val) (on : String) (lines : List Line) (v : Val) : List Line := lines.filter (fun p => val p on != some v)

end ABX.Spec
