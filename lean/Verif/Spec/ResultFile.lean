import Verif.Model.Analyze
/-!
Specification of the rows of the results of a level in terms of labels.
-/
namespace ABX.Spec
open ABX.Analyze

/-- the rows of a level with triplets `S`: one for each combination of labels that some triplet has, with the number of triplets that have it and, up to 2^-52, the mean of their scores -/
structure LabelResults {τ : Type} (label : τ → List Val) (key : List Val) (abx : τ → ℚ) (S : List τ) (out : List OutRow) : Prop where
  once : (out.map OutRow.labels).Nodup
  all : ∀ c, (∃ o ∈ out, o.labels = c) ↔ ∃ t ∈ S, label t = c
  by_ : ∀ o ∈ out, o.by_ = key
  n : ∀ o ∈ out, o.n = (S.filter (fun t => label t == o.labels)).length
  score : ∀ o ∈ out, |o.score - ((S.filter (fun t => label t == o.labels)).map abx).sum / o.n| ≤ 2 ^ (-52 : ℤ)
  range : ∀ o ∈ out, 0 ≤ o.score ∧ o.score ≤ 1

/-- at most `threshold` of the triplets `S` for each combination of labels: a sample that takes as many of each as it can -/
structure LabelSampled {τ : Type} (threshold : Nat) (label : τ → List Val) (S Q : List τ) : Prop where
  once : Q.Nodup
  among : ∀ t ∈ Q, t ∈ S
  counts : ∀ c, (Q.filter (fun t => label t == c)).length = min threshold (S.filter (fun t => label t == c)).length

end ABX.Spec
