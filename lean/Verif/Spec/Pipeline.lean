import Verif.Spec.Task
import Verif.Properties.Analyze
/-!
Specification of the results of an ABX experiment, from the table of items, their features and the distance.
-/
namespace ABX.Spec
open SideOps Analyze F64
variable {ρ φ δ : Type}

/-- the distance of two records: the distance of their features -/
def recDist (getFeat : ρ → Except Err φ) (distance : φ → φ → Except Err δ) (r r' : ρ) : Except Err δ :=
  match getFeat r with
  | .error e => .error e
  | .ok f => match getFeat r' with
    | .error e => .error e
    | .ok f' => distance f f'

/-- the records of the items of a level, in the order of the table -/
def records (by_ : List String) (rows : List Row) (recs : List ρ) (key : List Val) : List ρ :=
  ((rows.zip recs).filter (fun p => by_.map p.1 == key)).map (·.2)

/-- `q` is the ABX score of the triplet (A, B, X): 1 when X is nearer to A, 0 when it is nearer to B, 1/2 otherwise.  `recs` are the records of the items. -/
def IsAbx (lt : δ → δ → Bool) (dist : ρ → ρ → Except Err δ) (recs : List ρ) (t : Item × Item × Item) (q : ℚ) : Prop :=
  ∃ rA rB rX dAX dBX, recs[t.1.1]? = some rA ∧ recs[t.2.1.1]? = some rB ∧ recs[t.2.2.1]? = some rX ∧ dist rA rX = .ok dAX ∧ dist rB rX = .ok dBX ∧
    q = if lt dAX dBX then 1 else if lt dBX dAX then 0 else 1 / 2

/-- the results of a level: one row per combination of values of the regressors among the triplets `S`, in increasing order, with its labels, the number of triplets and the mean of their scores: the computation in
float64, which is within 2^-52 of the exact mean -/
def Results (labels : List (List Val)) (key : List Val) (value : Item × Item × Item → List Nat) (abx : Item × Item × Item → ℚ) (S : List (Item × Item × Item)) (out : List OutRow) : Prop :=
  ∃ combos : List (List Nat), combos.Pairwise (· < ·) ∧ (∀ c, c ∈ combos ↔ ∃ t ∈ S, value t = c) ∧
    List.Forall₂ (fun c o => Spec.IsLabels labels c o.labels ∧ o.by_ = key ∧ o.n = (S.filter (fun t => value t == c)).length ∧
      o.score = rnd (rnd (((S.filter (fun t => value t == c)).map (fun t => 2 * abx t - 1)).sum / o.n) + 1) / 2 ∧
      |o.score - ((S.filter (fun t => value t == c)).map abx).sum / o.n| ≤ 2 ^ (-52 : ℤ) ∧ 0 ≤ o.score ∧ o.score ≤ 1) combos out

/-- `Q` is a sample of `S` with at most `threshold` triplets of each combination of values: all of them when there are no more, else exactly `threshold` -/
def Sampled (threshold : Nat) (value : Item × Item × Item → List Nat) (S Q : List (Item × Item × Item)) : Prop :=
  Q.Nodup ∧ (∀ t ∈ Q, t ∈ S) ∧ ∀ c, (Q.filter (fun t => value t == c)).length = min threshold (S.filter (fun t => value t == c)).length

end ABX.Spec
