import Verif.Spec.TripletScores
import Verif.Properties.Analyze
/-!
The rows of the results of a task in terms of the lines of the item table: independent of levels, numbers of items, pairs and blocks.
-/
namespace ABX.Spec
open SideOps Analyze F64
variable {ρ δ : Type}

/-- the labels of the level of a line: the number 0 if there are no 'by' columns -/
def byLabels (by_ : List String) (r : Row) : List Val := if by_ = [] then [.int 0] else by_.map r

/-- the lines `u` make a triplet of the task with the labels `k.1` of 'by' and the values `k.2` of the regressors -/
def RowTriplet (c : Cols) (on : String) (across by_ : List String) (filters : List (DBFun Bool)) (regs : List (DBFun Nat)) (rows : List Row) (k : List Val × List Nat) (u : Nat × Nat × Nat) : Prop :=
  LineTriplet c on across by_ filters rows u ∧ ∀ rA rB rX, rows[u.1]? = some rA → rows[u.2.1]? = some rB → rows[u.2.2]? = some rX → byLabels by_ rA = k.1 ∧ regs.map (fun f => f.fn (sem c rA rB rX)) = k.2

/-- the row `o` is that of the triplets of lines `P`, each once, scored by the comparisons `lt` of the distances `dist` of their records; `labels` are the labels of the values of the regressors -/
def IsRow (P : Nat × Nat × Nat → Prop) (lt : δ → δ → Bool) (dist : ρ → ρ → Except Err δ) (recs : List ρ) (labels : List (List Val)) (k : List Val × List Nat) (o : OutRow) : Prop :=
  ∃ U : List ((Nat × Nat × Nat) × Int), (U.map (·.1)).Nodup ∧ (∀ u, u ∈ U.map (·.1) ↔ P u) ∧ (∀ q ∈ U, IsLineScore lt dist recs q.1 q.2) ∧
    Spec.IsLabels labels k.2 o.labels ∧ o.by_ = k.1 ∧ o.n = U.length ∧ o.score = rnd (rnd (((U.map (·.2)).sum : Int) / o.n) + 1) / 2

/-- `out` has one row for each combination of labels of 'by' and values of the regressors that some triplet has: that of all triplets with this combination -/
def RowsOf (c : Cols) (on : String) (across by_ : List String) (filters : List (DBFun Bool)) (regs : List (DBFun Nat)) (rows : List Row) (lt : δ → δ → Bool) (dist : ρ → ρ → Except Err δ) (recs : List ρ) (labels : List (List Val)) (out : List OutRow) : Prop :=
  ∃ K : List (List Val × List Nat), K.Nodup ∧ (∀ k, k ∈ K ↔ ∃ u, RowTriplet c on across by_ filters regs rows k u) ∧
    List.Forall₂ (fun k o => IsRow (RowTriplet c on across by_ filters regs rows k) lt dist recs labels k o) K out

/-- with a threshold: the row `o` is that of some of the triplets `P`, each at most once: of all of them when there are at most `threshold`, else of `threshold` of them -/
def IsSampledRow (threshold : Nat) (P : Nat × Nat × Nat → Prop) (lt : δ → δ → Bool) (dist : ρ → ρ → Except Err δ) (recs : List ρ) (labels : List (List Val)) (k : List Val × List Nat) (o : OutRow) : Prop :=
  ∃ V : List (Nat × Nat × Nat), (∀ u ∈ V, P u) ∧ IsRow (fun u => u ∈ V) lt dist recs labels k o ∧ ∀ W : List (Nat × Nat × Nat), W.Nodup → (∀ u, u ∈ W ↔ P u) → o.n = min threshold W.length

/-- the regressor `f` with the labels `ix` of its values and `f'` with `ix'` give the same label to all rows of a table -/
def SameLabel (c : Cols) (rows : List Row) (p p' : DBFun Nat × List Val) : Prop :=
  p.2.Nodup ∧ p'.2.Nodup ∧ ∀ rA ∈ rows, ∀ rB ∈ rows, ∀ rX ∈ rows, ∃ x, p.2[p.1.fn (sem c rA rB rX)]? = some x ∧ p'.2[p'.1.fn (sem c rA rB rX)]? = some x

end ABX.Spec
