import Verif.Spec.Pipeline
/-!
Specification of the results of a plain ABX experiment (columns 'on', 'across' and 'by' only, neither filters nor regressors) in terms of the
labels of items: no triplets to enumerate, no regressors.
-/
namespace ABX.Spec
open SideOps Analyze F64

/-- the labels of a row of the results: those of A on the columns, the 'on' label of B, the 'across' labels of X -/
structure Labels where
  on1 : Val
  on2 : Val
  across1 : String → Val
  across2 : String → Val

/-- X has another label than A in every across column, and B has another 'on' label -/
def Labels.Possible (across : List String) (l : Labels) : Prop := l.on1 ≠ l.on2 ∧ ∀ c ∈ across, l.across1 c ≠ l.across2 c

/-- the items with an 'on' label and 'across' labels -/
def cell (on : String) (across : List String) (its : List Item) (l : Val) (s : String → Val) : List Item :=
  its.filter (fun p => p.2 on == l && across.all (fun c => p.2 c == s c))

/-- the triplets with given labels; without across column X is another item than A -/
def group (on : String) (across : List String) (its : List Item) (l : Labels) : List (Item × Item × Item) :=
  (cell on across its l.on1 l.across1).flatMap (fun A => (cell on across its l.on2 l.across1).flatMap (fun B =>
    ((cell on across its l.on1 l.across2).filter (fun X => !across.isEmpty || X.1 != A.1)).map (fun X => (A, B, X))))

/-- the cell of a row in the column named `v` (`c_1` or `c_2`) -/
def Labels.at (on : String) (l : Labels) (v : Var) : Val :=
  match v.2 with
  | .two => if v.1 = on then l.on2 else l.across2 v.1
  | _ => if v.1 = on then l.on1 else l.across1 v.1

/-- the columns of the results: `on_1`, `on_2`, and `c_1`, `c_2` for each across column -/
def plainVars (on : String) (across : List String) : List Var := (on :: across).flatMap (fun c => [(c, .one), (c, .two)])

/-- a row of the results for the labels `l`: these labels, the level, the number of triplets of the group `grp l`, and a score within 2^-52 of the mean of their scores: the computation in float64 of (mean of the -1, 0, 1 + 1) / 2 -/
structure PlainRow {τ : Type} (on : String) (vars : List Var) (key : List Val) (grp : Labels → List τ) (abx : τ → ℚ) (l : Labels) (o : OutRow) : Prop where
  labels : o.labels = vars.map (l.at on)
  by_ : o.by_ = key
  n : o.n = (grp l).length
  score : |o.score - ((grp l).map abx).sum / o.n| ≤ 2 ^ (-52 : ℤ)
  range : 0 ≤ o.score ∧ o.score ≤ 1
  exact : o.score = rnd (rnd (((grp l).map (fun t => 2 * abx t - 1)).sum / o.n) + 1) / 2

/-- the rows of a level: one for each combination of labels of which there are triplets -/
structure PlainResults {τ : Type} (on : String) (across : List String) (vars : List Var) (key : List Val) (grp : Labels → List τ) (abx : τ → ℚ) (out : List OutRow) : Prop where
  once : (out.map OutRow.labels).Nodup
  rows : ∀ o ∈ out, ∃ l : Labels, l.Possible across ∧ grp l ≠ [] ∧ PlainRow on vars key grp abx l o
  all : ∀ l : Labels, l.Possible across → grp l ≠ [] → ∃ o ∈ out, PlainRow on vars key grp abx l o

end ABX.Spec
