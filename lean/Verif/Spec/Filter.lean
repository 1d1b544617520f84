import Verif.Model.SideOps
/-!
Meaning of filters and regressors on a triplet, independent of the points of the computation at which they are
evaluated: the value of an extended column name in a triplet of rows, and whether a filter holds.
-/
namespace ABX.Spec
open SideOps

/-- value of an extended column in the triplet (a, b, x).  `_A`, `_B`, `_X` name an item; `_AB`, `_AX` and `_1` are
read on A; `_2` is B's value for a column determined by 'on' and X's value for a column determined by 'across'. -/
def sem (c : Cols) (a b x : Row) : Var → Val
  | (r, .B) => b r
  | (r, .X) => x r
  | (r, .two) => if r ∈ c.on then b r else x r
  | (r, _) => a r

/-- a filter that names bare columns (besides columns determined by 'by') speaks about single items -/
def perItem (c : Cols) (f : DBFun β) : Prop := ∀ v ∈ f.inputs, v.1 ∈ c.by_ ∨ v.2 = .none

instance (c : Cols) (f : DBFun β) : Decidable (perItem c f) := by unfold perItem; infer_instance

/-- a filter that names bare columns not determined by 'by': it selects items of a level -/
def bare (c : Cols) (f : DBFun β) : Bool := f.inputs.any (fun v => !c.by_.contains v.1) && f.inputs.all (fun v => c.by_.contains v.1 || v.2 == .none)

/-- an operation that reads a column of A that is not determined by 'by' or 'on' -/
def readsA (c : Cols) (f : DBFun β) : Bool := f.inputs.any (fun v => v.2 == .A && !c.by_.contains v.1 && !c.on.contains v.1)

/-- an operation that reads a column that the items A of a block share, other than those determined by 'by': the 'on' and 'across' columns of A, and
(X having the 'on' label of A) the columns of A and X determined by 'on' -/
def readsLabels (c : Cols) (f : DBFun β) : Bool :=
  f.inputs.any (fun v => !c.by_.contains v.1 && (v.2 == .one || v.2 == .AX || v.2 == .AB || ((v.2 == .A || v.2 == .X) && c.on.contains v.1)))

/-- whether a filter holds of a triplet -/
def holds (c : Cols) (f : DBFun Bool) (a b x : Row) : Bool :=
  if perItem c f then f.fn (fun v => a v.1) && f.fn (fun v => b v.1) && f.fn (fun v => x v.1)
  else f.fn (sem c a b x)

end ABX.Spec
