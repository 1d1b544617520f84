import Verif.Spec.RowSplit
/-! Specification for C119: the columns of 'by' as regressors. -/
namespace ABX.Spec
open ABX.Task Analyze SideOps

/-- a row with the columns `vars'`, among them those of the level `by_` for X, as a row with the columns `vars` and a level -/
def asLevel (by_ : List String) (vars vars' : List Var) (p : OutRow) : OutRow := { p with labels := pickLabels vars vars' p.labels, by_ := pickLabels (by_.map (fun b => (b, .X))) vars' p.labels }

end ABX.Spec
