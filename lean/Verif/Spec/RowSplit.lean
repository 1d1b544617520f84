import Verif.Spec.RowLines
/-! Specification for C118: rows of results with fewer columns. -/
namespace ABX.Spec
open ABX.Task Analyze SideOps

/-- the labels of the columns `vars` among the labels `l` of the columns `vars'` -/
def pickLabels (vars vars' : List Var) (l : List Val) : List Val := vars.map (fun v => l.getD (vars'.idxOf v) (.int 0))

/-- the rows of `out'`, with the columns `vars'`, that have the labels of the row `o` in the columns `vars` and the same level -/
def partsOf (vars vars' : List Var) (out' : List OutRow) (o : OutRow) : List OutRow := out'.filter (fun p => decide (p.by_ = o.by_ ∧ pickLabels vars vars' p.labels = o.labels))

end ABX.Spec
