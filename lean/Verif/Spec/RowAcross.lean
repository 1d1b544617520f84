import Verif.Spec.RowSplit
/-! Specification for C121: the columns of 'across' as regressors. -/
namespace ABX.Spec
open ABX.Task Analyze SideOps

/-- the value of an across column in the first and second place of the results is that of B and of X -/
def acrossVar (across : List String) (v : Var) : Var := if v.1 ∈ across then (v.1, if v.2 = .two ∨ v.2 = .X then .X else .B) else v

end ABX.Spec
