import Verif.Spec.RowLines
/-! Specification for C116: other names for the labels. -/
namespace ABX.Spec
open ABX.Task Analyze SideOps

/-- a line with other names for its labels: `ren c x` is the new name of the label `x` of the column `c` -/
def renLine (ren : String → Val → Val) (r : Row) : Row := fun c => ren c (r c)

/-- a row of the results with other names for its labels: `vars` are its columns before those of 'by' -/
def renOut (ren : String → Val → Val) (by_ : List String) (vars : List Var) (o : OutRow) : OutRow :=
  { o with by_ := if by_ = [] then o.by_ else List.zipWith ren by_ o.by_, labels := List.zipWith (fun v x => ren v.1 x) vars o.labels }

end ABX.Spec
