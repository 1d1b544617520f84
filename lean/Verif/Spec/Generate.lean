import Verif.Spec.Filter
/-! Which items of a triplet a regressor reads. -/
namespace ABX.Spec
open SideOps
variable {β : Type}

/-- the operation reads a column of B: explicitly, or as the second of the two values of a column determined by 'on' -/
def readsB (c : Cols) (f : DBFun β) : Bool := f.inputs.any (fun v => !c.by_.contains v.1 && (v.2 == .B || (v.2 == .two && c.on.contains v.1)))

/-- the operation reads a column of X that A does not share: explicitly, or as the second of the two values of a column not determined by 'on' -/
def readsX (c : Cols) (f : DBFun β) : Bool := f.inputs.any (fun v => !c.by_.contains v.1 && !c.on.contains v.1 && (v.2 == .X || v.2 == .two))

/-- the operation reads at least two of A, B and X -/
def mixed (c : Cols) (f : DBFun β) : Bool := (readsA c f && readsB c f) || (readsA c f && readsX c f) || (readsB c f && readsX c f)

end ABX.Spec
