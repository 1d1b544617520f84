import Verif.Model.NP2H5
/-! Specification of a buffered writer: an append-only log. -/
namespace ABX.NP2H5.Spec

/-- the rows a sequence of calls asks to write, in order -/
def written : List (Op α) → List α
  | [] => []
  | .write r :: os => r ++ written os
  | .flush :: os => written os

/-- rows addressed to dataset `i` in a session -/
def writtenTo (i : Nat) : List (Nat × Op α) → List α
  | [] => []
  | (j, .write r) :: os => if j = i then r ++ writtenTo i os else writtenTo i os
  | (_, .flush) :: os => writtenTo i os

end ABX.NP2H5.Spec
