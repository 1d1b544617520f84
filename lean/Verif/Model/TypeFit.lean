import Verif.Model.Base
/-!
Model of `ABXpy/misc/type_fitting.py` and of numpy's fixed width integers.
-/
namespace ABX

/-- numpy integer types `np.int{8,16,32,64}` / `np.uint{8,16,32,64}`. -/
structure IntType where
  bits : Nat
  signed : Bool
  deriving DecidableEq, Repr

namespace IntType
/-- smallest representable value -/
def lo (t : IntType) : Int := if t.signed then -(2 ^ (t.bits - 1)) else 0
/-- one more than the largest representable value -/
def hi (t : IntType) : Int := if t.signed then 2 ^ (t.bits - 1) else 2 ^ t.bits
/-- numpy's silent wrap-around when a python/numpy integer is stored into an array of
that type (assignment, `astype`, in-place arithmetic). -/
def cast (t : IntType) (x : Int) : Int := (x - t.lo) % 2 ^ t.bits + t.lo
end IntType

/-- `fit_integer_type(n, is_signed=True)`, ABXpy/misc/type_fitting.py lines 4-24. -/
def fitIntegerType (n : Int) (isSigned : Bool := true) : Except Err IntType :=
  let m := if isSigned then 1 else 0            -- lines 7-12
  if n < 2 ^ (8 - m) then .ok ⟨8, isSigned⟩       -- line 14
  else if n < 2 ^ (16 - m) then .ok ⟨16, isSigned⟩ -- line 16
  else if n < 2 ^ (32 - m) then .ok ⟨32, isSigned⟩ -- line 18
  else if n < 2 ^ (64 - m) then .ok ⟨64, isSigned⟩ -- line 20
  else .error .valueError                          -- lines 22-24

end ABX
