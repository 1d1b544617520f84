/-!
Shared vocabulary of the models: python exceptions as values, numpy / h5py slice
assignment on lists of rows.
-/
namespace ABX

/-- Python exceptions that the modelled code can raise.  `diverge` is not a python
exception: it marks a fuelled loop that ran out of fuel. -/
inductive Err where
  | valueError | ioError | typeError | indexError | zeroDivision | keyError | nameError
  | runtimeError | assertion | warning | stopIteration | attributeError
  | user
  | diverge
  deriving DecidableEq, Repr

/-- Decidable equality of results, so that concrete witnesses can be evaluated. -/
instance instDecEqExcept {ε α : Type} [DecidableEq ε] [DecidableEq α] :
    DecidableEq (Except ε α)
  | .ok a, .ok b => if h : a = b then isTrue (h ▸ rfl) else isFalse (fun e => h (Except.ok.inj e))
  | .error a, .error b =>
    if h : a = b then isTrue (h ▸ rfl) else isFalse (fun e => h (Except.error.inj e))
  | .ok _, .error _ => isFalse (fun e => nomatch e)
  | .error _, .ok _ => isFalse (fun e => nomatch e)

/-- numpy slice `a[lo:hi]` (non-negative bounds, clipped to the length). -/
def npSlice (a : List α) (lo hi : Nat) : List α := (a.take hi).drop lo

/-- numpy slice assignment `a[lo:hi] = v` along the first axis (bounds are clipped, a
single row is broadcast, any other mismatch raises `ValueError`). -/
def npAssign (a : List α) (lo hi : Nat) (v : List α) : Except Err (List α) :=
  let lo' := min lo a.length
  let hi' := max lo' (min hi a.length)
  if v.length = hi' - lo' then .ok (a.take lo' ++ v ++ a.drop hi')
  else match v with
    | [x] => .ok (a.take lo' ++ List.replicate (hi' - lo') x ++ a.drop hi')
    | _ => .error .valueError

/-- h5py slice assignment `dset[lo:hi, :] = v`: like numpy, except that an empty
selection silently writes nothing and a mismatch raises `TypeError`
(h5py `Dataset.__setitem__`). -/
def h5Assign (a : List α) (lo hi : Nat) (v : List α) : Except Err (List α) :=
  let lo' := min lo a.length
  let hi' := max lo' (min hi a.length)
  if hi' - lo' = 0 then .ok a
  else if v.length = hi' - lo' then .ok (a.take lo' ++ v ++ a.drop hi')
  else match v with
    | [x] => .ok (a.take lo' ++ List.replicate (hi' - lo') x ++ a.drop hi')
    | _ => .error .typeError

/-- h5py `dset.resize((n, cols))`: truncate, or extend with the fill value 0. -/
def h5Resize (zero : α) (a : List α) (n : Nat) : List α :=
  a.take n ++ List.replicate (n - a.length) zero

/-- python 3 `round(a / b)` for naturals, `b ≠ 0`: nearest integer, ties to even. -/
def roundDiv (a b : Nat) : Nat :=
  let q := a / b
  let r := a % b
  if 2 * r < b then q else if b < 2 * r then q + 1 else if q % 2 = 0 then q else q + 1

end ABX
