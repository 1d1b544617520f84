import Verif.Model.Base
import Mathlib.Order.WithBot
/-!
Model of ABXpy/distances/metrics/dtw/dtw.pyx (lines 26-74, `dtw` and `_dtw`) and of `default_distance`, `dtw_kl_distance` (ABXpy/distance.py lines 13-47).

Costs are of any linearly ordered type `α` with an addition `add` and a division by an integer `div`: the theorems are for exact numbers and for float64 numbers that are not NaN.
An array is a function of two indices; only indices in range are used.  The shape of the array returned by the metric is taken to be `(N, M)`.
-/
namespace ABX.DTW
variable {α : Type} [LinearOrder α]

/-- `cost[i, j] = v` -/
def upd (c : Nat → Nat → α) (i j : Nat) (v : α) : Nat → Nat → α := fun i' j' => if i' = i ∧ j' = j then v else c i' j'

/-- `for i in range(1, N): cost[i,0] = ...`, lines 43-44 -/
def fillCol (add : α → α → α) (D : Nat → Nat → α) (N : Nat) (c : Nat → Nat → α) : Nat → Nat → α :=
  (List.range' 1 (N - 1)).foldl (fun c i => upd c i 0 (add (D i 0) (c (i - 1) 0))) c

/-- `for j in range(1, M): cost[0,j] = ...`, lines 45-46 -/
def fillRow (add : α → α → α) (D : Nat → Nat → α) (M : Nat) (c : Nat → Nat → α) : Nat → Nat → α :=
  (List.range' 1 (M - 1)).foldl (fun c j => upd c 0 j (add (D 0 j) (c 0 (j - 1)))) c

/-- lines 49-50 for one `i` -/
def innerRow (add : α → α → α) (D : Nat → Nat → α) (M i : Nat) (c : Nat → Nat → α) : Nat → Nat → α :=
  (List.range' 1 (M - 1)).foldl (fun c j => upd c i j (add (D i j) (min (min (c (i - 1) j) (c (i - 1) (j - 1))) (c i (j - 1))))) c

/-- lines 48-50 -/
def inner (add : α → α → α) (D : Nat → Nat → α) (N M : Nat) (c : Nat → Nat → α) : Nat → Nat → α :=
  (List.range' 1 (N - 1)).foldl (fun c i => innerRow add D M i c) c

/-- the table `cost`, lines 39-50; `junk` is the content of `np.empty` -/
def costs (add : α → α → α) (junk D : Nat → Nat → α) (N M : Nat) : Nat → Nat → α :=
  inner add D N M (fillRow add D M (fillCol add D N (upd junk 0 0 (D 0 0))))

/-- lines 57-72: `path_len` -/
def back (c : Nat → Nat → α) : (fuel i j n : Nat) → Except Err Nat
  | fuel, i, j, n =>
    if 0 < i ∧ 0 < j then
      match fuel with
      | 0 => .error .diverge
      | fuel + 1 =>
        let up := c (i - 1) j
        let left := c i (j - 1)
        let diag := c (i - 1) (j - 1)
        if diag ≤ left ∧ diag ≤ up then back c fuel (i - 1) (j - 1) (n + 1)         -- lines 61-63
        else if left ≤ up then back c fuel i (j - 1) (n + 1)                        -- lines 64-65
        else back c fuel (i - 1) j (n + 1)                                          -- lines 66-67
    else .ok (n + (if i = 0 then j else 0) + (if j = 0 then i else 0))              -- lines 69-72

/-- `_dtw`, lines 37-74, for `N, M > 0` -/
def dtwCore (add : α → α → α) (div : α → Nat → α) (junk D : Nat → Nat → α) (N M : Nat) (normalized : Bool) : Except Err α :=
  let c := costs add junk D N M
  if normalized then
    match back c (N + M) (N - 1) (M - 1) 1 with
    | .error e => .error e
    | .ok n => .ok (div (c (N - 1) (M - 1)) n)
  else .ok (c (N - 1) (M - 1))

/-- `dtw`, lines 26-30; `D` is `metric(x, y)` -/
def dtw (add : α → α → α) (div : α → Nat → α) (junk D : Nat → Nat → α) (N M : Nat) (normalized : Bool) : Except Err α :=
  if N = 0 ∨ M = 0 then .error .valueError else dtwCore add div junk D N M normalized

/-- `default_distance` and `dtw_kl_distance`, distance.py lines 13-47: infinity when exactly one of the items is empty -/
def defaultDistance (add : α → α → α) (div : α → Nat → α) (zero : α) (junk D : Nat → Nat → α) (N M : Nat) (normalized : Bool) : Except Err (WithTop α) :=
  if 0 < N ∧ 0 < M then (dtw add div junk D N M normalized).map (fun x => (x : WithTop α))
  else if N = M then .ok (zero : WithTop α)
  else .ok ⊤

end ABX.DTW
