import Mathlib.Algebra.BigOperators.Group.Finset.Basic
import Mathlib.Algebra.Order.BigOperators.Group.Finset
import Mathlib.Data.Fintype.Perm
import Mathlib.Algebra.Order.Ring.Rat
import Verif.Model.Base
/-!
Specification for C107: random distances between the items of a level that carry no information.
-/
namespace ABX.Spec

/-- item number `k` is nearer to item number `i` than to item number `j`; `recs` are the records of the items -/
def nearerAt {ρ δ : Type} (lt : δ → δ → Bool) (dist : ρ → ρ → Except Err δ) (recs : List ρ) (i j k : Nat) : Prop :=
  ∃ a b x d d', recs[i]? = some a ∧ recs[j]? = some b ∧ recs[k]? = some x ∧ dist a x = .ok d ∧ dist b x = .ok d' ∧ lt d d' = true

open Classical in
/-- `dist s` are the distances when chance gives the outcome `s`, which has probability `w s`.  They carry no information on the items: of three different items, `k` is nearer to `i` than to `j` with the same probability as it is nearer to `j` than to `i`. -/
structure NoInformation {ρ δ ι : Type} [Fintype ι] (w : ι → ℚ) (lt : δ → δ → Bool) (dist : ι → ρ → ρ → Except Err δ) (recs : List ρ) : Prop where
  nonneg : ∀ s, 0 ≤ w s
  total : ∑ s, w s = 1
  even : ∀ i j k, i ≠ j → k ≠ i → k ≠ j → ∑ s, (if nearerAt lt (dist s) recs i j k then w s else 0) = ∑ s, (if nearerAt lt (dist s) recs j i k then w s else 0)

/-- the features of the items are shuffled: when the permutation is `π`, item `i` has the features of item `π i`; `D` are the distances before -/
def ShuffledItems {ρ δ : Type} {n : Nat} (D : Fin n → Fin n → δ) (dist : Equiv.Perm (Fin n) → ρ → ρ → Except Err δ) (recs : List ρ) : Prop :=
  recs.length = n ∧ ∀ π (i j : Fin n) (a x : ρ), recs[i.val]? = some a → recs[j.val]? = some x → dist π a x = .ok (D (π i) (π j))

end ABX.Spec
