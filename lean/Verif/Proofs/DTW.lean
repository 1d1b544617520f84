import Verif.Model.DTW
import Mathlib.Tactic.Linarith
/-! Lemmas about the dynamic programming table. -/
namespace ABX.DTW
variable {α : Type} [LinearOrder α]

/-- the table as a recursive function -/
def best (add : α → α → α) (D : Nat → Nat → α) : Nat → Nat → α
  | 0, 0 => D 0 0
  | i + 1, 0 => add (D (i + 1) 0) (best add D i 0)
  | 0, j + 1 => add (D 0 (j + 1)) (best add D 0 j)
  | i + 1, j + 1 => add (D (i + 1) (j + 1)) (min (min (best add D i (j + 1)) (best add D i j)) (best add D (i + 1) j))
termination_by i j => i + j

theorem upd_same (c : Nat → Nat → α) (i j : Nat) (v : α) : upd c i j v i j = v := by simp [upd]

theorem upd_ne {c : Nat → Nat → α} {i j i' j' : Nat} {v : α} (h : ¬ (i' = i ∧ j' = j)) : upd c i j v i' j' = c i' j' := by simp [upd, h]

theorem range'_succ_last (s n : Nat) : List.range' s (n + 1) = List.range' s n ++ [s + n] := by
  rw [List.range'_concat]; simp

theorem fillCol_ok {add : α → α → α} {D c : Nat → Nat → α} (h : c 0 0 = best add D 0 0) (n : Nat) :
    (∀ i ≤ n, fillCol add D (n + 1) c i 0 = best add D i 0) ∧ (∀ i j, (n < i ∨ 0 < j) → fillCol add D (n + 1) c i j = c i j) := by
  unfold fillCol
  rw [Nat.add_sub_cancel]
  induction n with
  | zero =>
    refine ⟨?_, fun i j _ => rfl⟩
    intro i hi
    obtain rfl : i = 0 := by omega
    exact h
  | succ n ih =>
    rw [range'_succ_last, List.foldl_append, List.foldl_cons, List.foldl_nil]
    refine ⟨?_, ?_⟩
    · intro i hi
      by_cases hi' : i = 1 + n
      · subst hi'
        rw [upd_same, Nat.add_sub_cancel_left, ih.1 n le_rfl, Nat.add_comm 1 n, best]
      · rw [upd_ne (by tauto)]
        exact ih.1 i (by omega)
    · intro i j hij
      rw [upd_ne (by omega)]
      exact ih.2 i j (by omega)

theorem fillRow_ok {add : α → α → α} {D c : Nat → Nat → α} (h : c 0 0 = best add D 0 0) (n : Nat) :
    (∀ j ≤ n, fillRow add D (n + 1) c 0 j = best add D 0 j) ∧ (∀ i j, (n < j ∨ 0 < i) → fillRow add D (n + 1) c i j = c i j) := by
  unfold fillRow
  rw [Nat.add_sub_cancel]
  induction n with
  | zero =>
    refine ⟨?_, fun i j _ => rfl⟩
    intro i hi
    obtain rfl : i = 0 := by omega
    exact h
  | succ n ih =>
    rw [range'_succ_last, List.foldl_append, List.foldl_cons, List.foldl_nil]
    refine ⟨?_, ?_⟩
    · intro j hj
      by_cases hj' : j = 1 + n
      · subst hj'
        rw [upd_same, Nat.add_sub_cancel_left, ih.1 n le_rfl, Nat.add_comm 1 n, best]
      · rw [upd_ne (by tauto)]
        exact ih.1 j (by omega)
    · intro i j hij
      rw [upd_ne (by omega)]
      exact ih.2 i j (by omega)

theorem innerRow_ok {add : α → α → α} {D c : Nat → Nat → α} {i m : Nat} (hp : ∀ j ≤ m, c i j = best add D i j) (h0 : c (i + 1) 0 = best add D (i + 1) 0) :
    (∀ j ≤ m, innerRow add D (m + 1) (i + 1) c (i + 1) j = best add D (i + 1) j) ∧
      (∀ i' j, (i' ≠ i + 1 ∨ m < j ∨ j = 0) → innerRow add D (m + 1) (i + 1) c i' j = c i' j) := by
  unfold innerRow
  simp only [Nat.add_sub_cancel]
  induction m with
  | zero =>
    refine ⟨?_, fun i j _ => rfl⟩
    intro j hj
    obtain rfl : j = 0 := by omega
    exact h0
  | succ n ih =>
    have ih := ih (fun j hj => hp j (by omega))
    rw [range'_succ_last, List.foldl_append, List.foldl_cons, List.foldl_nil]
    refine ⟨?_, ?_⟩
    · intro j hj
      by_cases hj' : j = 1 + n
      · subst hj'
        rw [upd_same, Nat.add_sub_cancel_left, ih.1 n le_rfl, ih.2 i _ (by omega), ih.2 i _ (by omega), Nat.add_comm 1 n, hp _ le_rfl, hp n (by omega)]
        conv_rhs => rw [best]
      · rw [upd_ne (by tauto)]
        exact ih.1 j (by omega)
    · intro i' j hij
      rw [upd_ne (by omega)]
      exact ih.2 i' j (by omega)

theorem inner_ok {add : α → α → α} {D c : Nat → Nat → α} {m : Nat} (hp : ∀ j ≤ m, c 0 j = best add D 0 j) (n : Nat) (h0 : ∀ i ≤ n, c i 0 = best add D i 0) :
    (∀ i ≤ n, ∀ j ≤ m, inner add D (n + 1) (m + 1) c i j = best add D i j) ∧
      (∀ i j, (n < i ∨ m < j) → inner add D (n + 1) (m + 1) c i j = c i j) := by
  unfold inner
  rw [Nat.add_sub_cancel]
  induction n with
  | zero =>
    refine ⟨?_, fun i j _ => rfl⟩
    intro i hi
    obtain rfl : i = 0 := by omega
    exact hp
  | succ n ih =>
    have ih := ih (fun i hi => h0 i (by omega))
    rw [range'_succ_last, List.foldl_append, List.foldl_cons, List.foldl_nil, Nat.add_comm 1 n]
    have hr := innerRow_ok (add := add) (D := D) (m := m) (i := n) (ih.1 n le_rfl) (by rw [ih.2 _ _ (by omega)]; exact h0 _ le_rfl)
    refine ⟨?_, ?_⟩
    · intro i hi j hj
      by_cases hi' : i = n + 1
      · subst hi'
        exact hr.1 j hj
      · rw [hr.2 i j (by omega)]
        exact ih.1 i (by omega) j hj
    · intro i j hij
      rw [hr.2 i j (by omega)]
      exact ih.2 i j (by omega)

/-- the table holds the values of `best` -/
theorem costs_ok (add : α → α → α) (junk D : Nat → Nat → α) {N M : Nat} {i j : Nat} (hi : i < N) (hj : j < M) : costs add junk D N M i j = best add D i j := by
  obtain ⟨n, rfl⟩ : ∃ n, N = n + 1 := ⟨N - 1, by omega⟩
  obtain ⟨m, rfl⟩ : ∃ m, M = m + 1 := ⟨M - 1, by omega⟩
  have h0 : upd junk 0 0 (D 0 0) 0 0 = best add D 0 0 := by rw [upd_same, best]
  have h1 := fillCol_ok h0 n
  have h2 := fillRow_ok (c := fillCol add D (n + 1) (upd junk 0 0 (D 0 0))) (h1.1 0 (by omega)) m
  refine (inner_ok h2.1 n ?_).1 i (by omega) j (by omega)
  intro i hi
  by_cases h : i = 0
  · subst h; exact h2.1 0 (by omega)
  · rw [h2.2 i 0 (by omega)]
    exact h1.1 i hi

end ABX.DTW
