import Verif.Proofs.DTW
import Mathlib.Data.List.Chain
/-! Warping paths and the dynamic programming table. -/
namespace ABX.DTW
variable {α : Type} [LinearOrder α]

/-- the steps of a warping path: one frame further in the first item, in the second, or in both -/
def Spec.step (a b : Nat × Nat) : Prop := b = (a.1 + 1, a.2) ∨ b = (a.1, a.2 + 1) ∨ b = (a.1 + 1, a.2 + 1)

/-- a monotone warping path of two items with `N` and `M` frames -/
structure Spec.Warping (N M : Nat) (p : List (Nat × Nat)) : Prop where
  first : p.head? = some (0, 0)
  last : p.getLast? = some (N - 1, M - 1)
  steps : p.IsChain Spec.step

/-- the cost of a path: the costs of its cells added one after the other -/
def Spec.pathCost (add : α → α → α) (D : Nat → Nat → α) : List (Nat × Nat) → Option α
  | [] => none
  | c :: cs => some (cs.foldl (fun acc q => add (D q.1 q.2) acc) (D c.1 c.2))

/-- paths to a cell, last cell first, with their cost -/
inductive To (add : α → α → α) (D : Nat → Nat → α) : Nat → Nat → List (Nat × Nat) → α → Prop
  | base : To add D 0 0 [(0, 0)] (D 0 0)
  | step {i j i' j' : Nat} {p : List (Nat × Nat)} {x : α} (h : To add D i j p x) (hs : Spec.step (i, j) (i', j')) : To add D i' j' ((i', j') :: p) (add (D i' j') x)

theorem pathCost_concat {add : α → α → α} {D : Nat → Nat → α} {p : List (Nat × Nat)} {x : α} (h : Spec.pathCost add D p = some x) (c : Nat × Nat) :
    Spec.pathCost add D (p ++ [c]) = some (add (D c.1 c.2) x) := by
  cases p with
  | nil => cases h
  | cons d p =>
    simp only [Spec.pathCost, Option.some.injEq] at h
    rw [List.cons_append, Spec.pathCost, List.foldl_append, h]
    rfl

theorem to_of {add : α → α → α} {D : Nat → Nat → α} (p : List (Nat × Nat)) : ∀ (i j : Nat) (x : α), p.head? = some (0, 0) → p.getLast? = some (i, j) → p.IsChain Spec.step →
    Spec.pathCost add D p = some x → To add D i j p.reverse x := by
  induction p using List.reverseRecOn with
  | nil => intro i j x h; cases h
  | append_singleton q c ih =>
    intro i j x h1 h2 h3 h4
    rw [List.getLast?_concat, Option.some.injEq] at h2
    subst h2
    cases hq : q.getLast? with
    | none =>
      rw [List.getLast?_eq_none_iff] at hq
      subst hq
      simp only [List.nil_append, List.head?_cons, Option.some.injEq, Prod.mk.injEq] at h1
      obtain ⟨rfl, rfl⟩ := h1
      simp only [List.nil_append, Spec.pathCost, List.foldl_nil, Option.some.injEq] at h4
      subst h4
      exact .base
    | some d =>
      rw [List.isChain_append] at h3
      have hne : q ≠ [] := by rintro rfl; cases hq
      have hd : Spec.step d (i, j) := h3.2.2 d hq (i, j) rfl
      obtain ⟨e, q', rfl⟩ := List.exists_cons_of_ne_nil hne
      have hc : Spec.pathCost add D (e :: q') = some (q'.foldl (fun acc q => add (D q.1 q.2) acc) (D e.1 e.2)) := rfl
      have := pathCost_concat hc (i, j)
      rw [h4] at this
      have hx := Option.some.inj this
      rw [hx, List.reverse_append]
      exact .step (ih d.1 d.2 _ h1 hq h3.1 hc) hd

theorem of_to {add : α → α → α} {D : Nat → Nat → α} {i j : Nat} {p : List (Nat × Nat)} {x : α} (h : To add D i j p x) :
    p.reverse.head? = some (0, 0) ∧ p.reverse.getLast? = some (i, j) ∧ p.reverse.IsChain Spec.step ∧ Spec.pathCost add D p.reverse = some x := by
  induction h with
  | base => exact ⟨rfl, rfl, List.isChain_singleton _, rfl⟩
  | @step i j i' j' p x h hs ih =>
    obtain ⟨h1, h2, h3, h4⟩ := ih
    rw [List.reverse_cons]
    refine ⟨?_, List.getLast?_concat, ?_, pathCost_concat h4 _⟩
    · rw [List.head?_append, h1]; rfl
    · rw [List.isChain_append]
      refine ⟨h3, List.isChain_singleton _, ?_⟩
      intro a ha b hb
      rw [h2] at ha
      cases ha
      cases hb
      exact hs

/-- addition is monotone in the cost accumulated so far -/
def MonoAcc (add : α → α → α) : Prop := ∀ d x y, x ≤ y → add d x ≤ add d y

theorem best_le_step {add : α → α → α} (hm : MonoAcc add) (D : Nat → Nat → α) {i j i' j' : Nat} (h : Spec.step (i, j) (i', j')) :
    best add D i' j' ≤ add (D i' j') (best add D i j) := by
  rcases h with h | h | h <;> cases h
  · cases j with
    | zero => rw [best]
    | succ j => rw [best]; exact hm _ _ _ ((min_le_left _ _).trans (min_le_left _ _))
  · cases i with
    | zero => rw [best]
    | succ i => rw [best]; exact hm _ _ _ (min_le_right _ _)
  · rw [best]; exact hm _ _ _ ((min_le_left _ _).trans (min_le_right _ _))

theorem best_le {add : α → α → α} (hm : MonoAcc add) {D : Nat → Nat → α} {i j : Nat} {p : List (Nat × Nat)} {x : α} (h : To add D i j p x) : best add D i j ≤ x := by
  induction h with
  | base => rw [best]
  | step h hs ih => exact (best_le_step hm D hs).trans (hm _ _ _ ih)

theorem best_attained (add : α → α → α) (D : Nat → Nat → α) : ∀ (n i j : Nat), i + j = n → ∃ p, To add D i j p (best add D i j) := by
  intro n
  induction n using Nat.strong_induction_on with
  | _ n ih =>
    intro i j hn
    match i, j, hn with
    | 0, 0, _ => rw [best]; exact ⟨_, .base⟩
    | i + 1, 0, hn =>
      obtain ⟨p, hp⟩ := ih (i + 0) (by omega) i 0 rfl
      rw [best]
      exact ⟨_, .step hp (.inl rfl)⟩
    | 0, j + 1, hn =>
      obtain ⟨p, hp⟩ := ih (0 + j) (by omega) 0 j rfl
      rw [best]
      exact ⟨_, .step hp (.inr (.inl rfl))⟩
    | i + 1, j + 1, hn =>
      rw [best]
      obtain ⟨p, hp⟩ := ih _ (by omega) i (j + 1) rfl
      obtain ⟨q, hq⟩ := ih _ (by omega) i j rfl
      obtain ⟨r, hr⟩ := ih _ (by omega) (i + 1) j rfl
      rcases min_choice (min (best add D i (j + 1)) (best add D i j)) (best add D (i + 1) j) with h | h <;> rw [h]
      · rcases min_choice (best add D i (j + 1)) (best add D i j) with h | h <;> rw [h]
        · exact ⟨_, .step hp (.inl rfl)⟩
        · exact ⟨_, .step hq (.inr (.inr rfl))⟩
      · exact ⟨_, .step hr (.inr (.inl rfl))⟩

theorem to_length {add : α → α → α} {D : Nat → Nat → α} {i j : Nat} {p : List (Nat × Nat)} {x : α} (h : To add D i j p x) : max i j + 1 ≤ p.length ∧ p.length ≤ i + j + 1 := by
  induction h with
  | base => simp
  | step h hs ih =>
    rw [List.length_cons]
    rcases hs with hs | hs | hs <;> cases hs <;> dsimp only <;> omega

/-- the loop of `path_len` follows a path of minimal cost -/
theorem back_ok (add : α → α → α) (D c : Nat → Nat → α) : ∀ (fuel i j n : Nat), i + j ≤ fuel → (∀ i' ≤ i, ∀ j' ≤ j, c i' j' = best add D i' j') →
    ∃ p, back c fuel i j n = .ok (n + p.length - 1) ∧ To add D i j p (best add D i j) := by
  intro fuel
  induction fuel with
  | zero =>
    intro i j n hf hc
    obtain ⟨rfl, rfl⟩ : i = 0 ∧ j = 0 := by omega
    refine ⟨[(0, 0)], ?_, by rw [best]; exact .base⟩
    simp [back]
  | succ fuel ih =>
    intro i j n hf hc
    unfold back
    by_cases hij : 0 < i ∧ 0 < j
    · rw [if_pos hij]
      obtain ⟨i, rfl⟩ : ∃ k, i = k + 1 := ⟨i - 1, by omega⟩
      obtain ⟨j, rfl⟩ : ∃ k, j = k + 1 := ⟨j - 1, by omega⟩
      dsimp only
      simp only [Nat.add_sub_cancel]
      rw [hc i (by omega) (j + 1) le_rfl, hc (i + 1) le_rfl j (by omega), hc i (by omega) j (by omega)]
      split
      · rename_i h
        obtain ⟨p, p1, p2⟩ := ih i j (n + 1) (by omega) (fun i' hi' j' hj' => hc i' (by omega) j' (by omega))
        refine ⟨(i + 1, j + 1) :: p, ?_, ?_⟩
        · rw [p1, List.length_cons]; congr 1; omega
        · rw [best, min_eq_left (by rw [min_eq_right h.2]; exact h.1), min_eq_right h.2]
          exact .step p2 (.inr (.inr rfl))
      · rename_i hnd
        split
        · rename_i h
          obtain ⟨p, p1, p2⟩ := ih (i + 1) j (n + 1) (by omega) (fun i' hi' j' hj' => hc i' (by omega) j' (by omega))
          refine ⟨(i + 1, j + 1) :: p, ?_, ?_⟩
          · rw [p1, List.length_cons]; congr 1; omega
          · have hd : best add D (i + 1) j ≤ best add D i j := by
              by_contra hlt
              rw [not_le] at hlt
              exact hnd ⟨hlt.le, (hlt.le.trans h)⟩
            rw [best, min_eq_right (le_min h hd)]
            exact .step p2 (.inr (.inl rfl))
        · rename_i h
          rw [not_le] at h
          obtain ⟨p, p1, p2⟩ := ih i (j + 1) (n + 1) (by omega) (fun i' hi' j' hj' => hc i' (by omega) j' (by omega))
          refine ⟨(i + 1, j + 1) :: p, ?_, ?_⟩
          · rw [p1, List.length_cons]; congr 1; omega
          · have hd : best add D i (j + 1) ≤ best add D i j := by
              by_contra hlt
              rw [not_le] at hlt
              exact hnd ⟨(hlt.trans h).le, hlt.le⟩
            rw [best, min_eq_left hd, min_eq_left h.le]
            exact .step p2 (.inl rfl)
    · rw [if_neg hij]
      obtain ⟨p, hp⟩ := best_attained add D (i + j) i j rfl
      refine ⟨p, ?_, hp⟩
      obtain ⟨h1, h2⟩ := to_length hp
      congr 1
      split <;> split <;> omega

end ABX.DTW
