import Verif.Model.Tree
import Mathlib.Data.List.Pairwise
import Mathlib.Tactic.Linarith
/-!
Positions in a tree, and the proofs about the traversals.
-/
namespace ABX.Tree

namespace Spec

/-- the node at a position: the empty list is the root, `i :: p` is position p below the i-th child -/
def at? : Tree → List Nat → Option Tree
  | t, [] => some t
  | t, i :: p => match t.children[i]? with
    | none => none
    | some c => at? c p

/-- order of positions: a node before the nodes below it, siblings from left to right -/
def before : List Nat → List Nat → Prop
  | [], [] => False
  | [], _ :: _ => True
  | _ :: _, [] => False
  | i :: p, j :: q => i < j ∨ i = j ∧ before p q

/-- order of positions: a node after the nodes below it, siblings from left to right -/
def beforeUp : List Nat → List Nat → Prop
  | [], _ => False
  | _ :: _, [] => True
  | i :: p, j :: q => i < j ∨ i = j ∧ beforeUp p q

/-- `l` lists the nodes of `t`, every position once, in the given order of positions `ps` -/
def Lists (t : Tree) (r : List Nat → List Nat → Prop) (ps : List (List Nat)) (l : List Tree) : Prop :=
  ps.Pairwise r ∧ (∀ p, p ∈ ps ↔ ∃ s, at? t p = some s) ∧ ps.map (at? t) = l.map some

/-- a node satisfies the selectors of a search -/
def Matches (func : List (Tree → Bool)) (kwargs : List (String × Val)) (s : Tree) : Prop :=
  (∀ p ∈ kwargs, getAttr s p.1 = some p.2) ∧ ∀ x ∈ func, x s = true

mutual
/-- the nodes of an element as they stand in the text, with their depth -/
def text (d : Nat) : Nest → List (Nat × List (String × Val))
  | .tree t => [(d, t.attrs)]
  | .seq l => texts (d + 1) l
/-- the nodes of a nested list as they stand in the text, with their depth -/
def texts (d : Nat) : List Nest → List (Nat × List (String × Val))
  | [] => []
  | x :: xs => text d x ++ texts d xs
end

mutual
/-- every tree in an element is a single node -/
def leaf : Nest → Prop
  | .tree t => t.children = []
  | .seq l => leaves l
/-- every tree in a nested list is a single node -/
def leaves : List Nest → Prop
  | [] => True
  | x :: xs => leaf x ∧ leaves xs
end

mutual
/-- well formed element: a list is well formed inside -/
def well : Nest → Prop
  | .tree _ => True
  | .seq l => wells false l
/-- well formed nested list: a list always follows a tree; the first argument says whether a tree precedes -/
def wells : Bool → List Nest → Prop
  | _, [] => True
  | _, .tree _ :: xs => wells true xs
  | b, .seq l :: xs => b = true ∧ well (.seq l) ∧ wells false xs
end

end Spec

open Spec

/-! ### traversals -/

mutual
/-- positions in pre-order -/
def pos : Tree → List (List Nat)
  | .node _ cs => [] :: poss 0 cs
/-- positions of the children from the i-th one -/
def poss (i : Nat) : List Tree → List (List Nat)
  | [] => []
  | c :: cs => (pos c).map (i :: ·) ++ poss (i + 1) cs
end

mutual
/-- positions in post-order -/
def posUp : Tree → List (List Nat)
  | .node _ cs => possUp 0 cs ++ [[]]
/-- positions of the children from the i-th one -/
def possUp (i : Nat) : List Tree → List (List Nat)
  | [] => []
  | c :: cs => (posUp c).map (i :: ·) ++ possUp (i + 1) cs
end

/-- the node at a position below the children `cs` that start at number k -/
def atL (k : Nat) (cs : List Tree) : List Nat → Option Tree
  | [] => none
  | i :: p => if i < k then none else match cs[i - k]? with
    | none => none
    | some c => at? c p

theorem atL_zero (a : List (String × Val)) (cs : List Tree) (i : Nat) (p : List Nat) : at? (.node a cs) (i :: p) = atL 0 cs (i :: p) := by
  simp [at?, atL, Tree.children]

theorem atL_cons_self (k : Nat) (c : Tree) (cs : List Tree) (p : List Nat) : atL k (c :: cs) (k :: p) = at? c p := by
  simp [atL]

theorem atL_cons_lt {k i : Nat} (h : k < i) (c : Tree) (cs : List Tree) (p : List Nat) : atL k (c :: cs) (i :: p) = atL (k + 1) cs (i :: p) := by
  have e : i - k = (i - (k + 1)) + 1 := by omega
  simp only [atL, show ¬ i < k by omega, show ¬ i < k + 1 by omega, if_false, e, List.getElem?_cons_succ]

mutual
theorem pos_at (t : Tree) : (pos t).map (at? t) = (preOrder t).map some ∧ ∀ p, p ∈ pos t ↔ ∃ s, at? t p = some s := by
  cases t with
  | node a cs =>
    have h := poss_at 0 cs
    refine ⟨?_, ?_⟩
    · simp only [pos, preOrder, List.map_cons]
      refine congrArg₂ _ (by simp [at?]) ?_
      rw [← h.1]
      apply List.map_congr_left
      intro p hp
      obtain ⟨i, q, rfl, -⟩ := h.2.2 p hp
      rw [atL_zero]
    · intro p
      cases p with
      | nil => simp [pos, at?]
      | cons i p =>
        rw [atL_zero, ← h.2.1]
        simp [pos]
theorem poss_at (k : Nat) (cs : List Tree) : (poss k cs).map (atL k cs) = (preOrders cs).map some ∧
    (∀ p, p ∈ poss k cs ↔ ∃ s, atL k cs p = some s) ∧ ∀ p ∈ poss k cs, ∃ i q, p = i :: q ∧ k ≤ i := by
  cases cs with
  | nil =>
    refine ⟨by simp [poss, preOrders], fun p => ?_, by simp [poss]⟩
    cases p <;> simp [poss, atL]
  | cons c cs =>
    have h1 := pos_at c
    have h2 := poss_at (k + 1) cs
    have hcons : ∀ p ∈ poss (k + 1) cs, atL k (c :: cs) p = atL (k + 1) cs p := by
      intro p hp
      obtain ⟨i, q, rfl, hi⟩ := h2.2.2 p hp
      exact atL_cons_lt (by omega) _ _ _
    refine ⟨?_, ?_, ?_⟩
    · simp only [poss, preOrders, List.map_append, List.map_map]
      rw [← h1.1, ← h2.1]
      refine congrArg₂ _ ?_ (List.map_congr_left hcons)
      apply List.map_congr_left
      intro p _
      simp [atL_cons_self]
    · intro p
      cases p with
      | nil =>
        have : ¬ [] ∈ poss (k + 1) cs := fun hh => by
          obtain ⟨i, q, he, -⟩ := h2.2.2 [] hh
          simp at he
        simp [poss, atL, this]
      | cons i p =>
        simp only [poss, List.mem_append, List.mem_map]
        constructor
        · rintro (⟨q, hq, he⟩ | hh)
          · obtain ⟨rfl, rfl⟩ := List.cons.inj he
            rw [atL_cons_self]
            exact (h1.2 _).mp hq
          · rw [hcons _ hh]
            exact (h2.2.1 _).mp hh
        · rintro ⟨s, hs⟩
          by_cases hik : i = k
          · subst hik
            rw [atL_cons_self] at hs
            exact Or.inl ⟨p, (h1.2 p).mpr ⟨s, hs⟩, rfl⟩
          · have : k < i := by
              by_contra hlt
              simp [atL, show i < k by omega] at hs
            rw [atL_cons_lt this] at hs
            exact Or.inr ((h2.2.1 _).mpr ⟨s, hs⟩)
    · intro p hp
      simp only [poss, List.mem_append, List.mem_map] at hp
      rcases hp with ⟨q, _, rfl⟩ | hp
      · exact ⟨k, q, rfl, le_refl _⟩
      · obtain ⟨i, q, rfl, hi⟩ := h2.2.2 p hp
        exact ⟨i, q, rfl, by omega⟩
end

mutual
theorem pos_sorted (t : Tree) : (pos t).Pairwise before := by
  cases t with
  | node a cs =>
    simp only [pos, List.pairwise_cons]
    refine ⟨fun p hp => ?_, poss_sorted 0 cs⟩
    obtain ⟨i, q, rfl, -⟩ := (poss_at 0 cs).2.2 p hp
    trivial
theorem poss_sorted (k : Nat) (cs : List Tree) : (poss k cs).Pairwise before := by
  cases cs with
  | nil => simp [poss]
  | cons c cs =>
    simp only [poss, List.pairwise_append]
    refine ⟨?_, poss_sorted (k + 1) cs, ?_⟩
    · rw [List.pairwise_map]
      exact (pos_sorted c).imp (fun h => Or.inr ⟨rfl, h⟩)
    · intro p hp q hq
      obtain ⟨p', _, rfl⟩ := List.mem_map.mp hp
      obtain ⟨i, q', rfl, hi⟩ := (poss_at (k + 1) cs).2.2 q hq
      exact Or.inl (by omega)
end

mutual
theorem posUp_at (t : Tree) : (posUp t).map (at? t) = (postOrder t).map some ∧ ∀ p, p ∈ posUp t ↔ p ∈ pos t := by
  cases t with
  | node a cs =>
    have h := possUp_at 0 cs
    refine ⟨?_, ?_⟩
    · simp only [posUp, postOrder, List.map_append, List.map_cons, List.map_nil]
      refine congrArg₂ _ ?_ (by simp [at?])
      rw [← h.1]
      apply List.map_congr_left
      intro p hp
      obtain ⟨i, q, rfl, -⟩ := (poss_at 0 cs).2.2 p ((h.2 p).mp hp)
      rw [atL_zero]
    · intro p
      simp only [posUp, pos, List.mem_append, List.mem_cons, List.not_mem_nil, or_false]
      rw [h.2 p]
      exact or_comm
theorem possUp_at (k : Nat) (cs : List Tree) : (possUp k cs).map (atL k cs) = (postOrders cs).map some ∧
    (∀ p, p ∈ possUp k cs ↔ p ∈ poss k cs) := by
  cases cs with
  | nil => exact ⟨by simp [possUp, postOrders], by simp [possUp, poss]⟩
  | cons c cs =>
    have h1 := posUp_at c
    have h2 := possUp_at (k + 1) cs
    refine ⟨?_, ?_⟩
    · simp only [possUp, postOrders, List.map_append, List.map_map]
      rw [← h1.1, ← h2.1]
      refine congrArg₂ _ ?_ (List.map_congr_left ?_)
      · apply List.map_congr_left
        intro p _
        simp [atL_cons_self]
      · intro p hp
        obtain ⟨i, q, rfl, hi⟩ := (poss_at (k + 1) cs).2.2 p ((h2.2 p).mp hp)
        exact atL_cons_lt (by omega) _ _ _
    · intro p
      simp only [possUp, poss, List.mem_append, List.mem_map, h2.2 p]
      constructor
      · rintro (⟨q, hq, e⟩ | h)
        · exact Or.inl ⟨q, (h1.2 q).mp hq, e⟩
        · exact Or.inr h
      · rintro (⟨q, hq, e⟩ | h)
        · exact Or.inl ⟨q, (h1.2 q).mpr hq, e⟩
        · exact Or.inr h
end

mutual
theorem posUp_sorted (t : Tree) : (posUp t).Pairwise beforeUp := by
  cases t with
  | node a cs =>
    simp only [posUp, List.pairwise_append]
    refine ⟨possUp_sorted 0 cs, by simp, fun p hp q hq => ?_⟩
    simp only [List.mem_singleton] at hq
    subst hq
    obtain ⟨i, p', rfl, -⟩ := (poss_at 0 cs).2.2 p (((possUp_at 0 cs).2 p).mp hp)
    trivial
theorem possUp_sorted (k : Nat) (cs : List Tree) : (possUp k cs).Pairwise beforeUp := by
  cases cs with
  | nil => simp [possUp]
  | cons c cs =>
    simp only [possUp, List.pairwise_append]
    refine ⟨?_, possUp_sorted (k + 1) cs, ?_⟩
    · rw [List.pairwise_map]
      exact (posUp_sorted c).imp (fun h => Or.inr ⟨rfl, h⟩)
    · intro p hp q hq
      obtain ⟨p', _, rfl⟩ := List.mem_map.mp hp
      obtain ⟨i, q', rfl, hi⟩ := (poss_at (k + 1) cs).2.2 q (((possUp_at (k + 1) cs).2 q).mp hq)
      exact Or.inl (by omega)
end

theorem before_irrefl (p : List Nat) : ¬ before p p := by
  induction p with
  | nil => simp [before]
  | cons i p ih => simp [before, ih]

theorem before_total (p q : List Nat) : before p q ∨ p = q ∨ before q p := by
  induction p generalizing q with
  | nil => cases q <;> simp [before]
  | cons i p ih =>
    cases q with
    | nil => simp [before]
    | cons j q =>
      simp only [before, List.cons.injEq]
      rcases lt_trichotomy i j with h | h | h
      · exact Or.inl (Or.inl h)
      · rcases ih q with h' | h' | h'
        · exact Or.inl (Or.inr ⟨h, h'⟩)
        · exact Or.inr (Or.inl ⟨h, h'⟩)
        · exact Or.inr (Or.inr (Or.inr ⟨h.symm, h'⟩))
      · exact Or.inr (Or.inr (Or.inl h))

theorem before_asymm {p q : List Nat} (h : before p q) : ¬ before q p := by
  induction p generalizing q with
  | nil => cases q <;> simp_all [before]
  | cons i p ih =>
    cases q with
    | nil => simp [before] at h
    | cons j q =>
      simp only [before] at h ⊢
      rcases h with h | ⟨rfl, h⟩
      · rintro (h' | ⟨rfl, -⟩) <;> omega
      · rintro (h' | ⟨-, h'⟩)
        · omega
        · exact ih h h'

/-! ### search -/

theorem kwLoop_iff (s : Tree) (kw : List (String × Val)) : kwLoop s kw = true ↔ ∀ p ∈ kw, getAttr s p.1 = some p.2 := by
  induction kw with
  | nil => simp [kwLoop]
  | cons a kw ih =>
    obtain ⟨k, v⟩ := a
    simp only [kwLoop, List.mem_cons, forall_eq_or_imp]
    cases h : getAttr s k with
    | none => simp
    | some w =>
      by_cases hw : w = v
      · simp [hw, ih]
      · simp [hw]

theorem find_eq (func : List (Tree → Bool)) (kw : List (String × Val)) (l : List Tree) :
    find func kw l = l.find? (fun s => kwLoop s kw && func.all (fun x => x s)) := by
  induction l with
  | nil => rfl
  | cons s l ih =>
    have hkw : (if kw.isEmpty = true then true else kwLoop s kw) = kwLoop s kw := by
      cases kw <;> simp [kwLoop]
    simp only [find, hkw, List.find?_cons, ih]
    by_cases h : (kwLoop s kw && func.all (fun x => x s)) = true
    · rw [if_pos h, h]
    · rw [if_neg h]
      rw [Bool.not_eq_true] at h
      rw [h]

theorem matches_iff (func : List (Tree → Bool)) (kw : List (String × Val)) (s : Tree) :
    (kwLoop s kw && func.all (fun x => x s)) = true ↔ Matches func kw s := by
  unfold Matches
  rw [Bool.and_eq_true, kwLoop_iff, List.all_eq_true]

/-- the first element of a list in terms of sorted positions -/
theorem find_first {t : Tree} {ps : List (List Nat)} {l : List Tree} (hs : ps.Pairwise before) (hm : ps.map (at? t) = l.map some) (P : Tree → Bool) (s : Tree) :
    l.find? P = some s ↔ ∃ p ∈ ps, at? t p = some s ∧ P s = true ∧ ∀ q ∈ ps, before q p → ∀ s', at? t q = some s' → P s' = false := by
  induction l generalizing ps with
  | nil =>
    have : ps = [] := by simpa using hm
    subst this
    simp
  | cons x l ih =>
    cases ps with
    | nil => simp at hm
    | cons p0 ps =>
      simp only [List.map_cons, List.cons.injEq] at hm
      obtain ⟨h0, hm⟩ := hm
      rw [List.pairwise_cons] at hs
      rw [List.find?_cons]
      by_cases hx : P x = true
      · rw [hx]
        constructor
        · rintro h
          obtain rfl := Option.some.inj h
          refine ⟨p0, by simp, h0, hx, fun q hq hb => ?_⟩
          rcases List.mem_cons.mp hq with rfl | hq
          · exact absurd hb (before_irrefl _)
          · exact absurd hb (before_asymm (hs.1 q hq))
        · rintro ⟨p, hp, hps, hPs, hmin⟩
          rcases List.mem_cons.mp hp with rfl | hp
          · rw [h0] at hps
            exact hps
          · have := hmin p0 (by simp) (hs.1 p hp) x h0
            rw [hx] at this
            exact absurd this (by simp)
      · rw [show P x = false from by simpa using hx]
        rw [ih hs.2 hm]
        constructor
        · rintro ⟨p, hp, a, b, c⟩
          refine ⟨p, by simp [hp], a, b, fun q hq hb s' hs' => ?_⟩
          rcases List.mem_cons.mp hq with rfl | hq
          · rw [h0] at hs'
            obtain rfl := Option.some.inj hs'
            simpa using hx
          · exact c q hq hb s' hs'
        · rintro ⟨p, hp, a, b, c⟩
          rcases List.mem_cons.mp hp with rfl | hp
          · rw [h0] at a
            obtain rfl := Option.some.inj a
            exact absurd b hx
          · exact ⟨p, hp, a, b, fun q hq => c q (by simp [hq])⟩

/-! ### construction -/

theorem addLoop_skip (rec : List Nest → Except Err (List Tree)) (p : Option Nest × Option Nest) (v : List (Option Nest × Option Nest)) :
    addLoop rec true (p :: v) = addLoop rec false v := by simp [addLoop]

/-- the pairs starting from an element -/
def tailPairs (cs : List Nest) : List (Option Nest × Option Nest) := (cs.map some).zip ((cs.drop 1).map some ++ [none])

theorem pairs_eq (cs : List Nest) : ∃ p, pairs cs = p :: tailPairs cs := by
  cases cs with
  | nil => exact ⟨(none, none), by simp [pairs, tailPairs]⟩
  | cons c cs => exact ⟨(none, some c), by simp [pairs, tailPairs]⟩

theorem tailPairs_one (c : Nest) : tailPairs [c] = [(some c, none)] := by simp [tailPairs]

theorem tailPairs_cons (c d : Nest) (cs : List Nest) : tailPairs (c :: d :: cs) = (some c, some d) :: tailPairs (d :: cs) := by
  simp [tailPairs]

/-- `addChildrenFromList` by cases on the list -/
def add (fuel : Nat) : List Nest → Except Err (List Tree)
  | [] => .ok []
  | .seq _ :: _ => .error .valueError
  | .tree t :: .seq l :: rest => match addFrom fuel l with
    | .error e => .error e
    | .ok ds => match add fuel rest with
      | .error e => .error e
      | .ok r => .ok (t.append ds :: r)
  | .tree t :: rest => match add fuel rest with
    | .error e => .error e
    | .ok r => .ok (t :: r)

theorem addFrom_succ (fuel : Nat) (cs : List Nest) : addFrom (fuel + 1) cs = add fuel cs := by
  obtain ⟨p, hp⟩ := pairs_eq cs
  rw [addFrom, hp, addLoop_skip]
  clear hp p
  induction cs using add.induct fuel with
  | case1 => simp [tailPairs, addLoop, add]
  | case2 l rest =>
    cases rest with
    | nil => simp [tailPairs_one, addLoop, add]
    | cons d rest => simp [tailPairs_cons, addLoop, add]
  | case3 t l rest e he => simp [tailPairs_cons, addLoop, add, he]
  | case4 t l rest ds he e he2 ih =>
    rw [tailPairs_cons]
    have h2 : addLoop (addFrom fuel) true (tailPairs (.seq l :: rest)) = addLoop (addFrom fuel) false (tailPairs rest) := by
      cases rest with
      | nil => simp [addLoop_skip, tailPairs]
      | cons d rest => rw [tailPairs_cons, addLoop_skip]
    simp [addLoop, add, he, h2, ih, he2]
  | case5 t l rest ds he r he2 ih =>
    rw [tailPairs_cons]
    have h2 : addLoop (addFrom fuel) true (tailPairs (.seq l :: rest)) = addLoop (addFrom fuel) false (tailPairs rest) := by
      cases rest with
      | nil => simp [addLoop_skip, tailPairs]
      | cons d rest => rw [tailPairs_cons, addLoop_skip]
    simp [addLoop, add, he, h2, ih, he2]
  | case6 t rest hne e he ih =>
    cases rest with
    | nil => simp [add] at he
    | cons d rest =>
      cases d with
      | seq l => exact absurd rfl (hne l rest)
      | tree u =>
        rw [tailPairs_cons]
        rw [he] at ih
        simp [addLoop, add, he, ih]
  | case7 t rest hne r he ih =>
    cases rest with
    | nil => simp [tailPairs_one, addLoop, add]
    | cons d rest =>
      cases d with
      | seq l => exact absurd rfl (hne l rest)
      | tree u =>
        rw [tailPairs_cons]
        rw [he] at ih
        simp [addLoop, add, he, ih]

mutual
/-- the nodes in pre-order with their depths -/
def preD (d : Nat) : Tree → List (Nat × List (String × Val))
  | .node a cs => (d, a) :: preDs (d + 1) cs
/-- the same for a list of children -/
def preDs (d : Nat) : List Tree → List (Nat × List (String × Val))
  | [] => []
  | c :: cs => preD d c ++ preDs d cs
end

mutual
theorem pos_preD (d : Nat) (t : Tree) : (pos t).map (fun p => (d + p.length, (at? t p).map Tree.attrs)) = (preD d t).map (fun q => (q.1, some q.2)) := by
  cases t with
  | node a cs =>
    simp only [pos, preD, List.map_cons]
    refine congrArg₂ _ (by simp [at?, Tree.attrs]) ?_
    rw [← poss_preD d 0 cs]
    apply List.map_congr_left
    intro p hp
    obtain ⟨i, q, rfl, -⟩ := (poss_at 0 cs).2.2 p hp
    rw [atL_zero]
theorem poss_preD (d k : Nat) (cs : List Tree) : (poss k cs).map (fun p => (d + p.length, (atL k cs p).map Tree.attrs)) = (preDs (d + 1) cs).map (fun q => (q.1, some q.2)) := by
  cases cs with
  | nil => simp [poss, preDs]
  | cons c cs =>
    simp only [poss, preDs, List.map_append, List.map_map]
    rw [← pos_preD (d + 1) c, ← poss_preD d (k + 1) cs]
    refine congrArg₂ _ ?_ (List.map_congr_left ?_)
    · apply List.map_congr_left
      intro p _
      simp [atL_cons_self]
      omega
    · intro p hp
      obtain ⟨i, q, rfl, hi⟩ := (poss_at (k + 1) cs).2.2 p hp
      simp only [atL_cons_lt (show k < i by omega)]
end

theorem preD_append (d : Nat) (t : Tree) (ds : List Tree) : preD d (t.append ds) = preD d t ++ preDs (d + 1) ds := by
  cases t with
  | node a cs =>
    simp only [Tree.append, preD, List.cons_append]
    congr 1
    induction cs with
    | nil => simp [preDs]
    | cons c cs ih => simp [preDs, ih]

theorem preD_leaf {t : Tree} (h : t.children = []) (d : Nat) : preD d t = [(d, t.attrs)] := by
  cases t with
  | node a cs =>
    simp only [Tree.children] at h
    subst h
    simp [preD, preDs, Tree.attrs]

theorem addFrom_text (n : Nat) : ∀ (l : List Nest) (d : Nat) (cs : List Tree), leaves l → addFrom n l = .ok cs → preDs d cs = texts d l := by
  induction n with
  | zero => intro l d cs _ h; simp [addFrom] at h
  | succ n ihn =>
    intro l
    induction l using add.induct n with
    | case1 =>
      intro d cs _ h
      rw [addFrom_succ] at h
      simp only [add, Except.ok.injEq] at h
      subst h
      simp [preDs, texts]
    | case2 l rest => intro d cs _ h; rw [addFrom_succ] at h; simp [add] at h
    | case3 t l rest e he => intro d cs _ h; rw [addFrom_succ] at h; simp [add, he] at h
    | case4 t l rest ds he e he2 ih => intro d cs _ h; rw [addFrom_succ] at h; simp [add, he, he2] at h
    | case5 t l rest ds he r he2 ih =>
      intro d cs hl h
      rw [addFrom_succ] at h
      simp only [add, he, he2, Except.ok.injEq] at h
      subst h
      simp only [leaves, leaf] at hl
      simp only [preDs, texts, text, preD_append, preD_leaf hl.1]
      rw [ihn l (d + 1) ds hl.2.1 he, ih d r hl.2.2 (by rw [addFrom_succ]; exact he2)]
      simp
    | case6 t rest hne e he ih =>
      intro d cs hl h
      rw [addFrom_succ] at h
      rw [add, he] at h
      · simp at h
      · exact hne
    | case7 t rest hne r he ih =>
      intro d cs hl h
      rw [addFrom_succ] at h
      rw [add, he] at h
      · simp only [Except.ok.injEq] at h
        subst h
        simp only [leaves, leaf] at hl
        simp only [preDs, texts, text, preD_leaf hl.1]
        rw [ih d r hl.2 (by rw [addFrom_succ]; exact he)]
      · exact hne

theorem wells_tree {rest : List Nest} (h : ∀ l r, rest = .seq l :: r → False) : wells true rest ↔ wells false rest := by
  cases rest with
  | nil => simp [wells]
  | cons x r =>
    cases x with
    | tree t => simp [wells]
    | seq l => exact (h l r rfl).elim

theorem addFrom_well (n : Nat) : ∀ (l : List Nest), depths l < n →
    (wells false l → ∃ cs, addFrom n l = .ok cs) ∧ (¬ wells false l → addFrom n l = .error .valueError) := by
  induction n with
  | zero => intro l h; omega
  | succ n ihn =>
    intro l
    induction l using add.induct n with
    | case1 => intro _; rw [addFrom_succ]; simp [add, wells]
    | case2 l rest => intro _; rw [addFrom_succ]; simp [add, wells]
    | case3 t l rest e he =>
      intro hd
      simp only [depths, Nest.depth] at hd
      have := ihn l (by omega)
      rw [addFrom_succ]
      by_cases hw : wells false l
      · obtain ⟨cs, hc⟩ := this.1 hw
        rw [hc] at he
        simp at he
      · rw [this.2 hw] at he
        obtain rfl := Except.error.inj he
        simp [add, this.2 hw, wells, well, hw]
    | case4 t l rest ds he e he2 ih =>
      intro hd
      simp only [depths, Nest.depth] at hd
      have h1 := ihn l (by omega)
      have h2 := ih (by omega)
      rw [addFrom_succ] at h2 ⊢
      have hw1 : wells false l := by
        by_contra hw
        rw [h1.2 hw] at he
        simp at he
      simp only [wells, well, hw1, add, he, true_and]
      by_cases hw : wells false rest
      · obtain ⟨cs, hc⟩ := h2.1 hw
        simp [hc]
        exact hw
      · simp [h2.2 hw, hw]
    | case5 t l rest ds he r he2 ih =>
      intro hd
      simp only [depths, Nest.depth] at hd
      have h1 := ihn l (by omega)
      have h2 := ih (by omega)
      rw [addFrom_succ] at h2 ⊢
      have hw1 : wells false l := by
        by_contra hw
        rw [h1.2 hw] at he
        simp at he
      simp only [wells, well, hw1, add, he, true_and]
      by_cases hw : wells false rest
      · obtain ⟨cs, hc⟩ := h2.1 hw
        simp [hc]
        exact hw
      · simp [h2.2 hw, hw]
    | case6 t rest hne e he ih =>
      intro hd
      simp only [depths, Nest.depth] at hd
      have h2 := ih (by omega)
      rw [addFrom_succ] at h2 ⊢
      rw [add]
      · simp only [wells]
        rw [wells_tree hne]
        by_cases hw : wells false rest
        · obtain ⟨cs, hc⟩ := h2.1 hw
          simp [hc]
          exact hw
        · simp [h2.2 hw, hw]
      · exact hne
    | case7 t rest hne r he ih =>
      intro hd
      simp only [depths, Nest.depth] at hd
      have h2 := ih (by omega)
      rw [addFrom_succ] at h2 ⊢
      rw [add]
      · simp only [wells]
        rw [wells_tree hne]
        by_cases hw : wells false rest
        · obtain ⟨cs, hc⟩ := h2.1 hw
          simp [hc]
          exact hw
        · simp [h2.2 hw, hw]
      · exact hne

theorem add_congr {n m : Nat} (l : List Nest) : (∀ k, depths k < depths l → addFrom n k = addFrom m k) → add n l = add m l := by
  induction l using add.induct n with
  | case1 => intro _; simp [add]
  | case2 l rest => intro _; simp [add]
  | case3 t l rest e he =>
    intro h
    have := h l (by simp only [depths, Nest.depth]; omega)
    rw [he] at this
    simp [add, he, ← this]
  | case4 t l rest ds he e he2 ih =>
    intro h
    have := h l (by simp only [depths, Nest.depth]; omega)
    rw [he] at this
    simp only [add, he, ← this, ih (fun k hk => h k (by simp only [depths, Nest.depth]; omega))]
  | case5 t l rest ds he r he2 ih =>
    intro h
    have := h l (by simp only [depths, Nest.depth]; omega)
    rw [he] at this
    simp only [add, he, ← this, ih (fun k hk => h k (by simp only [depths, Nest.depth]; omega))]
  | case6 t rest hne e he ih =>
    intro h
    rw [add, add, ih (fun k hk => h k (by simp only [depths, Nest.depth]; omega))]
    · exact hne
    · exact hne
  | case7 t rest hne r he ih =>
    intro h
    rw [add, add, ih (fun k hk => h k (by simp only [depths, Nest.depth]; omega))]
    · exact hne
    · exact hne

theorem addFrom_fuel (n : Nat) : ∀ (m : Nat) (l : List Nest), depths l < n → depths l < m → addFrom n l = addFrom m l := by
  induction n with
  | zero => intro m l h; omega
  | succ n ih =>
    intro m l h1 h2
    cases m with
    | zero => omega
    | succ m =>
      rw [addFrom_succ, addFrom_succ]
      exact add_congr l (fun k hk => ih m k (by omega) (by omega))

/-- the heads after reading `l` -/
def heads (hs : List Tree) (l : List Nest) : Except Err (List Tree) :=
  match add (depths l) l with
  | .error e => .error e
  | .ok r => .ok (hs ++ r)

theorem add_fuel {n : Nat} {l : List Nest} (h : depths l ≤ n) : add n l = add (depths l) l := by
  rw [← addFrom_succ, ← addFrom_succ]
  exact addFrom_fuel _ _ _ (by omega) (by omega)

theorem construct_eq (l : List Nest) : ∀ hs : List Tree,
    (∀ prev, (prev = none ∨ isSeq prev = true) → constructLoop prev l hs = heads hs l) ∧
    ∀ t h, constructLoop (some (.tree t)) l (hs ++ [h]) = (match l with
      | .seq k :: rest => match addChildrenFromList h k with
        | .error e => .error e
        | .ok h' => heads (hs ++ [h']) rest
      | _ => heads (hs ++ [h]) l) := by
  induction l with
  | nil => intro hs; simp [constructLoop, heads, add]
  | cons x l ih =>
    intro hs
    cases x with
    | tree t =>
      have key : ∀ hs : List Tree, constructLoop (some (.tree t)) l (hs ++ [t]) = heads hs (.tree t :: l) := by
        intro hs
        rw [(ih hs).2]
        cases l with
        | nil => simp [heads, add]
        | cons y l =>
          cases y with
          | tree u =>
            have e1 : add (depths (.tree t :: .tree u :: l)) (.tree t :: .tree u :: l) = (match add (depths (.tree u :: l)) (.tree u :: l) with
                | .error e => .error e
                | .ok r => .ok (t :: r)) := by
              rw [← add_fuel (n := depths (.tree t :: .tree u :: l)) (l := .tree u :: l) (by simp only [depths, Nest.depth]; omega)]
              exact add.eq_4 _ _ _ (by simp)
            simp only [heads, e1]
            cases add (depths (.tree u :: l)) (.tree u :: l) <;> simp
          | seq k =>
            simp only [heads, add, addChildrenFromList]
            rw [addFrom_fuel (depths (.tree t :: .seq k :: l)) (depths k + 1) k (by simp only [depths, Nest.depth]; omega) (by omega)]
            cases addFrom (depths k + 1) k with
            | error e => simp
            | ok ds =>
              simp only
              rw [add_fuel (n := depths (.tree t :: .seq k :: l)) (by simp only [depths, Nest.depth]; omega)]
              cases add (depths l) l <;> simp
      refine ⟨fun prev _ => ?_, fun t' h => ?_⟩
      · rw [constructLoop, key]
      · rw [constructLoop, key]
    | seq k =>
      refine ⟨fun prev hprev => ?_, fun t' h => ?_⟩
      · have : (prev.isNone || isSeq prev) = true := by
          rcases hprev with rfl | h
          · simp
          · simp [h]
        rw [constructLoop]
        simp [this, heads, add]
      · rw [constructLoop]
        have : ((some (Nest.tree t')).isNone || isSeq (some (Nest.tree t'))) = false := by simp [isSeq]
        simp only [this, Bool.false_eq_true, if_false, List.getLast?_append, List.getLast?_singleton, Option.some_or, List.dropLast_concat]
        cases addChildrenFromList h k with
        | error e => rfl
        | ok h' => exact (ih (hs ++ [h'])).1 (some (.seq k)) (Or.inr rfl)

theorem constructFromList_eq (l : List Nest) : constructFromList l = addFrom (depths l + 1) l := by
  unfold constructFromList
  rw [(construct_eq l []).1 none (Or.inl rfl), addFrom_succ]
  unfold heads
  cases add (depths l) l <;> simp

end ABX.Tree
