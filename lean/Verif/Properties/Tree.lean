import Verif.Proofs.Tree
/-!
Property C56: traversal, search and construction of the trees of misc/tinytree.py, and the columns determined by on / across / by.
-/
namespace ABX.Tree
open Spec

/-- C56: `preOrder` lists every node of the tree once, a node before the nodes below it and siblings from left to right. -/
theorem C56_preOrder (t : Tree) : ∃ ps, Lists t before ps (preOrder t) ∧ ps.Nodup :=
  ⟨pos t, ⟨pos_sorted t, (pos_at t).2, (pos_at t).1⟩, List.Pairwise.imp (S := fun p q => p ≠ q) (fun {p q} h e => before_irrefl p (by rw [← e] at h; exact h)) (pos_sorted t)⟩

/-- C56: `postOrder` lists every node of the tree once, a node after the nodes below it and siblings from left to right. -/
theorem C56_postOrder (t : Tree) : ∃ ps, Lists t beforeUp ps (postOrder t) ∧ ps.Nodup := by
  refine ⟨posUp t, ⟨posUp_sorted t, fun p => ((posUp_at t).2 p).trans ((pos_at t).2 p), (posUp_at t).1⟩, List.Pairwise.imp (S := fun p q => p ≠ q) ?_ (posUp_sorted t)⟩
  have irr : ∀ p : List Nat, ¬ beforeUp p p := by
    intro p
    induction p with
    | nil => simp [beforeUp]
    | cons i p ih => simp [beforeUp, ih]
  intro p q h e
  subst e
  exact irr p h

/-- C56: `count` is the number of nodes: the number of positions of the tree, however they are listed. -/
theorem C56_count (t : Tree) {ps : List (List Nat)} (hn : ps.Nodup) (h : ∀ p, p ∈ ps ↔ ∃ s, at? t p = some s) :
    count t = ps.length ∧ (postOrder t).length = ps.length := by
  obtain ⟨qs, ⟨-, q2, q3⟩, q4⟩ := C56_preOrder t
  obtain ⟨us, ⟨-, u2, u3⟩, u4⟩ := C56_postOrder t
  have h1 : (preOrder t).length = qs.length := by simpa using (congrArg List.length q3).symm
  have h2 : (postOrder t).length = us.length := by simpa using (congrArg List.length u3).symm
  have e1 := ((List.perm_ext_iff_of_nodup q4 hn).mpr (fun p => (q2 p).trans (h p).symm)).length_eq
  have e2 := ((List.perm_ext_iff_of_nodup u4 hn).mpr (fun p => (u2 p).trans (h p).symm)).length_eq
  exact ⟨by unfold count; omega, by omega⟩

/-- C56: `findChild` returns the matching node that comes first in pre-order. -/
theorem C56_find (t : Tree) (func : List (Tree → Bool)) (kwargs : List (String × Val)) (s : Tree) :
    findChild t func kwargs = some s ↔ ∃ p, at? t p = some s ∧ Matches func kwargs s ∧
      ∀ q s', at? t q = some s' → before q p → ¬ Matches func kwargs s' := by
  unfold findChild
  rw [find_eq, find_first (pos_sorted t) (pos_at t).1]
  constructor
  · rintro ⟨p, hp, h1, h2, h3⟩
    refine ⟨p, h1, (matches_iff _ _ _).mp h2, fun q s' hs hb hm => ?_⟩
    have := h3 q (((pos_at t).2 q).mpr ⟨s', hs⟩) hb s' hs
    rw [(matches_iff _ _ _).mpr hm] at this
    simp at this
  · rintro ⟨p, h1, h2, h3⟩
    refine ⟨p, ((pos_at t).2 p).mpr ⟨s, h1⟩, h1, (matches_iff _ _ _).mpr h2, fun q hq hb s' hs => ?_⟩
    rw [← Bool.not_eq_true, matches_iff]
    exact h3 q s' hs hb

/-- C56: `findChild` returns `None` exactly when no node matches. -/
theorem C56_find_none (t : Tree) (func : List (Tree → Bool)) (kwargs : List (String × Val)) :
    findChild t func kwargs = none ↔ ∀ p s, at? t p = some s → ¬ Matches func kwargs s := by
  unfold findChild
  rw [find_eq, List.find?_eq_none]
  constructor
  · intro h p s hs hm
    have : s ∈ preOrder t := by
      have : some s ∈ (preOrder t).map some := by
        rw [← (pos_at t).1]
        exact List.mem_map.mpr ⟨p, ((pos_at t).2 p).mpr ⟨s, hs⟩, hs⟩
      simpa using this
    exact h s this ((matches_iff _ _ _).mpr hm)
  · intro h s hs hm
    have : some s ∈ (pos t).map (at? t) := by
      rw [(pos_at t).1]
      simpa using hs
    obtain ⟨p, -, hp⟩ := List.mem_map.mp this
    exact h p s hp ((matches_iff _ _ _).mp hm)

/-- C56: a nested list of nodes is accepted exactly when every list in it follows a node, and raises `ValueError` otherwise. -/
theorem C56_accepts (t : Tree) (l : List Nest) :
    ((∃ t', addChildrenFromList t l = .ok t') ↔ wells false l) ∧ (¬ wells false l → addChildrenFromList t l = .error .valueError) := by
  have h := addFrom_well (depths l + 1) l (by omega)
  unfold addChildrenFromList
  by_cases hw : wells false l
  · obtain ⟨cs, hc⟩ := h.1 hw
    simp [hc, hw]
  · simp [h.2 hw, hw]

/-- C56: the tree built from a nested list of nodes below a new node: in pre-order its nodes are those of the text, in the order of the
text, at the depth of their nesting. -/
theorem C56_build {a : List (String × Val)} {l : List Nest} (hl : leaves l) {t' : Tree} (h : addChildrenFromList (.node a []) l = .ok t') :
    ∃ ps, Lists t' before ps (preOrder t') ∧
      ps.map (fun p => (p.length, (at? t' p).map Tree.attrs)) = ((0, a) :: texts 1 l).map (fun q => (q.1, some q.2)) := by
  refine ⟨pos t', ⟨pos_sorted t', (pos_at t').2, (pos_at t').1⟩, ?_⟩
  unfold addChildrenFromList at h
  split at h
  · simp at h
  · next cs hc =>
    obtain rfl := Except.ok.inj h
    have := pos_preD 0 ((Tree.node a []).append cs)
    simp only [Nat.zero_add] at this
    rw [this, preD_append, addFrom_text _ l 1 cs hl hc]
    simp [preD, preDs]

/-- C56: `constructFromList` gives the trees that become the children when the same list is added to a node, and raises in the same
cases. -/
theorem C56_construct (a : List (String × Val)) (l : List Nest) :
    addChildrenFromList (.node a []) l = (match constructFromList l with | .error e => .error e | .ok cs => .ok (.node a cs)) := by
  rw [constructFromList_eq]
  unfold addChildrenFromList
  cases addFrom (depths l + 1) l <;> simp [Tree.append]

namespace Spec
/-- `r` is the node named `n` that comes first in the forest: first tree, then pre-order -/
def FirstNamed (forest : List Tree) (n : String) (r : Tree) : Prop :=
  ∃ i t p, forest[i]? = some t ∧ at? t p = some r ∧ nameOf r = some n ∧
    ∀ (j : Nat) (t' : Tree) (q : List Nat) (s : Tree), forest[j]? = some t' → at? t' q = some s → (j < i ∨ j = i ∧ before q p) → nameOf s ≠ some n

/-- `c` is the name of a node of `r` or below -/
def Below (r : Tree) (c : String) : Prop := ∃ q s, at? r q = some s ∧ nameOf s = some c
end Spec

theorem matches_name (n : String) (s : Tree) : Matches [fun x => nameOf x == some n] [] s ↔ nameOf s = some n := by
  simp [Matches]

theorem rootOf_some (forest : List Tree) (n : String) (r : Tree) : rootOf forest n = some r ↔ FirstNamed forest n r := by
  unfold rootOf
  induction forest with
  | nil => simp [FirstNamed]
  | cons t forest ih =>
    simp only [List.map_cons, List.findSome?_cons, id]
    cases h : findChild t [fun x => nameOf x == some n] [] with
    | some s =>
      obtain ⟨p, p1, p2, p3⟩ := (C56_find _ _ _ _).mp h
      rw [matches_name] at p2
      simp only [Option.some.injEq]
      constructor
      · rintro rfl
        refine ⟨0, t, p, by simp, p1, p2, ?_⟩
        rintro j t' q s' hj hs (hlt | ⟨rfl, hb⟩)
        · omega
        · simp only [List.getElem?_cons_zero, Option.some.injEq] at hj
          subst hj
          have := p3 q s' hs hb
          rwa [matches_name] at this
      · rintro ⟨i, t', p', h1, h2, h3, h4⟩
        cases i with
        | succ i => exact absurd p2 (h4 0 t p s (by simp) p1 (Or.inl (by omega)))
        | zero =>
          simp only [List.getElem?_cons_zero, Option.some.injEq] at h1
          subst h1
          have : findChild t [fun x => nameOf x == some n] [] = some r := by
            rw [C56_find]
            refine ⟨p', h2, (matches_name _ _).mpr h3, fun q s' hs hb => ?_⟩
            rw [matches_name]
            exact h4 0 t q s' (by simp) hs (Or.inr ⟨rfl, hb⟩)
          rw [h] at this
          exact Option.some.inj this
    | none =>
      rw [C56_find_none] at h
      simp only [matches_name] at h
      simp only [ih]
      constructor
      · rintro ⟨i, t', p', h1, h2, h3, h4⟩
        refine ⟨i + 1, t', p', by simpa using h1, h2, h3, ?_⟩
        intro j u q s hj hs hlt
        cases j with
        | zero =>
          simp only [List.getElem?_cons_zero, Option.some.injEq] at hj
          subst hj
          exact h q s hs
        | succ j => exact h4 j u q s (by simpa using hj) hs (by rcases hlt with h | ⟨h, h'⟩; exacts [Or.inl (by omega), Or.inr ⟨by omega, h'⟩])
      · rintro ⟨i, t', p', h1, h2, h3, h4⟩
        cases i with
        | zero =>
          simp only [List.getElem?_cons_zero, Option.some.injEq] at h1
          subst h1
          exact absurd h3 (h p' r h2)
        | succ i =>
          refine ⟨i, t', p', by simpa using h1, h2, h3, ?_⟩
          intro j u q s hj hs hlt
          exact h4 (j + 1) u q s (by simpa using hj) hs (by rcases hlt with h | ⟨h, h'⟩; exacts [Or.inl (by omega), Or.inr ⟨by omega, h'⟩])

theorem namesBelow_iff (r : Tree) (c : String) : c ∈ namesBelow r ↔ Below r c := by
  unfold namesBelow Below
  rw [List.mem_filterMap]
  constructor
  · rintro ⟨s, hs, hc⟩
    have : some s ∈ (pos r).map (at? r) := by
      rw [(pos_at r).1]
      simpa using hs
    obtain ⟨p, -, hp⟩ := List.mem_map.mp this
    exact ⟨p, s, hp, hc⟩
  · rintro ⟨q, s, hs, hc⟩
    refine ⟨s, ?_, hc⟩
    have : some s ∈ (preOrder r).map some := by
      rw [← (pos_at r).1]
      exact List.mem_map.mpr ⟨q, ((pos_at r).2 q).mpr ⟨s, hs⟩, hs⟩
    simpa using this

/-- C56: the columns taken as determined by on / across / by are exactly the names of the nodes at and below the first node of the
hierarchy that has the name of the given column; columns of across and by that have no node are ignored. -/
theorem C56_determined {forest : List Tree} {on : String} {across by_ : List String} {cols : SideOps.Cols}
    (h : hierCols forest on across by_ = .ok cols) (c : String) :
    (c ∈ cols.on ↔ ∃ r, FirstNamed forest on r ∧ Below r c) ∧
    (c ∈ cols.across ↔ ∃ a ∈ across, ∃ r, FirstNamed forest a r ∧ Below r c) ∧
    (c ∈ cols.by_ ↔ ∃ b ∈ by_, ∃ r, FirstNamed forest b r ∧ Below r c) := by
  unfold hierCols at h
  have many : ∀ l : List String, c ∈ (l.filterMap (rootOf forest)).flatMap namesBelow ↔ ∃ a ∈ l, ∃ r, FirstNamed forest a r ∧ Below r c := by
    intro l
    simp only [List.mem_flatMap, List.mem_filterMap, namesBelow_iff]
    constructor
    · rintro ⟨r, ⟨a, ha, hr⟩, hb⟩
      exact ⟨a, ha, r, (rootOf_some _ _ _).mp hr, hb⟩
    · rintro ⟨a, ha, r, hr, hb⟩
      exact ⟨r, ⟨a, ha, (rootOf_some _ _ _).mpr hr⟩, hb⟩
  cases hr : rootOf forest on with
  | none => rw [hr] at h; simp at h
  | some r =>
    rw [hr] at h
    obtain rfl := Except.ok.inj h
    refine ⟨?_, many across, many by_⟩
    rw [namesBelow_iff]
    constructor
    · intro hb
      exact ⟨r, (rootOf_some _ _ _).mp hr, hb⟩
    · rintro ⟨r', h1, h2⟩
      rw [← rootOf_some, hr] at h1
      obtain rfl := Option.some.inj h1
      exact h2

/-- a named node -/
def named (s : String) (cs : List Tree := []) : Tree := .node [("name", .str s)] cs

/-- example: a tree a(b, c(d)) is built from the list [b, c, [d]], its post-order is b, d, c, a and the columns determined by c are c and d -/
example : ∃ t, addChildrenFromList (named "a") [.tree (named "b"), .tree (named "c"), .seq [.tree (named "d")]] = .ok t ∧
    (preOrder t).filterMap nameOf = ["a", "b", "c", "d"] ∧ (postOrder t).filterMap nameOf = ["b", "d", "c", "a"] ∧ count t = 4 ∧
    hierCols [named "z", t] "c" ["b"] ["x"] = .ok ⟨["c", "d"], ["b"], []⟩ :=
  ⟨named "a" [named "b", named "c" [named "d"]], by rfl, by decide, by decide, by decide, by rfl⟩

/-- example: a list that does not follow a node is refused -/
example : addChildrenFromList (named "a") [.tree (named "b"), .seq [], .seq []] = .error .valueError := by rfl

#print axioms C56_preOrder
#print axioms C56_postOrder
#print axioms C56_count
#print axioms C56_find
#print axioms C56_find_none
#print axioms C56_accepts
#print axioms C56_build
#print axioms C56_construct
#print axioms C56_determined

end ABX.Tree

#print axioms ABX.Tree.C56_preOrder
#print axioms ABX.Tree.C56_postOrder
#print axioms ABX.Tree.C56_count
#print axioms ABX.Tree.C56_find
#print axioms ABX.Tree.C56_find_none
#print axioms ABX.Tree.C56_accepts
#print axioms ABX.Tree.C56_build
#print axioms ABX.Tree.C56_construct
#print axioms ABX.Tree.C56_determined
