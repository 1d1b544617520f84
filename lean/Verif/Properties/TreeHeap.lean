import Verif.Proofs.TreeHeap2
import Verif.Proofs.TreeHeap3
/-!
Properties C68 and C69: editing and navigation of the linked trees of misc/tinytree.py.
-/
namespace ABX.TreeHeap
open Spec

/-! ### C68: editing -/

/-- C68: `p.addChild(n)` keeps the links of a forest exactly when `n` has no parent and is not `p` or above it.  (The code checks neither.) -/
theorem C68_addChild {h : Heap} (hf : Forest h) (p n : Nat) : Forest (addChild h p n) ↔ h.parent n = none ∧ ¬ Above h p n := by
  refine ⟨fun hf' => ?_, fun h1 => addChild_forest hf h1.1 h1.2⟩
  have hpar : (addChild h p n).parent n = some p := by simp [addChild, register, upd]
  refine ⟨?_, ?_⟩
  · cases hn : h.parent n with
    | none => rfl
    | some q =>
      exfalso
      have hm : n ∈ h.children q := (hf.link q n).mpr hn
      by_cases hq : q = p
      · subst hq
        have := hf'.once q
        simp only [addChild, register, upd, if_pos] at this
        exact (List.nodup_append.mp this).2.2 n hm n (by simp) rfl
      · have : (addChild h p n).parent n = some q := (hf'.link q n).mp (by simpa [addChild, register, upd, hq] using hm)
        rw [hpar] at this
        exact hq (Option.some.inj this).symm
  · intro ha
    refine not_above_parent hf' hpar ?_
    -- the objects on the way from `p` to `n` keep their parents
    have up : ∀ {x}, Above h x n → Above (addChild h p n) x n := by
      intro x hx
      induction hx using Relation.ReflTransGen.head_induction_on with
      | refl => exact .refl
      | @head x y h1 _ ih =>
        by_cases hx : x = n
        · subst hx; exact .refl
        · refine .head ?_ ih
          simpa [addChild, register, upd, hx] using h1
    exact up ha

/-- C68: `remove` detaches an object from its parent and returns its place; nothing else changes. -/
theorem C68_remove {h : Heap} (hf : Forest h) {n p : Nat} (hp : h.parent n = some p) :
    ∃ h' i, remove h n = .ok (h', i) ∧ (h.children p)[i]? = some n ∧ Forest h' ∧ (∀ q, h'.children q = (h.children q).erase n) ∧ ∀ x, h'.parent x = if x = n then none else h.parent x := by
  obtain ⟨h', e1, e2, e3⟩ := remove_ok hf hp
  refine ⟨h', _, e1, ?_, remove_forest hf e2 e3, e2, e3⟩
  exact List.getElem?_idxOf ((hf.link p n).mpr hp)

/-- C68: an object without parent cannot be removed. -/
theorem C68_remove_root {h : Heap} {n : Nat} (hp : h.parent n = none) : remove h n = .error .valueError := by
  simp [remove, index, hp]

/-- C68: an object that is added and removed is as before, and at the end of the list. -/
theorem C68_add_remove {h : Heap} (hf : Forest h) {p n : Nat} (hr : h.parent n = none) (ha : ¬ Above h p n) :
    remove (addChild h p n) n = .ok (h, (h.children p).length) := by
  have hf' := addChild_forest hf hr ha
  have hpar : (addChild h p n).parent n = some p := by simp [addChild, register, upd]
  obtain ⟨h', e1, e2, e3⟩ := remove_ok hf' hpar
  have hnm : ∀ q, n ∉ h.children q := by
    intro q hq
    rw [hf.link, hr] at hq; cases hq
  have hc : (addChild h p n).children p = h.children p ++ [n] := by simp [addChild, register, upd]
  rw [e1, hc, List.idxOf_append_of_notMem (hnm p)]
  have e4 : h' = h := by
    refine heap_ext (fun q => ?_) (fun x => ?_)
    · rw [e2]
      by_cases hq : q = p
      · subst hq
        rw [hc, List.erase_append_right _ (hnm q)]
        simp
      · simp only [addChild, register, upd, if_neg hq]
        exact List.erase_of_not_mem (hnm q)
    · rw [e3]
      by_cases hx : x = n
      · rw [if_pos hx, hx]; exact hr.symm
      · simp [addChild, register, upd, hx]
  rw [e4]
  simp

/-- C68: `clear` detaches all the children of an object and nothing else. -/
theorem C68_clear {h : Heap} (hf : Forest h) (n : Nat) :
    ∃ h', clear h n = .ok h' ∧ Forest h' ∧ (∀ q, h'.children q = if q = n then [] else h.children q) ∧ ∀ x, h'.parent x = if h.parent x = some n then none else h.parent x :=
  clear_ok hf n

/-- C68: `n.replace(nodes)` puts the nodes in the place of `n`, when they are distinct and have no parent (one may be `n`), and none is above the place. -/
theorem C68_replace {h : Heap} (hf : Forest h) {n p : Nat} (hp : h.parent n = some p) {nodes : List Nat} (hn : nodes.Nodup) (hr : ∀ x ∈ nodes, x ≠ n → h.parent x = none)
    (ha : ∀ x ∈ nodes, ¬ Above h p x) :
    ∃ h', replace h n nodes = .ok h' ∧ Forest h' ∧ (∀ q, h'.children q = (h.children q).flatMap (fun c => if c = n then nodes else [c])) ∧
      ∀ x, h'.parent x = if x ∈ nodes then some p else if x = n then none else h.parent x :=
  replace_ok hf hp hn hr ha

/-- C68: replacement by nothing is removal. -/
theorem C68_replace_nil {h : Heap} (hf : Forest h) {n p : Nat} (hp : h.parent n = some p) :
    ∃ h' i, replace h n [] = .ok h' ∧ remove h n = .ok (h', i) := by
  obtain ⟨h1, e1, e2, e3⟩ := remove_ok hf hp
  refine ⟨h1, _, ?_, e1⟩
  simp only [replace, e1, hp, registerAll, List.append_nil, List.take_append_drop, Except.ok.injEq]
  obtain ⟨c, q⟩ := h1
  simp only [Heap.mk.injEq, and_true]
  funext x
  by_cases hx : x = p <;> simp [upd, hx]

/-- C68: `n.inject(node)` puts `node` between `n` and its children, after the children that `node` had, when `node` has no parent and is not `n` or above it. -/
theorem C68_inject {h : Heap} (hf : Forest h) {n node : Nat} (hr : h.parent node = none) (ha : ¬ Above h n node) :
    ∃ h', inject h n node = .ok h' ∧ Forest h' ∧ (∀ q, h'.children q = if q = n then [node] else if q = node then h.children node ++ h.children n else h.children q) ∧
      ∀ x, h'.parent x = if x = node then some n else if h.parent x = some n then some node else h.parent x :=
  inject_ok hf hr ha

/-- C68: `n.reparent(node)` puts `node` in the place of `n` and `n` below it, when `node` has no parent and is not above the place. -/
theorem C68_reparent {h : Heap} (hf : Forest h) {n p node : Nat} (hp : h.parent n = some p) (hr : h.parent node = none) (ha : ¬ Above h p node) :
    ∃ h', reparent h n node = .ok h' ∧ Forest h' ∧ (∀ q, h'.children q = if q = node then (h.children node) ++ [n] else (h.children q).map (fun c => if c = n then node else c)) ∧
      ∀ x, h'.parent x = if x = n then some node else if x = node then some p else h.parent x :=
  reparent_ok hf hp hr ha

/-- C68: a root cannot be reparented or replaced. -/
theorem C68_reparent_root {h : Heap} {n : Nat} (hp : h.parent n = none) (node : Nat) (nodes : List Nat) :
    reparent h n node = .error .valueError ∧ replace h n nodes = .error .valueError := by
  simp [reparent, replace, C68_remove_root hp]

/-- C68: any sequence of operations makes a forest, when an object that gets a parent has none at that time and is not put below itself.
Partial: the code does not check the conditions, and without them the links of children and parents disagree (`C68_addChild`, and the examples). -/
theorem C68_edits_partial {h : Heap} (hr : Reach h) : Forest h := by
  induction hr with
  | new => exact ⟨by simp, by simp, fun _ => 0, 0, by simp, by simp⟩
  | add _ h1 h2 ih => exact (C68_addChild ih _ _).mpr ⟨h1, h2⟩
  | @remove h n h' i _ h1 ih =>
    cases hp : h.parent n with
    | none => rw [C68_remove_root hp] at h1; cases h1
    | some p =>
      obtain ⟨h2, j, e1, -, e2, -⟩ := C68_remove ih hp
      rw [e1] at h1
      obtain ⟨rfl, -⟩ := Prod.mk.inj (Except.ok.inj h1)
      exact e2
  | @clear h n h' _ h1 ih =>
    obtain ⟨h2, e1, e2, -⟩ := C68_clear ih n
    rw [e1] at h1
    exact Except.ok.inj h1 ▸ e2
  | replace _ h1 h2 h3 h4 h5 ih =>
    obtain ⟨h6, e1, e2, -⟩ := C68_replace ih h1 h2 h3 h4
    rw [e1] at h5
    exact Except.ok.inj h5 ▸ e2
  | inject _ h1 h2 h3 ih =>
    obtain ⟨h6, e1, e2, -⟩ := C68_inject ih h1 h2
    rw [e1] at h3
    exact Except.ok.inj h3 ▸ e2
  | reparent _ h1 h2 h3 h4 ih =>
    obtain ⟨h6, e1, e2, -⟩ := C68_reparent ih h1 h2 h3
    rw [e1] at h4
    exact Except.ok.inj h4 ▸ e2

/-- C68: a nested list of distinct objects without links is added to an object as the trees that it specifies, after its children; nothing else changes. -/
theorem C68_list {l : List Nest} {rs : List Rose} (he : Encodes l rs) {h : Heap} (hf : Forest h) {p : Nat} (hn : (ids rs).Nodup) (hi : ∀ n ∈ ids rs, Isolated h n) (hp : p ∉ ids rs) :
    ∃ h', addFrom h p none l = .ok h' ∧ Forest h' ∧ h'.children p = h.children p ++ rs.map Rose.root ∧ Built h' rs ∧ (∀ q, q ≠ p → q ∉ ids rs → h'.children q = h.children q) ∧
      ∀ x, x ∉ ids rs → h'.parent x = h.parent x :=
  addFrom_ok he hf hn hi hp

/-- C68: a list that specifies no trees (a list in it does not follow an object) raises `ValueError`. -/
theorem C68_list_error {l : List Nest} (hl : ¬ ∃ rs, Encodes l rs) (h : Heap) (p : Nat) : addFrom h p none l = .error .valueError := by
  cases he : addFrom h p none l with
  | error e => rw [addFrom_error (sizeOf l + 1) l (by omega) he]
  | ok h' => exact absurd (addFrom_encodes (sizeOf l + 1) l (by omega) he) hl

/-! ### C69: navigation -/

/-- C69: in a forest the loops end: with enough steps `pathToRoot` and `preOrder` give lists for all objects. -/
theorem C69_ends {h : Heap} (hf : Forest h) : ∃ F, ∀ fuel, F ≤ fuel → ∀ n, (∃ l, pathToRoot h fuel n = .ok l) ∧ ∃ l, preOrder h fuel n = .ok l := ends hf

/-- C69: `pathToRoot` is the path to the root: there is one, without repetition, and it has the objects above; `pathFromRoot` is the same path from the other end, and `getDepth` is its length. -/
theorem C69_path {h : Heap} (hf : Forest h) : ∃ F, ∀ fuel, F ≤ fuel → ∀ n, ∃ l, pathToRoot h fuel n = .ok l ∧ Path h n l ∧ (∀ l', Path h n l' → l' = l) ∧ l.Nodup ∧ (∀ a, a ∈ l ↔ Above h n a) ∧
    pathFromRoot h fuel n = .ok l.reverse ∧ getDepth h fuel n = .ok l.length := by
  obtain ⟨F, hF⟩ := ends hf
  obtain ⟨rank, B, r1, -⟩ := hf.acyclic
  refine ⟨F, fun fuel hle n => ?_⟩
  obtain ⟨l, hl⟩ := (hF fuel hle n).1
  exact ⟨l, hl, path_path hl, fun l' h' => path_unique h' (path_path hl), path_nodup r1 hl, path_mem hl, by simp only [pathFromRoot, hl], by simp only [getDepth, hl]⟩

/-- C69: `getRoot` is the object above that has no parent. -/
theorem C69_root {h : Heap} (hf : Forest h) : ∃ F, ∀ fuel, F ≤ fuel → ∀ n r, getRoot h fuel n = .ok r ↔ Above h n r ∧ h.parent r = none := by
  obtain ⟨F, hF⟩ := ends hf
  refine ⟨F, fun fuel hle n r => ?_⟩
  obtain ⟨r', -, h1, -, -, -, h2, h3, -⟩ := tree_list hf (hF fuel hle n).1 (fun r => (hF fuel hle r).2)
  rw [h1]
  constructor
  · intro e
    obtain rfl := Except.ok.inj e
    exact ⟨h3, h2⟩
  · rintro ⟨h4, h5⟩
    congr 1
    rcases above_comparable h3 h4 with h6 | h6
    · rcases above_head.mp h6 with e | ⟨p, hp, -⟩
      · exact e.symm
      · rw [h2] at hp; cases hp
    · rcases above_head.mp h6 with e | ⟨p, hp, -⟩
      · exact e
      · rw [h5] at hp; cases hp

/-- C69: `getDepth` is 1 for a root and one more than the depth of the parent for the others. -/
theorem C69_depth {h : Heap} (hf : Forest h) : ∃ F, ∀ fuel, F ≤ fuel → ∀ n, (h.parent n = none → getDepth h fuel n = .ok 1) ∧
    ∀ p, h.parent n = some p → ∃ d, getDepth h fuel p = .ok d ∧ getDepth h fuel n = .ok (d + 1) := by
  obtain ⟨F, hF⟩ := C69_path hf
  refine ⟨F, fun fuel hle n => ?_⟩
  obtain ⟨l, -, h1, h2, -, -, -, h3⟩ := hF fuel hle n
  refine ⟨fun hn => ?_, fun p hp => ?_⟩
  · rw [← h2 [n] ⟨rfl, by simp, n, rfl, hn⟩] at h3
    exact h3
  · obtain ⟨l', -, g1, -, -, -, -, g3⟩ := hF fuel hle p
    refine ⟨l'.length, g3, ?_⟩
    have : Path h n (n :: l') := by
      obtain ⟨e1, e2, r, e3, e4⟩ := g1
      cases l' with
      | nil => simp at e1
      | cons x l' =>
        simp only [List.head?_cons, Option.some.injEq] at e1
        subst e1
        exact ⟨rfl, List.isChain_cons_cons.mpr ⟨hp, e2⟩, r, by rw [List.getLast?_cons_cons]; exact e3, e4⟩
    rw [← h2 _ this] at h3
    exact h3

/-- C69: `n.isDescendantOf(m)` tells if `n` is `m` or above it, as the documentation says ("this node lies on the path to the root from the specified node"); the name says the opposite. -/
theorem C69_isDescendantOf {h : Heap} (hf : Forest h) : ∃ F, ∀ fuel, F ≤ fuel → ∀ n m, ∃ b, isDescendantOf h fuel n m = .ok b ∧ (b = true ↔ Above h m n) := by
  obtain ⟨F, hF⟩ := C69_path hf
  refine ⟨F, fun fuel hle n m => ?_⟩
  obtain ⟨l, h1, -, -, -, h2, -⟩ := hF fuel hle m
  exact ⟨l.contains n, by simp only [isDescendantOf, h1], by rw [List.contains_iff_mem, h2]⟩

/-- C69: a child is not a "descendant" of its parent, and the parent is one of the child. -/
theorem C69_isDescendantOf_child {h : Heap} (hf : Forest h) : ∃ F, ∀ fuel, F ≤ fuel → ∀ n p, h.parent n = some p → isDescendantOf h fuel n p = .ok false ∧ isDescendantOf h fuel p n = .ok true := by
  obtain ⟨F, hF⟩ := C69_isDescendantOf hf
  refine ⟨F, fun fuel hle n p hp => ?_⟩
  obtain ⟨b, h1, h2⟩ := hF fuel hle n p
  obtain ⟨c, h3, h4⟩ := hF fuel hle p n
  have hb : b = false := by
    rw [← Bool.not_eq_true, h2]
    exact not_above_parent hf hp
  have hc : c = true := h4.mpr (.head hp .refl)
  rw [h1, h3, hb, hc]
  exact ⟨rfl, rfl⟩

/-- C69: siblings are the objects with the same parent, and the object itself. -/
theorem C69_isSiblingOf {h : Heap} (hf : Forest h) (n m : Nat) : isSiblingOf h n m = true ↔ n = m ∨ ∃ p, h.parent n = some p ∧ h.parent m = some p := by
  rw [isSiblingOf, siblings, List.contains_iff_mem]
  cases hm : h.parent m with
  | none => simp
  | some p =>
    simp only [hf.link]
    constructor
    · intro h1; exact .inr ⟨p, h1, rfl⟩
    · rintro (rfl | ⟨q, h1, h2⟩)
      · exact hm
      · rw [h1, ← h2]

/-- C69: `preOrder` lists the objects at and below an object once each, and in the order of the tree. -/
theorem C69_preOrder {h : Heap} (hf : Forest h) : ∃ F, ∀ fuel, F ≤ fuel → ∀ n, ∃ l, preOrder h fuel n = .ok l ∧ l.Nodup ∧ (∀ x, x ∈ l ↔ Above h x n) ∧
    ∀ x ∈ l, ∀ y ∈ l, [x, y].Sublist l ↔ Prec h x y := by
  obtain ⟨F, hF⟩ := ends hf
  refine ⟨F, fun fuel hle n => ?_⟩
  obtain ⟨l, hl⟩ := (hF fuel hle n).2
  refine ⟨l, hl, pre_nodup hf hl, pre_mem hf hl, fun x hx y hy => ?_⟩
  rw [pre_order hf hl]
  exact ⟨fun h => h.2.2, fun h => ⟨(pre_mem hf hl x).mp hx, (pre_mem hf hl y).mp hy, h⟩⟩

/-- C69: `findForwards` finds the first matching object after an object in its tree (those below it first), `None` exactly when none matches. -/
theorem C69_forwards {h : Heap} (hf : Forest h) : ∃ F, ∀ fuel, F ≤ fuel → ∀ n sel, ∃ o, findForwards h fuel n sel = .ok o ∧
    (∀ m, o = some m ↔ sel m = true ∧ Prec h n m ∧ ∀ k, sel k = true → Prec h n k → k = m ∨ Prec h m k) ∧ (o = none ↔ ∀ k, Prec h n k → sel k = false) := by
  obtain ⟨F, hF⟩ := ends hf
  refine ⟨F, fun fuel hle n sel => ?_⟩
  obtain ⟨r, l, h1, h2, h3, h4, h5, h6, h7, h8, h9⟩ := tree_list hf (hF fuel hle n).1 (fun r => (hF fuel hle r).2)
  refine ⟨find sel (after n l), by simp only [findForwards, h1, h2], fun m => ?_, ?_⟩
  · rw [find_after h3 h4]
    simp only [h8]
    refine and_congr_right fun _ => and_congr_right fun hm => ?_
    have hml := (pair_mem ((h8 m).mpr hm)).2
    refine forall_congr' fun k => forall_congr' fun _ => forall_congr' fun hk => or_congr_right ?_
    have hkl := (pair_mem ((h8 k).mpr hk)).2
    rw [pre_order hf h2]
    exact ⟨fun h => h.2.2, fun h => ⟨(h7 m).mp hml, (h7 k).mp hkl, h⟩⟩
  · rw [find_after_none h3 h4]
    simp only [h8]

/-- C69: `findBackwards` finds the last matching object before an object in its tree, `None` exactly when none matches. -/
theorem C69_backwards {h : Heap} (hf : Forest h) : ∃ F, ∀ fuel, F ≤ fuel → ∀ n sel, ∃ o, findBackwards h fuel n sel = .ok o ∧
    (∀ m, o = some m ↔ sel m = true ∧ Prec h m n ∧ ∀ k, sel k = true → Prec h k n → k = m ∨ Prec h k m) ∧ (o = none ↔ ∀ k, Prec h k n → sel k = false) := by
  obtain ⟨F, hF⟩ := ends hf
  refine ⟨F, fun fuel hle n sel => ?_⟩
  obtain ⟨r, l, h1, h2, h3, h4, h5, h6, h7, h8, h9⟩ := tree_list hf (hF fuel hle n).1 (fun r => (hF fuel hle r).2)
  have h3' := List.nodup_reverse.mpr h3
  have h4' : n ∈ l.reverse := List.mem_reverse.mpr h4
  refine ⟨find sel (after n l.reverse), by simp only [findBackwards, h1, h2, if_pos h4', drop_after], fun m => ?_, ?_⟩
  · rw [find_after h3' h4']
    simp only [pair_reverse, h9]
    refine and_congr_right fun _ => and_congr_right fun hm => ?_
    have hml := (pair_mem ((h9 m).mpr hm)).1
    refine forall_congr' fun k => forall_congr' fun _ => forall_congr' fun hk => or_congr_right ?_
    have hkl := (pair_mem ((h9 k).mpr hk)).1
    rw [pre_order hf h2]
    exact ⟨fun h => h.2.2, fun h => ⟨(h7 k).mp hkl, (h7 m).mp hml, h⟩⟩
  · rw [find_after_none h3' h4']
    simp only [pair_reverse, h9]

/-- C69: the next of `n` is `m` exactly when the previous of `m` is `n`. -/
theorem C69_next_previous {h : Heap} (hf : Forest h) : ∃ F, ∀ fuel, F ≤ fuel → ∀ n m, getNext h fuel n = .ok (some m) ↔ getPrevious h fuel m = .ok (some n) := by
  obtain ⟨F1, h1⟩ := C69_forwards hf
  obtain ⟨F2, h2⟩ := C69_backwards hf
  obtain ⟨F3, h3⟩ := ends hf
  refine ⟨max F1 (max F2 F3), fun fuel hle n m => ?_⟩
  obtain ⟨o, e1, e2, -⟩ := h1 fuel (by omega) n (fun _ => true)
  obtain ⟨o', g1, g2, -⟩ := h2 fuel (by omega) m (fun _ => true)
  have tn := tree_list hf (h3 fuel (by omega) n).1 (fun r => (h3 fuel (by omega) r).2)
  obtain ⟨r, l, -, t2, t3, t4, t5, -, t7, t8, t9⟩ := tn
  have prec : ∀ {x y}, x ∈ l → y ∈ l → (Prec h x y ↔ [x, y].Sublist l) := by
    intro x y hx hy
    rw [pre_order hf t2]
    exact ⟨fun h => ⟨(t7 x).mp hx, (t7 y).mp hy, h⟩, fun h => h.2.2⟩
  have asym : ∀ {x y}, x ∈ l → y ∈ l → Prec h x y → Prec h y x → False := by
    intro x y hx hy hxy hyx
    rw [prec hx hy, ← mem_after t3 hx] at hxy
    rw [prec hy hx] at hyx
    obtain ⟨a, e, hna⟩ := after_split hx
    rw [e] at hyx t3
    obtain ⟨d1, d2, d3⟩ := List.nodup_append.mp t3
    obtain ⟨d4, d5⟩ := List.nodup_cons.mp d2
    rcases pair_append.mp hyx with h | ⟨h, -⟩ | h
    · exact hna (pair_mem h).2
    · exact d3 y h y (by simp [hxy]) rfl
    · rcases List.cons_sublist_cons'.mp h with h | ⟨rfl, h⟩
      · exact d4 (pair_mem h).2
      · exact d4 hxy
  have total : ∀ {x y}, x ∈ l → y ∈ l → x = y ∨ Prec h x y ∨ Prec h y x := by
    intro x y hx hy
    by_cases hxy : x = y
    · exact .inl hxy
    · right
      obtain ⟨a, e, -⟩ := after_split hx
      have hy' := hy
      rw [e, List.mem_append, List.mem_cons] at hy'
      rcases hy' with h | h | h
      · right
        rw [prec hy hx, e, pair_append]
        exact .inr (.inl ⟨h, by simp⟩)
      · exact absurd h.symm hxy
      · left
        rw [prec hx hy, ← mem_after t3 hx]; exact h
  rw [getNext, getPrevious, e1, g1, Except.ok.injEq, Except.ok.injEq, e2, g2]
  have inl : ∀ {x y}, Prec h x y → (x ∈ l ↔ y ∈ l) := by
    intro x y hxy
    rw [t7, t7]
    exact prec_root hf t5 hxy
  constructor
  · rintro ⟨-, k1, k2⟩
    have hm := (inl k1).mp t4
    refine ⟨rfl, k1, fun k _ hk => ?_⟩
    have hkl := (inl hk).mpr hm
    rcases total hkl t4 with rfl | h4 | h4
    · exact .inl rfl
    · exact .inr h4
    · rcases k2 k rfl h4 with rfl | h5
      · exact absurd hk (fun h => asym hm hm h h)
      · exact absurd h5 (fun h => asym hkl hm hk h)
  · rintro ⟨-, k1, k2⟩
    have hm := (inl k1).mp t4
    refine ⟨rfl, k1, fun k _ hk => ?_⟩
    have hkl := (inl hk).mp t4
    rcases total hkl hm with rfl | h4 | h4
    · exact .inl rfl
    · rcases k2 k rfl h4 with rfl | h5
      · exact absurd hk (fun h => asym t4 t4 h h)
      · exact absurd h5 (fun h => asym hkl t4 h hk)
    · exact .inr h4

/-- C69: every object but the last of a tree has a next one, and every object but the root has a previous one. -/
theorem C69_next_exists {h : Heap} (hf : Forest h) : ∃ F, ∀ fuel, F ≤ fuel → ∀ n,
    (getNext h fuel n = .ok none ↔ ∀ k, ¬ Prec h n k) ∧ (getPrevious h fuel n = .ok none ↔ h.parent n = none) := by
  obtain ⟨F1, h1⟩ := C69_forwards hf
  obtain ⟨F2, h2⟩ := C69_backwards hf
  refine ⟨max F1 F2, fun fuel hle n => ?_⟩
  obtain ⟨o, e1, -, e2⟩ := h1 fuel (by omega) n (fun _ => true)
  obtain ⟨o', g1, -, g2⟩ := h2 fuel (by omega) n (fun _ => true)
  rw [getNext, getPrevious, e1, g1, Except.ok.injEq, Except.ok.injEq, e2, g2]
  refine ⟨by simp, ?_⟩
  constructor
  · intro hk
    cases hp : h.parent n with
    | none => rfl
    | some p =>
      have := hk p (.inl ⟨?_, .head hp .refl⟩)
      · simp at this
      · rintro rfl
        exact not_above_parent hf hp .refl
  · intro hp k hk
    exfalso
    have root : ∀ {a}, Above h n a → a = n := by
      intro a ha
      rcases above_head.mp ha with e | ⟨p, hp', -⟩
      · exact e
      · rw [hp] at hp'; cases hp'
    rcases hk with ⟨h3, h4⟩ | ⟨q, c, d, h3, h4, h5⟩
    · exact h3 (root h4)
    · have := (hf.link q d).mp (pair_mem h3).2
      rw [root h5, hp] at this
      cases this

/-- C69: `findParent` finds the nearest matching object strictly above, `None` exactly when none matches. -/
theorem C69_findParent {h : Heap} (hf : Forest h) : ∃ F, ∀ fuel, F ≤ fuel → ∀ n sel, ∃ o, findParent h fuel n sel = .ok o ∧
    (∀ m, o = some m ↔ sel m = true ∧ m ≠ n ∧ Above h n m ∧ ∀ k, sel k = true → k ≠ n → Above h n k → Above h m k) ∧ (o = none ↔ ∀ k, k ≠ n → Above h n k → sel k = false) := by
  obtain ⟨F, hF⟩ := C69_path hf
  refine ⟨F, fun fuel hle n sel => ?_⟩
  obtain ⟨l, h1, h2, -, h3, h4, -⟩ := hF fuel hle n
  obtain ⟨r, rfl⟩ : ∃ r, l = n :: r := by
    have := h2.first
    cases l with
    | nil => simp at this
    | cons x r => simp only [List.head?_cons, Option.some.injEq] at this; exact ⟨r, by rw [this]⟩
  obtain ⟨hnr, hr⟩ := List.nodup_cons.mp h3
  have hmem : ∀ a, a ∈ r ↔ a ≠ n ∧ Above h n a := by
    intro a
    rw [← h4, List.mem_cons]
    constructor
    · intro ha; exact ⟨by rintro rfl; exact hnr ha, .inr ha⟩
    · rintro ⟨h5, rfl | h6⟩
      · exact absurd rfl h5
      · exact h6
  have hord : ∀ a b, [a, b].Sublist r → Above h a b := fun a b hs => chain_above (List.isChain_of_isChain_cons h2.step) hs
  refine ⟨find sel r, by simp only [findParent, h1, List.drop_succ_cons, List.drop_zero], fun m => ?_, ?_⟩
  · rw [find, List.find?_eq_some_iff_append]
    constructor
    · rintro ⟨h5, as, bs, rfl, h6⟩
      obtain ⟨h7, h8⟩ := (hmem m).mp (by simp)
      refine ⟨h5, h7, h8, fun k hk1 hk2 hk3 => ?_⟩
      have := (hmem k).mpr ⟨hk2, hk3⟩
      rw [List.mem_append, List.mem_cons] at this
      rcases this with h9 | rfl | h9
      · have := h6 k h9
        simp [hk1] at this
      · exact .refl
      · exact hord m k (pair_append.mpr (.inr (.inr (by simpa using h9))))
    · rintro ⟨h5, h6, h7, h8⟩
      obtain ⟨as, bs, rfl⟩ := List.append_of_mem ((hmem m).mpr ⟨h6, h7⟩)
      refine ⟨h5, as, bs, rfl, fun k hk => ?_⟩
      by_contra hsk
      have hsk : sel k = true := by simpa using hsk
      obtain ⟨h9, h10⟩ := (hmem k).mp (by simp [hk])
      have := above_antisymm hf (h8 k hsk h9 h10) (hord k m (pair_append.mpr (.inr (.inl ⟨hk, by simp⟩))))
      subst this
      exact (List.nodup_append.mp hr).2.2 m hk m (by simp) rfl
  · rw [find, List.find?_eq_none]
    constructor
    · intro h5 k h6 h7
      simpa using h5 k ((hmem k).mpr ⟨h6, h7⟩)
    · intro h5 k hk
      obtain ⟨h6, h7⟩ := (hmem k).mp hk
      simp [h5 k h6 h7]

/-- C69: `findAttr` gives the value of the nearest object that has the attribute, and the default value when no object above has it. -/
theorem C69_findAttr {h : Heap} (hf : Forest h) : ∃ F, ∀ fuel, F ≤ fuel → ∀ n attr default, ∃ v, findAttr h fuel n attr default = .ok v ∧
    ((∃ a, Nearest h attr n a ∧ attr a = some v) ∨ ((∀ a, Above h n a → attr a = none) ∧ v = default)) := by
  obtain ⟨F, hF⟩ := ends hf
  refine ⟨F, fun fuel hle n attr default => ?_⟩
  obtain ⟨l, hl⟩ := (hF fuel hle n).1
  refine ⟨(l.findSome? attr).getD default, by simp only [findAttr, hl], ?_⟩
  cases hs : l.findSome? attr with
  | some v => exact .inl (by simpa using (findSome_path hf hl).mp hs)
  | none => exact .inr ⟨(findSome_none hl).mp hs, rfl⟩

/-- C69: a `treeProp` has the value of the nearest object where it is set, and raises `ValueError` exactly when it is set on no object above. -/
theorem C69_treeProp {h : Heap} (hf : Forest h) : ∃ F, ∀ fuel, F ≤ fuel → ∀ n attr,
    (∀ v, treeProp h attr fuel n = .ok v ↔ ∃ a, Nearest h attr n a ∧ attr a = some v) ∧ (treeProp h attr fuel n = .error .valueError ↔ ∀ a, Above h n a → attr a = none) := by
  obtain ⟨F, hF⟩ := ends hf
  refine ⟨F, fun fuel hle n attr => ?_⟩
  obtain ⟨l, hl⟩ := (hF fuel hle n).1
  rw [treeProp_path hl, ← findSome_none hl]
  simp only [← findSome_path hf hl]
  cases hs : l.findSome? attr with
  | some w => simp
  | none => simp

/-- C69: a value set on an object with `treeProp` is what it and the objects below see, unless it is set on an object between. -/
theorem C69_treeProp_set {h : Heap} (hf : Forest h) : ∃ F, ∀ fuel, F ≤ fuel → ∀ n a attr w, Above h n a → (∀ b, Above h n b → (attr b).isSome → Above h a b) →
    treeProp h (upd attr a (some w)) fuel n = .ok w := by
  obtain ⟨F, hF⟩ := C69_treeProp hf
  refine ⟨F, fun fuel hle n a attr w h1 h2 => ?_⟩
  rw [(hF fuel hle n _).1]
  refine ⟨a, ⟨h1, by simp [upd], fun b hb hs => ?_⟩, by simp [upd]⟩
  by_cases hba : b = a
  · subst hba; exact .refl
  · exact h2 b hb (by simpa [upd, hba] using hs)

/-- C69: `attrsToRoot` gives the true values of the attribute, from the object to the root. -/
theorem C69_attrsToRoot {h : Heap} (hf : Forest h) : ∃ F, ∀ fuel, F ≤ fuel → ∀ n attr truthy, ∃ l, Path h n l ∧
    attrsToRoot h fuel n attr truthy = .ok (l.flatMap fun i => match attr i with | some v => if truthy v then [v] else [] | none => []) := by
  obtain ⟨F, hF⟩ := C69_path hf
  refine ⟨F, fun fuel hle n attr truthy => ?_⟩
  obtain ⟨l, h1, h2, -⟩ := hF fuel hle n
  refine ⟨l, h2, ?_⟩
  simp only [attrsToRoot, h1, Except.ok.injEq]
  clear h1 h2
  induction l with
  | nil => rfl
  | cons x l ih =>
    rw [List.flatMap_cons, ← ih]
    cases hx : attr x with
    | none => simp [hx]
    | some v => by_cases hv : truthy v <;> simp [hx, hv]

/-- C69: on a cycle of parents `pathToRoot` does not end (nor do `getRoot`, `getDepth`, …). -/
theorem C69_cycle {h : Heap} {n : Nat} (hc : ∀ a, Above h n a → h.parent a ≠ none) (fuel : Nat) :
    pathToRoot h fuel n = .error .diverge ∧ getRoot h fuel n = .error .diverge ∧ getDepth h fuel n = .error .diverge := by
  simp [getRoot, getDepth, path_diverges hc]

/-! ### examples -/

namespace Ex

/-- 0 has the children 1 and 2, 1 has the child 3; 4 is alone -/
def tree : Heap := addChild (addChild (addChild ⟨fun _ => [], fun _ => none⟩ 0 1) 0 2) 1 3

theorem not_above {h : Heap} {fuel n : Nat} {l : List Nat} (hl : pathToRoot h fuel n = .ok l) {a : Nat} (ha : a ∉ l) : ¬ Above h n a := fun h1 => ha ((path_mem hl a).mpr h1)

theorem tree_reach : Reach tree := by
  refine .add (.add (.add .new ?_ ?_) ?_ ?_) ?_ ?_
  · rfl
  · exact not_above (fuel := 5) (l := [0]) rfl (by decide)
  · rfl
  · exact not_above (fuel := 5) (l := [0]) rfl (by decide)
  · rfl
  · exact not_above (fuel := 5) (l := [1, 0]) rfl (by decide)

/-- the hypothesis of most theorems -/
theorem tree_forest : Forest tree := C68_edits_partial tree_reach

-- C69: navigation
example : preOrder tree 5 0 = .ok [0, 1, 3, 2] := rfl
example : pathToRoot tree 5 3 = .ok [3, 1, 0] := rfl
example : getDepth tree 5 3 = .ok 3 := rfl
example : getNext tree 5 3 = .ok (some 2) := rfl
example : getPrevious tree 5 2 = .ok (some 3) := rfl
example : getNext tree 5 2 = .ok none := rfl
example : isDescendantOf tree 5 3 0 = .ok false := rfl
example : isDescendantOf tree 5 0 3 = .ok true := rfl
example : Prec tree 3 2 := .inr ⟨0, 1, 2, List.Sublist.refl _, .head rfl .refl, .refl⟩
example : isSiblingOf tree 2 1 = true ∧ isSiblingOf tree 3 2 = false := ⟨rfl, rfl⟩

/-- a value on 0 and another on 1 -/
def colour : Nat → Option Val
  | 0 => some (.str "red")
  | 1 => some (.str "blue")
  | _ => none

-- C69: inherited values
example : treeProp tree colour 5 3 = .ok (.str "blue") := rfl
example : treeProp tree colour 5 2 = .ok (.str "red") := rfl
example : treeProp tree colour 5 4 = .error .valueError := rfl
example : findAttr tree 5 4 colour (.str "grey") = .ok (.str "grey") := rfl
example : attrsToRoot tree 5 3 colour (fun _ => true) = .ok [(.str "blue"), (.str "red")] := rfl

-- C68: the conditions of the operations can be met
example : tree.parent 4 = none ∧ ¬ Above tree 1 4 ∧ ¬ Above tree 0 4 :=
  ⟨rfl, not_above (fuel := 5) (l := [1, 0]) rfl (by decide), not_above (fuel := 5) (l := [0]) rfl (by decide)⟩
example : ∃ h, inject tree 0 4 = .ok h ∧ preOrder h 5 0 = .ok [0, 4, 1, 3, 2] := ⟨_, rfl, rfl⟩
example : ∃ h, reparent tree 1 4 = .ok h ∧ preOrder h 5 0 = .ok [0, 4, 1, 3, 2] ∧ pathToRoot h 5 3 = .ok [3, 1, 4, 0] := ⟨_, rfl, rfl, rfl⟩
example : ∃ h, replace tree 1 [4, 5] = .ok h ∧ preOrder h 5 0 = .ok [0, 4, 5, 2] ∧ pathToRoot h 5 3 = .ok [3, 1] := ⟨_, rfl, rfl, rfl⟩
example : ∃ h, clear tree 0 = .ok h ∧ preOrder h 5 0 = .ok [0] ∧ preOrder h 5 1 = .ok [1, 3] := ⟨_, rfl, rfl, rfl⟩

-- C68: the nested list `[5, [6, 7], 8]`
example : Encodes [.obj 5, .seq [.obj 6, .obj 7], .obj 8] [.node 5 [.node 6 [], .node 7 []], .node 8 []] := .inner (.leaf (.leaf .nil)) (.leaf .nil)
example : (∀ n ∈ ids [.node 5 [.node 6 [], .node 7 []], .node 8 []], Isolated tree n) ∧ 4 ∉ ids [.node 5 [.node 6 [], .node 7 []], .node 8 []] := by
  simp [ids, Isolated, tree, addChild, register, upd]
example : ∃ h, addFrom tree 4 none [.obj 5, .seq [.obj 6, .obj 7], .obj 8] = .ok h ∧ preOrder h 5 4 = .ok [4, 5, 6, 7, 8] := by
  simp only [addFrom]
  exact ⟨_, rfl, rfl⟩
example : addFrom tree 4 none [.seq [.obj 5]] = .error .valueError := by simp [addFrom]

/-- an object that has a parent is added to another: it is in two child lists -/
theorem two_parents : ¬ Forest (addChild tree 2 3) := by
  rw [C68_addChild tree_forest]
  rintro ⟨h1, -⟩
  cases h1

/-- a root is added to an object below it: the parents go round and `getDepth` does not end -/
theorem cycle : ¬ Forest (addChild tree 3 0) ∧ ∀ fuel, getDepth (addChild tree 3 0) fuel 3 = .error .diverge := by
  refine ⟨?_, fun fuel => (C69_cycle ?_ fuel).2.2⟩
  · rw [C68_addChild tree_forest]
    rintro ⟨-, h2⟩
    exact h2 (.head (b := 1) rfl (.head (b := 0) rfl .refl))
  · intro a ha
    have : a = 3 ∨ a = 1 ∨ a = 0 := by
      induction ha with
      | refl => exact .inl rfl
      | @tail b c _ h2 ih =>
        rcases ih with rfl | rfl | rfl
        · exact .inr (.inl (Option.some.inj h2).symm)
        · exact .inr (.inr (Option.some.inj h2).symm)
        · exact .inl (Option.some.inj h2).symm
    rcases this with rfl | rfl | rfl <;> decide

/-- a child is injected between its parent and its children: it becomes a child of itself, and `preOrder` does not end -/
theorem inject_child : ∃ h, inject tree 0 1 = .ok h ∧ h.children 1 = [3, 1, 2] ∧ h.parent 1 = some 0 ∧ ¬ Forest h := by
  refine ⟨_, rfl, rfl, rfl, fun hf => ?_⟩
  have := (hf.link 1 1).mp (by decide)
  cases this

/-- an object is replaced by its sibling: the sibling is listed twice -/
theorem replace_sibling : ∃ h, replace tree 1 [2] = .ok h ∧ h.children 0 = [2, 2] := ⟨_, rfl, rfl⟩

end Ex
#print axioms C68_addChild
#print axioms C68_remove
#print axioms C68_remove_root
#print axioms C68_add_remove
#print axioms C68_clear
#print axioms C68_replace
#print axioms C68_replace_nil
#print axioms C68_inject
#print axioms C68_reparent
#print axioms C68_reparent_root
#print axioms C68_edits_partial
#print axioms C68_list
#print axioms C68_list_error
#print axioms C69_ends
#print axioms C69_path
#print axioms C69_root
#print axioms C69_depth
#print axioms C69_isDescendantOf
#print axioms C69_isDescendantOf_child
#print axioms C69_isSiblingOf
#print axioms C69_preOrder
#print axioms C69_forwards
#print axioms C69_backwards
#print axioms C69_next_previous
#print axioms C69_next_exists
#print axioms C69_findParent
#print axioms C69_findAttr
#print axioms C69_treeProp
#print axioms C69_treeProp_set
#print axioms C69_attrsToRoot
#print axioms C69_cycle

end ABX.TreeHeap
