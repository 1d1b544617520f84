import Verif.Spec.TreeHeap
import Verif.Proofs.SideOps
import Mathlib.Data.List.Nodup
import Mathlib.Data.List.Perm.Basic
import Mathlib.Tactic.Ring
/-!
Lemmas for Properties/TreeHeap.lean.
-/
namespace ABX.TreeHeap
open Spec

/-! ### objects above an object -/

theorem above_rank {h : Heap} {rank : Nat → Nat} (hr : ∀ n p, h.parent n = some p → rank p < rank n) {n a : Nat} (ha : Above h n a) : a = n ∨ rank a < rank n := by
  induction ha with
  | refl => exact .inl rfl
  | tail _ h2 ih =>
    have := hr _ _ h2
    rcases ih with rfl | ih
    · exact .inr this
    · exact .inr (by omega)

theorem above_head {h : Heap} {n a : Nat} : Above h n a ↔ a = n ∨ ∃ p, h.parent n = some p ∧ Above h p a := by
  constructor
  · intro ha
    rcases Relation.ReflTransGen.cases_head ha with rfl | ⟨p, hp, h2⟩
    · exact .inl rfl
    · exact .inr ⟨p, hp, h2⟩
  · rintro (rfl | ⟨p, hp, h2⟩)
    · exact .refl
    · exact .head hp h2

theorem above_tail {h : Heap} {n a : Nat} : Above h n a ↔ a = n ∨ ∃ c, Above h n c ∧ h.parent c = some a := by
  constructor
  · intro ha
    rcases Relation.ReflTransGen.cases_tail ha with rfl | ⟨c, h2, hc⟩
    · exact .inl rfl
    · exact .inr ⟨c, h2, hc⟩
  · rintro (rfl | ⟨c, h2, hc⟩)
    · exact .refl
    · exact .tail h2 hc

theorem above_comparable {h : Heap} {n a b : Nat} (ha : Above h n a) (hb : Above h n b) : Above h a b ∨ Above h b a := by
  refine Relation.ReflTransGen.total_of_right_unique ?_ ha hb
  intro x y z hy hz
  rw [hy] at hz
  exact Option.some.inj hz

/-- an object is not above its parent -/
theorem not_above_parent {h : Heap} (hf : Forest h) {n p : Nat} (hp : h.parent n = some p) : ¬ Above h p n := by
  obtain ⟨rank, B, h1, -⟩ := hf.acyclic
  intro ha
  have := h1 _ _ hp
  rcases above_rank h1 ha with rfl | h2 <;> omega

/-- the objects above `n` depend only on their parents -/
theorem above_congr {h h' : Heap} {n : Nat} (hc : ∀ a, Above h n a → h'.parent a = h.parent a) {a : Nat} : Above h' n a ↔ Above h n a := by
  constructor
  · intro ha
    induction ha with
    | refl => exact .refl
    | tail _ h2 ih => exact .tail ih (by rw [← hc _ ih]; exact h2)
  · intro ha
    induction ha with
    | refl => exact .refl
    | tail h1 h2 ih => exact .tail ih (by rw [hc _ h1]; exact h2)

theorem le_sum : ∀ {l : List Nat} {x : Nat}, x ∈ l → x ≤ l.sum
  | y :: l, x, h => by
    rcases List.mem_cons.mp h with rfl | h
    · simp
    · have := le_sum h
      simp only [List.sum_cons]
      omega

/-! ### attaching and detaching -/

/-- objects without parent are attached to an object that is not below them -/
theorem attach {h h' : Heap} (hf : Forest h) {p : Nat} {nodes l : List Nat} (hl : l.Perm (h.children p ++ nodes)) (hn : nodes.Nodup) (hr : ∀ x ∈ nodes, h.parent x = none)
    (ha : ∀ x ∈ nodes, ¬ Above h p x) (hc : ∀ q, h'.children q = if q = p then l else h.children q) (hp : ∀ x, h'.parent x = if x ∈ nodes then some p else h.parent x) : Forest h' := by
  obtain ⟨rank, B, r1, r2⟩ := hf.acyclic
  refine ⟨?_, ?_, ?_⟩
  · intro q n
    rw [hc, hp]
    by_cases hq : q = p
    · subst hq
      rw [if_pos rfl, hl.mem_iff, List.mem_append, hf.link]
      by_cases hx : n ∈ nodes
      · simp [hx]
      · simp [hx]
    · rw [if_neg hq, hf.link]
      by_cases hx : n ∈ nodes
      · rw [if_pos hx, hr n hx]
        simp [Ne.symm hq]
      · rw [if_neg hx]
  · intro q
    rw [hc]
    by_cases hq : q = p
    · subst hq
      rw [if_pos rfl, hl.nodup_iff, List.nodup_append]
      refine ⟨hf.once q, hn, ?_⟩
      rintro a h1 b h2 rfl
      rw [hf.link] at h1
      rw [hr a h2] at h1
      cases h1
    · rw [if_neg hq]; exact hf.once q
  · classical
    refine ⟨fun x => if ∃ m ∈ nodes, Above h x m then rank x + rank p + 1 else rank x, B + rank p + 1 + (nodes.map (fun x => rank x + rank p + 2)).sum, ?_, ?_⟩
    · intro x q hx
      rw [hp] at hx
      by_cases hxn : x ∈ nodes
      · rw [if_pos hxn] at hx
        obtain rfl := Option.some.inj hx
        dsimp only
        rw [if_pos (c := ∃ m ∈ nodes, Above h x m) ⟨x, hxn, .refl⟩, if_neg (by rintro ⟨m, hm, h2⟩; exact ha m hm h2)]
        omega
      · rw [if_neg hxn] at hx
        have hlt := r1 _ _ hx
        have : (∃ m ∈ nodes, Above h x m) ↔ ∃ m ∈ nodes, Above h q m := by
          constructor
          · rintro ⟨m, hm, h2⟩
            rcases above_head.mp h2 with rfl | ⟨q', hq', h3⟩
            · exact absurd hm hxn
            · rw [hx] at hq'
              obtain rfl := Option.some.inj hq'
              exact ⟨m, hm, h3⟩
          · rintro ⟨m, hm, h2⟩
            exact ⟨m, hm, .head hx h2⟩
        dsimp only
        by_cases hm : ∃ m ∈ nodes, Above h q m
        · rw [if_pos hm, if_pos (this.mpr hm)]; omega
        · rw [if_neg hm, if_neg (fun h => hm (this.mp h))]; exact hlt
    · intro x q hx
      rw [hp] at hx
      have hle : (if ∃ m ∈ nodes, Above h x m then rank x + rank p + 1 else rank x) ≤ rank x + rank p + 1 := by split <;> omega
      by_cases hxn : x ∈ nodes
      · have := le_sum (List.mem_map.mpr ⟨x, hxn, rfl⟩ : rank x + rank p + 2 ∈ nodes.map (fun x => rank x + rank p + 2))
        dsimp only at this ⊢
        omega
      · rw [if_neg hxn] at hx
        have := r2 _ _ hx
        dsimp only
        omega

/-- objects are detached -/
theorem detach {h h' : Heap} (hf : Forest h) {D : Nat → Prop} [DecidablePred D] (hc : ∀ q, h'.children q = (h.children q).filter (fun x => ¬ D x)) (hp : ∀ x, h'.parent x = if D x then none else h.parent x) :
    Forest h' := by
  obtain ⟨rank, B, r1, r2⟩ := hf.acyclic
  refine ⟨?_, ?_, rank, B, ?_, ?_⟩
  · intro q n
    rw [hc, hp, List.mem_filter, hf.link]
    by_cases hd : D n <;> simp [hd]
  · intro q
    rw [hc]
    exact (hf.once q).filter _
  · intro n p hn
    rw [hp] at hn
    split at hn
    · cases hn
    · exact r1 _ _ hn
  · intro n p hn
    rw [hp] at hn
    split at hn
    · cases hn
    · exact r2 _ _ hn

theorem upd_same {β : Type} (f : Nat → β) (k : Nat) (x : β) : upd f k x k = x := by simp [upd]

theorem take_drop_erase (l : List Nat) (n : Nat) : l.take (l.idxOf n) ++ l.drop (l.idxOf n + 1) = l.erase n := by
  rw [List.erase_eq_eraseIdx_of_idxOf rfl, List.eraseIdx_eq_take_drop_succ]

/-- `remove` -/
theorem remove_ok {h : Heap} (hf : Forest h) {n p : Nat} (hp : h.parent n = some p) :
    ∃ h', remove h n = .ok (h', (h.children p).idxOf n) ∧ (∀ q, h'.children q = (h.children q).erase n) ∧ ∀ x, h'.parent x = if x = n then none else h.parent x := by
  have hm := (hf.link p n).mpr hp
  refine ⟨⟨upd h.children p ((h.children p).erase n), upd h.parent n none⟩, ?_, ?_, fun x => rfl⟩
  · simp only [remove, index, hp, if_pos hm, take_drop_erase]
  · intro q
    by_cases hq : q = p
    · subst hq; simp [upd]
    · simp only [upd, if_neg hq]
      rw [List.erase_of_not_mem]
      intro hm'
      rw [hf.link, hp] at hm'
      exact hq (Option.some.inj hm').symm

theorem erase_filter {h : Heap} (hf : Forest h) (q n : Nat) : (h.children q).erase n = (h.children q).filter (fun x => ¬ x = n) := by
  rw [(hf.once q).erase_eq_filter]
  apply List.filter_congr
  intro x _
  by_cases hx : x = n <;> simp [hx]

theorem remove_forest {h h' : Heap} (hf : Forest h) {n : Nat} (hc : ∀ q, h'.children q = (h.children q).erase n) (hp : ∀ x, h'.parent x = if x = n then none else h.parent x) : Forest h' :=
  detach hf (D := fun x => x = n) (fun q => by rw [hc, erase_filter hf]) hp

theorem removeAll_ok {h : Heap} (hf : Forest h) : ∀ {is : List Nat}, is.Nodup → (∀ i ∈ is, h.parent i ≠ none) →
    ∃ h', removeAll h is = .ok h' ∧ Forest h' ∧ (∀ q, h'.children q = (h.children q).filter (fun x => ¬ x ∈ is)) ∧ ∀ x, h'.parent x = if x ∈ is then none else h.parent x := by
  intro is
  induction is generalizing h with
  | nil => intro _ _; exact ⟨h, rfl, hf, by simp, by simp⟩
  | cons i is ih =>
    intro hn hp
    obtain ⟨p, hi⟩ := Option.ne_none_iff_exists'.mp (hp i (by simp))
    obtain ⟨h1, e1, e2, e3⟩ := remove_ok hf hi
    have hf1 := remove_forest hf e2 e3
    obtain ⟨h2, g1, g2, g3, g4⟩ := ih hf1 (List.nodup_cons.mp hn).2 (fun j hj => by
      rw [e3, if_neg (by rintro rfl; exact (List.nodup_cons.mp hn).1 hj)]
      exact hp j (by simp [hj]))
    refine ⟨h2, by simp only [removeAll, e1, g1], g2, ?_, ?_⟩
    · intro q
      rw [g3, e2, erase_filter hf, List.filter_filter]
      apply List.filter_congr
      intro x _
      simp [Bool.and_comm]
    · intro x
      rw [g4, e3]
      by_cases h1 : x ∈ is <;> by_cases h2 : x = i <;> simp [h1, h2]

theorem clear_ok {h : Heap} (hf : Forest h) (n : Nat) :
    ∃ h', clear h n = .ok h' ∧ Forest h' ∧ (∀ q, h'.children q = if q = n then [] else h.children q) ∧ ∀ x, h'.parent x = if h.parent x = some n then none else h.parent x := by
  obtain ⟨h', e1, e2, e3, e4⟩ := removeAll_ok hf (hf.once n) (fun i hi => by rw [(hf.link n i).mp hi]; simp)
  refine ⟨h', e1, e2, ?_, ?_⟩
  · intro q
    rw [e3]
    by_cases hq : q = n
    · subst hq
      rw [if_pos rfl, List.filter_eq_nil_iff]
      simp
    · rw [if_neg hq, List.filter_eq_self]
      intro x hx
      rw [hf.link] at hx
      simp only [hf.link, hx, Option.some.injEq, hq, not_false_eq_true, decide_true]
  · intro x
    rw [e4]
    simp only [hf.link]

theorem registerAll_children (h : Heap) (p : Nat) (is : List Nat) : (registerAll h p is).children = h.children := by
  induction is generalizing h with
  | nil => rfl
  | cons i is ih => rw [registerAll, ih]; rfl

theorem registerAll_parent (h : Heap) (p : Nat) (is : List Nat) (x : Nat) : (registerAll h p is).parent x = if x ∈ is then some p else h.parent x := by
  induction is generalizing h with
  | nil => simp [registerAll]
  | cons i is ih =>
    rw [registerAll, ih]
    by_cases h1 : x ∈ is <;> by_cases h2 : x = i <;> simp [h1, h2, register, upd]

theorem insert_at {l : List Nat} {n : Nat} (hn : l.Nodup) (h : n ∈ l) (nodes : List Nat) :
    (l.erase n).take (l.idxOf n) ++ nodes ++ (l.erase n).drop (l.idxOf n) = l.flatMap (fun c => if c = n then nodes else [c]) := by
  induction l with
  | nil => simp at h
  | cons x l ih =>
    by_cases hx : x = n
    · subst hx
      have : ∀ c ∈ l, (if c = x then nodes else [c]) = [c] := by
        intro c hc
        rw [if_neg]
        rintro rfl
        exact (List.nodup_cons.mp hn).1 hc
      simp only [List.erase_cons_head, List.idxOf_cons_self, List.take_zero, List.nil_append, List.drop_zero, List.flatMap_cons, if_pos]
      rw [List.flatMap_congr this, List.flatMap_singleton']
    · have hm : n ∈ l := by simpa [Ne.symm hx] using h
      rw [List.erase_cons_tail (by simpa using hx), List.idxOf_cons_ne _ hx, List.take_succ_cons, List.drop_succ_cons, List.flatMap_cons, if_neg hx, ← ih (List.nodup_cons.mp hn).2 hm]
      simp

/-- `replace` -/
theorem replace_ok {h : Heap} (hf : Forest h) {n p : Nat} (hp : h.parent n = some p) {nodes : List Nat} (hn : nodes.Nodup) (hr : ∀ x ∈ nodes, x ≠ n → h.parent x = none)
    (ha : ∀ x ∈ nodes, ¬ Above h p x) :
    ∃ h', replace h n nodes = .ok h' ∧ Forest h' ∧ (∀ q, h'.children q = (h.children q).flatMap (fun c => if c = n then nodes else [c])) ∧
      ∀ x, h'.parent x = if x ∈ nodes then some p else if x = n then none else h.parent x := by
  have hm := (hf.link p n).mpr hp
  obtain ⟨h1, e1, e2, e3⟩ := remove_ok hf hp
  have hf1 := remove_forest hf e2 e3
  have hch : ∀ q, (registerAll { h1 with children := upd h1.children p ((h1.children p).take ((h.children p).idxOf n) ++ nodes ++ (h1.children p).drop ((h.children p).idxOf n)) } p nodes).children q =
      if q = p then (h1.children p).take ((h.children p).idxOf n) ++ nodes ++ (h1.children p).drop ((h.children p).idxOf n) else h1.children q := by
    intro q
    rw [registerAll_children]
    simp only [upd]
  refine ⟨registerAll { h1 with children := upd h1.children p ((h1.children p).take ((h.children p).idxOf n) ++ nodes ++ (h1.children p).drop ((h.children p).idxOf n)) } p nodes, ?_, ?_, ?_, ?_⟩
  · simp only [replace, e1, hp]
  · refine attach hf1 (p := p) (nodes := nodes) (l := (h1.children p).take ((h.children p).idxOf n) ++ nodes ++ (h1.children p).drop ((h.children p).idxOf n)) ?_ hn ?_ ?_ hch ?_
    · refine (List.Perm.append_right _ List.perm_append_comm).trans ?_
      rw [List.append_assoc, List.take_append_drop]
      exact List.perm_append_comm
    · intro x hx
      rw [e3]
      by_cases hxn : x = n
      · rw [if_pos hxn]
      · rw [if_neg hxn, hr x hx hxn]
    · intro x hx
      rw [above_congr (h := h)]
      · exact ha x hx
      · intro a h2
        rw [e3, if_neg]
        rintro rfl
        exact not_above_parent hf hp h2
    · intro x
      rw [registerAll_parent]
  · intro q
    rw [hch]
    by_cases hq : q = p
    · subst hq
      rw [if_pos rfl, e2, insert_at (hf.once q) hm]
    · have hnm : n ∉ h.children q := by
        rw [hf.link, hp]
        exact fun h => hq (Option.some.inj h).symm
      rw [if_neg hq, e2, List.erase_of_not_mem hnm]
      have : ∀ c ∈ h.children q, (if c = n then nodes else [c]) = [c] := by
        intro c hc
        rw [if_neg]
        rintro rfl
        exact hnm hc
      rw [List.flatMap_congr this, List.flatMap_singleton']
  · intro x
    rw [registerAll_parent]
    simp only [e3]

/-- `addChild` -/
theorem addChild_forest {h : Heap} (hf : Forest h) {p n : Nat} (hr : h.parent n = none) (ha : ¬ Above h p n) : Forest (addChild h p n) := by
  refine attach hf (p := p) (nodes := [n]) (l := h.children p ++ [n]) (.refl _) (by simp) (by simpa using hr) (by simpa using ha) (fun q => rfl) (fun x => ?_)
  simp [addChild, register, upd]

theorem moveAll_ok {node n : Nat} : ∀ {is : List Nat} {h : Heap}, Forest h → h.children n = is → h.parent node = none → ¬ Above h n node →
    ∃ h', moveAll h node is = .ok h' ∧ Forest h' ∧ (∀ q, h'.children q = if q = n then [] else if q = node then h.children node ++ is else h.children q) ∧
      (∀ x, h'.parent x = if x ∈ is then some node else h.parent x) ∧ ¬ Above h' n node
  | [], h, hf, hc, hr, ha => ⟨h, rfl, hf, by intro q; split <;> (try split) <;> simp_all, by simp, ha⟩
  | i :: is, h, hf, hc, hr, ha => by
    have hne : node ≠ n := by rintro rfl; exact ha .refl
    have hin : h.parent i = some n := (hf.link n i).mp (by rw [hc]; simp)
    have hnd : (i :: is).Nodup := by rw [← hc]; exact hf.once n
    have hi1 : i ≠ node := by rintro rfl; rw [hr] at hin; cases hin
    obtain ⟨h1, e1, e2, e3⟩ := remove_ok hf hin
    have hf1 := remove_forest hf e2 e3
    have hup : ∀ a, Above h n a → a ≠ i := by
      rintro a h2 rfl
      exact not_above_parent hf hin h2
    have hrn : h1.parent node = none := by rw [e3, if_neg (Ne.symm hi1), hr]
    have hna : ¬ Above h1 node i := by
      intro h2
      rcases above_head.mp h2 with h3 | ⟨p, hp, -⟩
      · exact hi1 h3
      · rw [hrn] at hp; cases hp
    have hf2 := addChild_forest hf1 (p := node) (n := i) (by rw [e3, if_pos rfl]) hna
    have hc2 : (addChild h1 node i).children n = is := by
      simp only [addChild, register, upd, if_neg (Ne.symm hne), e2, hc, List.erase_cons_head]
    have ha2 : ¬ Above (addChild h1 node i) n node := by
      rw [above_congr (h := h)]
      · exact ha
      · intro a h2
        have := hup a h2
        simp only [addChild, register, upd, if_neg this, e3]
    obtain ⟨h', g1, g2, g3, g4, g5⟩ := moveAll_ok (node := node) (n := n) hf2 hc2 (by simp only [addChild, register, upd, if_neg (Ne.symm hi1), hrn]) ha2
    refine ⟨h', by simp only [moveAll, e1]; exact g1, g2, ?_, ?_, g5⟩
    · intro q
      rw [g3]
      by_cases hq : q = n
      · simp [hq]
      · rw [if_neg hq, if_neg hq]
        have her : ∀ q, q ≠ n → (h.children q).erase i = h.children q := by
          intro q hq
          rw [List.erase_of_not_mem]
          rw [hf.link, hin]
          exact fun h => hq (Option.some.inj h).symm
        by_cases hq2 : q = node
        · simp [hq2, addChild, register, upd, e2, her node hne]
        · simp [hq2, addChild, register, upd, e2, her q hq]
    · intro x
      rw [g4]
      by_cases hx : x ∈ is
      · simp [hx]
      · by_cases hxi : x = i
        · simp [hxi, addChild, register, upd]
        · simp [hx, hxi, addChild, register, upd, e3]

/-- `inject` -/
theorem inject_ok {h : Heap} (hf : Forest h) {n node : Nat} (hr : h.parent node = none) (ha : ¬ Above h n node) :
    ∃ h', inject h n node = .ok h' ∧ Forest h' ∧ (∀ q, h'.children q = if q = n then [node] else if q = node then h.children node ++ h.children n else h.children q) ∧
      ∀ x, h'.parent x = if x = node then some n else if h.parent x = some n then some node else h.parent x := by
  have hne : node ≠ n := by rintro rfl; exact ha .refl
  obtain ⟨h1, e1, e2, e3, e4, e5⟩ := moveAll_ok (n := n) (node := node) hf rfl hr ha
  obtain ⟨h2, g1, g2, g3, g4⟩ := clear_ok e2 n
  have hpar : ∀ x, h2.parent x = h1.parent x := by
    intro x
    rw [g4]
    split
    · rename_i hx
      rw [← e2.link, e3] at hx
      simp at hx
    · rfl
  have hchl : ∀ q, h2.children q = h1.children q := by
    intro q
    rw [g3, e3]
    by_cases hq : q = n <;> simp [hq]
  refine ⟨addChild h2 n node, by simp only [inject, e1, g1], ?_, ?_, ?_⟩
  · refine addChild_forest g2 ?_ ?_
    · rw [hpar, e4, hr]
      rw [if_neg]
      rw [hf.link, hr]
      simp
    · rw [above_congr (h := h1) (fun a _ => hpar a)]
      exact e5
  · intro q
    simp only [addChild, register, upd, hchl, e3]
    by_cases hq : q = n <;> simp [hq]
  · intro x
    simp only [addChild, register, upd, hpar, e4, hf.link]

/-- `reparent` -/
theorem reparent_ok {h : Heap} (hf : Forest h) {n p node : Nat} (hp : h.parent n = some p) (hr : h.parent node = none) (ha : ¬ Above h p node) :
    ∃ h', reparent h n node = .ok h' ∧ Forest h' ∧ (∀ q, h'.children q = if q = node then (h.children node) ++ [n] else (h.children q).map (fun c => if c = n then node else c)) ∧
      ∀ x, h'.parent x = if x = n then some node else if x = node then some p else h.parent x := by
  have hne : node ≠ n := by rintro rfl; rw [hr] at hp; cases hp
  have hnp : node ≠ p := by rintro rfl; exact ha .refl
  obtain ⟨h1, e1, e2, e3, e4⟩ := replace_ok hf hp (nodes := [node]) (by simp) (by simpa [hne] using hr) (by simpa using ha)
  have hpar : ∀ x, h1.parent x = if x = node then some p else if x = n then none else h.parent x := by
    intro x; rw [e4]; simp
  refine ⟨addChild h1 node n, by simp only [reparent, e1], ?_, ?_, ?_⟩
  · refine addChild_forest e2 ?_ ?_
    · rw [hpar, if_neg (Ne.symm hne), if_pos rfl]
    · intro h2
      rcases above_head.mp h2 with h3 | ⟨q, hq, h3⟩
      · exact hne h3.symm
      · rw [hpar, if_pos rfl] at hq
        obtain rfl := Option.some.inj hq
        rw [above_congr (h := h)] at h3
        · exact not_above_parent hf hp h3
        · intro a h4
          rw [hpar, if_neg (by rintro rfl; exact ha h4), if_neg (by rintro rfl; exact not_above_parent hf hp h4)]
  · intro q
    have hfl : ∀ l : List Nat, l.flatMap (fun c => if c = n then [node] else [c]) = l.map (fun c => if c = n then node else c) := by
      intro l
      induction l with
      | nil => rfl
      | cons c l ih =>
        rw [List.flatMap_cons, ih, List.map_cons]
        split <;> rfl
    simp only [addChild, register, upd, e3, hfl]
    by_cases hq : q = node
    · rw [if_pos hq, if_pos hq]
      congr 1
      have : ∀ c ∈ h.children node, (if c = n then node else c) = c := by
        intro c hc
        rw [if_neg]
        rintro rfl
        rw [hf.link, hp] at hc
        exact hnp (Option.some.inj hc).symm
      rw [List.map_congr_left this, List.map_id']
    · rw [if_neg hq, if_neg hq]
  · intro x
    simp only [addChild, register, upd, hpar]
    by_cases h1 : x = n
    · rw [if_pos h1, if_pos h1]
    · rw [if_neg h1, if_neg h1, if_neg h1]

end ABX.TreeHeap
