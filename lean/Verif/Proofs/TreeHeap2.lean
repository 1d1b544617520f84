import Verif.Proofs.TreeHeap
/-!
Lemmas for Properties/TreeHeap.lean: navigation.
-/
namespace ABX.TreeHeap
open Spec
open ExtSort (sequence)

/-! ### the path to the root -/

theorem path_mem {h : Heap} : ∀ {fuel n : Nat} {l : List Nat}, pathToRoot h fuel n = .ok l → ∀ a, a ∈ l ↔ Above h n a
  | 0, n, l, hl => by simp [pathToRoot] at hl
  | fuel + 1, n, l, hl => by
    intro a
    rw [above_head]
    rw [pathToRoot] at hl
    cases hp : h.parent n with
    | none =>
      simp only [hp, Except.ok.injEq] at hl
      subst hl
      simp
    | some p =>
      simp only [hp] at hl
      cases hr : pathToRoot h fuel p with
      | error e => simp [hr] at hl
      | ok r =>
        simp only [hr, Except.ok.injEq] at hl
        subst hl
        rw [List.mem_cons, path_mem hr a]
        simp

theorem path_path {h : Heap} : ∀ {fuel n : Nat} {l : List Nat}, pathToRoot h fuel n = .ok l → Path h n l
  | 0, n, l, hl => by simp [pathToRoot] at hl
  | fuel + 1, n, l, hl => by
    rw [pathToRoot] at hl
    cases hp : h.parent n with
    | none =>
      simp only [hp, Except.ok.injEq] at hl
      subst hl
      exact ⟨rfl, by simp, n, rfl, hp⟩
    | some p =>
      simp only [hp] at hl
      cases hr : pathToRoot h fuel p with
      | error e => simp [hr] at hl
      | ok r =>
        simp only [hr, Except.ok.injEq] at hl
        subst hl
        obtain ⟨h1, h2, root, h3, h4⟩ := path_path hr
        cases r with
        | nil => simp at h1
        | cons x r =>
          simp only [List.head?_cons, Option.some.injEq] at h1
          subst h1
          refine ⟨rfl, ?_, root, ?_, h4⟩
          · rw [List.isChain_cons_cons]
            exact ⟨hp, h2⟩
          · rw [List.getLast?_cons_cons]; exact h3

/-- with one object fewer to go the path is the tail -/
theorem path_unique {h : Heap} : ∀ {l l' : List Nat} {n : Nat}, Path h n l → Path h n l' → l = l'
  | [], _, _, h1, _ => by simpa using h1.first
  | _ :: _, [], _, _, h2 => by simpa using h2.first
  | [x], [y], n, h1, h2 => by
    have := h1.first; have := h2.first; simp_all
  | [x], y :: z :: l, n, h1, h2 => by
    have e1 := h1.first
    have e2 := h2.first
    have e3 := (List.isChain_cons_cons.mp h2.step).1
    obtain ⟨r, e4, e5⟩ := h1.last
    simp only [List.head?_cons, Option.some.injEq, List.getLast?_singleton] at e1 e2 e4
    subst e1 e2 e4
    rw [e5] at e3; cases e3
  | y :: z :: l, [x], n, h2, h1 => by
    have e1 := h1.first
    have e2 := h2.first
    have e3 := (List.isChain_cons_cons.mp h2.step).1
    obtain ⟨r, e4, e5⟩ := h1.last
    simp only [List.head?_cons, Option.some.injEq, List.getLast?_singleton] at e1 e2 e4
    subst e1 e2 e4
    rw [e5] at e3; cases e3
  | x :: y :: l, x' :: y' :: l', n, h1, h2 => by
    have e1 := h1.first
    have e2 := h2.first
    simp only [List.head?_cons, Option.some.injEq] at e1 e2
    subst e1 e2
    obtain ⟨e3, e4⟩ := List.isChain_cons_cons.mp h1.step
    obtain ⟨e5, e6⟩ := List.isChain_cons_cons.mp h2.step
    rw [e3] at e5
    obtain rfl := Option.some.inj e5
    have := path_unique (h := h) (l := y :: l) (l' := y :: l') (n := y) ⟨rfl, e4, by simpa using h1.last⟩ ⟨rfl, e6, by simpa using h2.last⟩
    rw [this]

theorem path_nodup {h : Heap} {rank : Nat → Nat} (hr : ∀ n p, h.parent n = some p → rank p < rank n) : ∀ {fuel n : Nat} {l : List Nat}, pathToRoot h fuel n = .ok l → l.Nodup
  | 0, n, l, hl => by simp [pathToRoot] at hl
  | fuel + 1, n, l, hl => by
    rw [pathToRoot] at hl
    cases hp : h.parent n with
    | none =>
      simp only [hp, Except.ok.injEq] at hl
      subst hl
      simp
    | some p =>
      simp only [hp] at hl
      cases hq : pathToRoot h fuel p with
      | error e => simp [hq] at hl
      | ok r =>
        simp only [hq, Except.ok.injEq] at hl
        subst hl
        refine List.nodup_cons.mpr ⟨?_, path_nodup hr hq⟩
        rw [path_mem hq]
        intro h2
        have := hr _ _ hp
        rcases above_rank hr h2 with rfl | h3 <;> omega

theorem path_ends {h : Heap} {rank : Nat → Nat} {B : Nat} (r1 : ∀ n p, h.parent n = some p → rank p < rank n) (r2 : ∀ n p, h.parent n = some p → rank n < B) :
    ∀ {fuel n : Nat}, min (rank n) B + 1 ≤ fuel → ∃ l, pathToRoot h fuel n = .ok l
  | 0, n, hf => by omega
  | fuel + 1, n, hf => by
    rw [pathToRoot]
    cases hp : h.parent n with
    | none => exact ⟨_, rfl⟩
    | some p =>
      have h1 := r1 _ _ hp
      have h2 := r2 _ _ hp
      obtain ⟨l, hl⟩ := path_ends r1 r2 (fuel := fuel) (n := p) (by omega)
      exact ⟨n :: l, by simp only [hl]⟩

theorem path_diverges {h : Heap} : ∀ {fuel n : Nat}, (∀ a, Above h n a → h.parent a ≠ none) → pathToRoot h fuel n = .error .diverge
  | 0, n, _ => rfl
  | fuel + 1, n, ha => by
    rw [pathToRoot]
    cases hp : h.parent n with
    | none => exact absurd hp (ha n .refl)
    | some p => simp only [path_diverges (fuel := fuel) (n := p) (fun a h2 => ha a (.head hp h2))]

/-! ### lists -/

theorem pair_append {x y : Nat} : ∀ {a b : List Nat}, [x, y].Sublist (a ++ b) ↔ [x, y].Sublist a ∨ (x ∈ a ∧ y ∈ b) ∨ [x, y].Sublist b
  | [], b => by simp
  | z :: a, b => by
    rw [List.cons_append, List.cons_sublist_cons', List.cons_sublist_cons', pair_append (a := a)]
    simp only [List.singleton_sublist, List.mem_append, List.mem_cons]
    tauto

theorem pair_flatMap {x y : Nat} (f : Nat → List Nat) : ∀ {cs : List Nat}, [x, y].Sublist (cs.flatMap f) ↔ (∃ c ∈ cs, [x, y].Sublist (f c)) ∨ ∃ c d, [c, d].Sublist cs ∧ x ∈ f c ∧ y ∈ f d
  | [] => by simp
  | z :: cs => by
    rw [List.flatMap_cons, pair_append, pair_flatMap f (cs := cs)]
    constructor
    · rintro (h | ⟨h1, h2⟩ | ⟨c, hc, h⟩ | ⟨c, d, h1, h2⟩)
      · exact .inl ⟨z, by simp, h⟩
      · rw [List.mem_flatMap] at h2
        obtain ⟨d, hd, h2⟩ := h2
        exact .inr ⟨z, d, by simpa using hd, h1, h2⟩
      · exact .inl ⟨c, by simp [hc], h⟩
      · exact .inr ⟨c, d, h1.cons _, h2⟩
    · rintro (⟨c, hc, h⟩ | ⟨c, d, h1, h2, h3⟩)
      · rcases List.mem_cons.mp hc with rfl | hc
        · exact .inl h
        · exact .inr (.inr (.inl ⟨c, hc, h⟩))
      · rcases List.cons_sublist_cons'.mp h1 with h1 | ⟨rfl, h1⟩
        · exact .inr (.inr (.inr ⟨c, d, h1, h2, h3⟩))
        · exact .inr (.inl ⟨h2, List.mem_flatMap.mpr ⟨d, by simpa using h1, h3⟩⟩)

theorem pair_mem {x y : Nat} {l : List Nat} (h : [x, y].Sublist l) : x ∈ l ∧ y ∈ l := ⟨h.subset (by simp), h.subset (by simp)⟩

theorem pair_ne {x y : Nat} {l : List Nat} (hn : l.Nodup) (h : [x, y].Sublist l) : x ≠ y := by
  have := hn.sublist h
  simpa using this

theorem after_split {n : Nat} : ∀ {l : List Nat}, n ∈ l → ∃ a, l = a ++ n :: after n l ∧ n ∉ a
  | i :: l, h => by
    by_cases hi : i = n
    · subst hi
      exact ⟨[], by simp [after], by simp⟩
    · obtain ⟨a, e, hn⟩ := after_split (l := l) (by simpa [Ne.symm hi] using h)
      refine ⟨i :: a, ?_, by simp [hn, Ne.symm hi]⟩
      rw [after, if_neg hi, List.cons_append, ← e]

theorem mem_after {n k : Nat} {l : List Nat} (hd : l.Nodup) (hn : n ∈ l) : k ∈ after n l ↔ [n, k].Sublist l := by
  obtain ⟨a, e, hna⟩ := after_split hn
  have hd' := hd
  rw [e] at hd'
  have h2 : n ∉ after n l := (List.nodup_cons.mp (List.nodup_append.mp hd').2.1).1
  constructor
  · intro hk
    rw [e, pair_append]
    exact .inr (.inr (by simpa using hk))
  · intro hk
    rw [e, pair_append] at hk
    rcases hk with h | ⟨h, -⟩ | h
    · exact absurd (pair_mem h).1 hna
    · exact absurd h hna
    · rcases List.cons_sublist_cons'.mp h with h | ⟨-, h⟩
      · exact absurd (pair_mem h).1 h2
      · simpa using h

theorem find_after {n : Nat} {l : List Nat} (hd : l.Nodup) (hn : n ∈ l) (sel : Nat → Bool) (m : Nat) :
    find sel (after n l) = some m ↔ sel m = true ∧ [n, m].Sublist l ∧ ∀ k, sel k = true → [n, k].Sublist l → k = m ∨ [m, k].Sublist l := by
  obtain ⟨a, e, hna⟩ := after_split hn
  have hd' := hd
  rw [e] at hd'
  have hda : (after n l).Nodup := (List.nodup_cons.mp (List.nodup_append.mp hd').2.1).2
  have hsub : (after n l).Sublist l := by
    conv_rhs => rw [e]
    exact ((List.Sublist.refl _).cons _).trans (List.sublist_append_right _ _)
  rw [find, List.find?_eq_some_iff_append]
  constructor
  · rintro ⟨h1, as, bs, e2, h2⟩
    refine ⟨h1, (mem_after hd hn).mp (by rw [e2]; simp), ?_⟩
    intro k hk hs
    have := (mem_after hd hn).mpr hs
    rw [e2, List.mem_append, List.mem_cons] at this
    rcases this with h3 | rfl | h3
    · have := h2 k h3
      simp [hk] at this
    · exact .inl rfl
    · refine .inr (List.Sublist.trans ?_ hsub)
      rw [e2, pair_append]
      exact .inr (.inr (by simpa using h3))
  · rintro ⟨h1, h2, h3⟩
    obtain ⟨as, bs, e2⟩ := List.append_of_mem ((mem_after hd hn).mpr h2)
    refine ⟨h1, as, bs, e2, ?_⟩
    intro k hk
    by_contra hsk
    have hsk : sel k = true := by simpa using hsk
    have hkl : [n, k].Sublist l := (mem_after hd hn).mp (by rw [e2]; simp [hk])
    have hkm : [k, m].Sublist (after n l) := by
      rw [e2, pair_append]
      exact .inr (.inl ⟨hk, by simp⟩)
    rcases h3 k hsk hkl with rfl | h4
    · exact pair_ne hda hkm rfl
    · obtain ⟨a', e', hn'⟩ := after_split (l := l) (n := m) (pair_mem h2).2
      have h5 := (mem_after hd (pair_mem h4).1).mpr h4
      have h6 := (mem_after hd (pair_mem h4).2).mpr (hkm.trans hsub)
      have hd2 := hd
      rw [e'] at hd2
      have h7 : [k, m].Sublist (a' ++ m :: after m l) := by rw [← e']; exact hkm.trans hsub
      have hd3 := List.nodup_append.mp hd2
      have hd4 := List.nodup_cons.mp hd3.2.1
      rcases pair_append.mp h7 with h | ⟨h, -⟩ | h
      · exact hn' (pair_mem h).2
      · exact hd3.2.2 k h k (by simp [h5]) rfl
      · rcases List.cons_sublist_cons'.mp h with h | ⟨rfl, h⟩
        · exact hd4.1 (pair_mem h).2
        · exact hd4.1 h5

theorem find_after_none {n : Nat} {l : List Nat} (hd : l.Nodup) (hn : n ∈ l) (sel : Nat → Bool) :
    find sel (after n l) = none ↔ ∀ k, [n, k].Sublist l → sel k = false := by
  rw [find, List.find?_eq_none]
  constructor
  · intro h k hk
    simpa using h k ((mem_after hd hn).mpr hk)
  · intro h k hk
    simp [h k ((mem_after hd hn).mp hk)]

theorem drop_after {n : Nat} : ∀ {l : List Nat}, l.drop (l.idxOf n + 1) = after n l
  | [] => rfl
  | i :: l => by
    by_cases hi : i = n
    · subst hi; simp [after]
    · rw [List.idxOf_cons_ne _ hi, List.drop_succ_cons, drop_after, after, if_neg hi]

/-! ### the traversal -/

theorem seq_map {α β : Type} {f : α → Except Err β} {g : α → β} : ∀ {l : List α} {r : List β}, sequence (l.map f) = .ok r → (∀ a b, f a = .ok b → g a = b) → r = l.map g ∧ ∀ a ∈ l, f a = .ok (g a)
  | [], r, h, _ => by
    simp only [List.map_nil, ExtSort.sequence, Except.ok.injEq] at h
    subst h; simp
  | a :: l, r, h, hg => by
    rw [List.map_cons] at h
    cases ha : f a with
    | error e => simp [ha, ExtSort.sequence] at h
    | ok b =>
      cases hl : sequence (l.map f) with
      | error e => simp [ha, hl, ExtSort.sequence] at h
      | ok bs =>
        simp only [ha, hl, ExtSort.sequence, Except.ok.injEq] at h
        obtain ⟨e1, e2⟩ := seq_map hl hg
        have := hg a b ha
        subst h e1
        refine ⟨by simp [this], ?_⟩
        intro c hc
        rcases List.mem_cons.mp hc with rfl | hc
        · rw [this]; exact ha
        · exact e2 c hc

/-- the list of a traversal -/
def pre (h : Heap) (fuel n : Nat) : List Nat := match preOrder h fuel n with | .ok l => l | .error _ => []

theorem pre_eq {h : Heap} {fuel n : Nat} {l : List Nat} (hl : preOrder h fuel n = .ok l) : pre h fuel n = l := by simp [pre, hl]

theorem preOrder_succ {h : Heap} {fuel n : Nat} {l : List Nat} (hl : preOrder h (fuel + 1) n = .ok l) :
    l = n :: (h.children n).flatMap (pre h fuel) ∧ ∀ c ∈ h.children n, preOrder h fuel c = .ok (pre h fuel c) := by
  rw [preOrder] at hl
  cases hs : sequence ((h.children n).map (preOrder h fuel)) with
  | error e => simp [hs] at hl
  | ok ls =>
    simp only [hs, Except.ok.injEq] at hl
    obtain ⟨e1, e2⟩ := seq_map (g := pre h fuel) hs (fun a b => pre_eq)
    exact ⟨by rw [← hl, e1, List.flatMap], e2⟩

theorem pre_mem {h : Heap} (hf : Forest h) : ∀ {fuel n : Nat} {l : List Nat}, preOrder h fuel n = .ok l → ∀ x, x ∈ l ↔ Above h x n
  | 0, n, l, hl => by simp [preOrder] at hl
  | fuel + 1, n, l, hl => by
    intro x
    obtain ⟨rfl, e⟩ := preOrder_succ hl
    rw [above_tail, List.mem_cons, List.mem_flatMap]
    constructor
    · rintro (rfl | ⟨c, hc, h1⟩)
      · exact .inl rfl
      · exact .inr ⟨c, (pre_mem hf (e c hc) x).mp h1, (hf.link n c).mp hc⟩
    · rintro (rfl | ⟨c, h1, h2⟩)
      · exact .inl rfl
      · have hc := (hf.link n c).mpr h2
        exact .inr ⟨c, hc, (pre_mem hf (e c hc) x).mpr h1⟩

/-- children of the same object that have a common object below are the same -/
theorem child_unique {h : Heap} (hf : Forest h) {q c d x : Nat} (hc : c ∈ h.children q) (hd : d ∈ h.children q) (h1 : Above h x c) (h2 : Above h x d) : c = d := by
  rw [hf.link] at hc hd
  rcases above_comparable h1 h2 with h3 | h3
  · rcases above_head.mp h3 with rfl | ⟨p, hp, h4⟩
    · rfl
    · rw [hc] at hp
      obtain rfl := Option.some.inj hp
      exact absurd h4 (not_above_parent hf hd)
  · rcases above_head.mp h3 with rfl | ⟨p, hp, h4⟩
    · rfl
    · rw [hd] at hp
      obtain rfl := Option.some.inj hp
      exact absurd h4 (not_above_parent hf hc)

theorem nodup_flatMap' {f : Nat → List Nat} : ∀ {cs : List Nat}, cs.Nodup → (∀ c ∈ cs, (f c).Nodup) → (∀ c ∈ cs, ∀ d ∈ cs, ∀ x, x ∈ f c → x ∈ f d → c = d) → (cs.flatMap f).Nodup
  | [], _, _, _ => by simp
  | c :: cs, h1, h2, h3 => by
    rw [List.flatMap_cons, List.nodup_append]
    obtain ⟨hc, hcs⟩ := List.nodup_cons.mp h1
    refine ⟨h2 c (by simp), nodup_flatMap' hcs (fun d hd => h2 d (by simp [hd])) (fun d hd e he => h3 d (by simp [hd]) e (by simp [he])), ?_⟩
    rintro x hx y hy rfl
    obtain ⟨d, hd, hy⟩ := List.mem_flatMap.mp hy
    have := h3 c (by simp) d (by simp [hd]) x hx hy
    subst this
    exact hc hd

theorem pre_nodup {h : Heap} (hf : Forest h) : ∀ {fuel n : Nat} {l : List Nat}, preOrder h fuel n = .ok l → l.Nodup
  | 0, n, l, hl => by simp [preOrder] at hl
  | fuel + 1, n, l, hl => by
    obtain ⟨rfl, e⟩ := preOrder_succ hl
    refine List.nodup_cons.mpr ⟨?_, nodup_flatMap' (hf.once n) (fun c hc => pre_nodup hf (e c hc)) ?_⟩
    · rw [List.mem_flatMap]
      rintro ⟨c, hc, h1⟩
      exact not_above_parent hf ((hf.link n c).mp hc) ((pre_mem hf (e c hc) n).mp h1)
    · intro c hc d hd x h1 h2
      exact child_unique hf hc hd ((pre_mem hf (e c hc) x).mp h1) ((pre_mem hf (e d hd) x).mp h2)

theorem pre_order {h : Heap} (hf : Forest h) {x y : Nat} : ∀ {fuel n : Nat} {l : List Nat}, preOrder h fuel n = .ok l →
    ([x, y].Sublist l ↔ Above h x n ∧ Above h y n ∧ Prec h x y)
  | 0, n, l, hl => by simp [preOrder] at hl
  | fuel + 1, n, l, hl => by
    have hnd := pre_nodup hf hl
    have hmem := pre_mem hf hl
    obtain ⟨rfl, e⟩ := preOrder_succ hl
    have key : [x, y].Sublist (n :: (h.children n).flatMap (pre h fuel)) ↔ (x = n ∧ y ∈ (h.children n).flatMap (pre h fuel)) ∨ (∃ c ∈ h.children n, [x, y].Sublist (pre h fuel c)) ∨
        ∃ c d, [c, d].Sublist (h.children n) ∧ x ∈ pre h fuel c ∧ y ∈ pre h fuel d := by
      rw [List.cons_sublist_cons', pair_flatMap, List.singleton_sublist]
      exact or_comm
    constructor
    · intro hs
      have hm := pair_mem hs
      refine ⟨(hmem x).mp hm.1, (hmem y).mp hm.2, ?_⟩
      rcases key.mp hs with ⟨rfl, h1⟩ | ⟨c, hc, h1⟩ | ⟨c, d, h1, h2, h3⟩
      · exact .inl ⟨pair_ne hnd hs, (hmem y).mp hm.2⟩
      · exact ((pre_order hf (e c hc)).mp h1).2.2
      · have hcd := pair_mem h1
        exact .inr ⟨n, c, d, h1, (pre_mem hf (e c hcd.1) x).mp h2, (pre_mem hf (e d hcd.2) y).mp h3⟩
    · rintro ⟨hx, hy, ⟨hne, hyx⟩ | ⟨q, c, d, hcd, hxc, hyd⟩⟩
      · rw [key]
        rcases above_tail.mp hx with rfl | ⟨c, h1, h2⟩
        · refine .inl ⟨rfl, ?_⟩
          have := (hmem y).mpr hy
          simpa [Ne.symm hne] using this
        · have hc := (hf.link n c).mpr h2
          exact .inr (.inl ⟨c, hc, (pre_order hf (e c hc)).mpr ⟨h1, hyx.trans h1, .inl ⟨hne, hyx⟩⟩⟩)
      · have hm := pair_mem hcd
        have hxq : Above h x q := hxc.tail ((hf.link q c).mp hm.1)
        have hyq : Above h y q := hyd.tail ((hf.link q d).mp hm.2)
        have hqn : Above h q n := by
          rcases above_comparable hxq hx with h1 | h1
          · exact h1
          · rcases above_tail.mp h1 with rfl | ⟨k, h2, h3⟩
            · exact .refl
            · have hk := (hf.link q k).mpr h3
              have e1 := child_unique hf hm.1 hk hxc (hx.trans h2)
              have e2 := child_unique hf hm.2 hk hyd (hy.trans h2)
              exact absurd (e1.trans e2.symm) (pair_ne (hf.once q) hcd)
        rw [key]
        rcases above_tail.mp hqn with rfl | ⟨k, h2, h3⟩
        · exact .inr (.inr ⟨c, d, hcd, (pre_mem hf (e c hm.1) x).mpr hxc, (pre_mem hf (e d hm.2) y).mpr hyd⟩)
        · have hk := (hf.link n k).mpr h3
          exact .inr (.inl ⟨k, hk, (pre_order hf (e k hk)).mpr ⟨hxq.trans h2, hyq.trans h2, .inr ⟨q, c, d, hcd, hxc, hyd⟩⟩⟩)

theorem seq_ok {α β : Type} {f : α → Except Err β} : ∀ {l : List α}, (∀ a ∈ l, ∃ b, f a = .ok b) → ∃ r, sequence (l.map f) = .ok r
  | [], _ => ⟨[], rfl⟩
  | a :: l, h => by
    obtain ⟨b, hb⟩ := h a (by simp)
    obtain ⟨r, hr⟩ := seq_ok (f := f) (l := l) (fun c hc => h c (by simp [hc]))
    exact ⟨b :: r, by simp [ExtSort.sequence, hb, hr]⟩

theorem pre_ends {h : Heap} (hf : Forest h) {rank : Nat → Nat} {B : Nat} (r1 : ∀ n p, h.parent n = some p → rank p < rank n) (r2 : ∀ n p, h.parent n = some p → rank n < B) :
    ∀ {fuel n : Nat}, B - rank n + 1 ≤ fuel → ∃ l, preOrder h fuel n = .ok l
  | 0, n, h1 => by omega
  | fuel + 1, n, h1 => by
    obtain ⟨r, hr⟩ := seq_ok (f := preOrder h fuel) (l := h.children n) (by
      intro c hc
      rw [hf.link] at hc
      have h2 := r1 _ _ hc
      have h3 := r2 _ _ hc
      exact pre_ends hf r1 r2 (by omega))
    exact ⟨n :: r.flatten, by rw [preOrder, hr]⟩

/-- the bound on the number of steps -/
theorem ends {h : Heap} (hf : Forest h) : ∃ F, ∀ fuel, F ≤ fuel → ∀ n, (∃ l, pathToRoot h fuel n = .ok l) ∧ ∃ l, preOrder h fuel n = .ok l := by
  obtain ⟨rank, B, r1, r2⟩ := hf.acyclic
  exact ⟨B + 1, fun fuel hF n => ⟨path_ends r1 r2 (by omega), pre_ends hf r1 r2 (by omega)⟩⟩

/-- the root and the traversal of the tree -/
theorem tree_list {h : Heap} (hf : Forest h) {fuel n : Nat} (hp : ∃ l, pathToRoot h fuel n = .ok l) (ht : ∀ r, ∃ l, preOrder h fuel r = .ok l) :
    ∃ r l, getRoot h fuel n = .ok r ∧ preOrder h fuel r = .ok l ∧ l.Nodup ∧ n ∈ l ∧ h.parent r = none ∧ Above h n r ∧ (∀ k, k ∈ l ↔ Above h k r) ∧
      (∀ k, [n, k].Sublist l ↔ Prec h n k) ∧ ∀ k, [k, n].Sublist l ↔ Prec h k n := by
  obtain ⟨p, hp⟩ := hp
  obtain ⟨r, h1, h2⟩ := (path_path hp).last
  obtain ⟨l, hl⟩ := ht r
  have hr : Above h n r := (path_mem hp r).mp (List.mem_of_getLast? h1)
  have same : ∀ {k}, Prec h n k ∨ Prec h k n → Above h k r := by
    have up : ∀ {a}, Above h n a → Above h a r := by
      intro a ha
      rcases above_comparable ha hr with h3 | h3
      · exact h3
      · rcases above_head.mp h3 with rfl | ⟨p, hp, -⟩
        · exact .refl
        · rw [h2] at hp; cases hp
    rintro k ((⟨-, h3⟩ | ⟨q, c, d, h3, h4, h5⟩) | (⟨-, h3⟩ | ⟨q, c, d, h3, h4, h5⟩))
    · exact h3.trans hr
    · exact (h5.tail ((hf.link q d).mp (pair_mem h3).2)).trans (up (h4.tail ((hf.link q c).mp (pair_mem h3).1)))
    · exact up h3
    · exact (h4.tail ((hf.link q c).mp (pair_mem h3).1)).trans (up (h5.tail ((hf.link q d).mp (pair_mem h3).2)))
  refine ⟨r, l, by simp only [getRoot, hp, h1], hl, pre_nodup hf hl, (pre_mem hf hl n).mpr hr, h2, hr, pre_mem hf hl, ?_, ?_⟩
  · intro k
    rw [pre_order hf hl]
    exact ⟨fun h => h.2.2, fun h => ⟨hr, same (.inl h), h⟩⟩
  · intro k
    rw [pre_order hf hl]
    exact ⟨fun h => h.2.2, fun h => ⟨same (.inr h), hr, h⟩⟩

/-- objects with an order are in the same tree -/
theorem prec_root {h : Heap} (hf : Forest h) {x y r : Nat} (hr : h.parent r = none) (hp : Prec h x y) : Above h x r ↔ Above h y r := by
  have up : ∀ {a b}, Above h a b → (Above h a r ↔ Above h b r) := by
    intro a b hab
    refine ⟨fun ha => ?_, fun hb => hab.trans hb⟩
    rcases above_comparable hab ha with h3 | h3
    · exact h3
    · rcases above_head.mp h3 with rfl | ⟨p, hp, -⟩
      · exact .refl
      · rw [hr] at hp; cases hp
  rcases hp with ⟨-, h3⟩ | ⟨q, c, d, h3, h4, h5⟩
  · exact (up h3).symm
  · exact (up (h4.tail ((hf.link q c).mp (pair_mem h3).1))).trans (up (h5.tail ((hf.link q d).mp (pair_mem h3).2))).symm

theorem heap_ext {h h' : Heap} (h1 : ∀ q, h.children q = h'.children q) (h2 : ∀ x, h.parent x = h'.parent x) : h = h' := by
  obtain ⟨c, q⟩ := h
  obtain ⟨c', q'⟩ := h'
  simp only [Heap.mk.injEq]
  exact ⟨funext h1, funext h2⟩

theorem chain_above {h : Heap} {a b : Nat} : ∀ {l : List Nat}, l.IsChain (fun x y => h.parent x = some y) → [a, b].Sublist l → Above h a b
  | [], _, hs => by simp at hs
  | [x], _, hs => by
    have := hs.length_le
    simp at this
  | x :: y :: l, hc, hs => by
    obtain ⟨h1, h2⟩ := List.isChain_cons_cons.mp hc
    rcases List.cons_sublist_cons'.mp hs with hs | ⟨rfl, hs⟩
    · exact chain_above h2 hs
    · have hb : b ∈ y :: l := by simpa using hs
      rcases List.mem_cons.mp hb with rfl | hb
      · exact .head h1 .refl
      · exact .head h1 (chain_above (a := y) h2 (by simpa using hb))

theorem pair_reverse {x y : Nat} {l : List Nat} : [x, y].Sublist l.reverse ↔ [y, x].Sublist l := by
  rw [← List.reverse_sublist]
  simp

/-! ### inherited values -/

theorem above_antisymm {h : Heap} (hf : Forest h) {a b : Nat} (h1 : Above h a b) (h2 : Above h b a) : a = b := by
  obtain ⟨rank, B, r1, -⟩ := hf.acyclic
  rcases above_rank r1 h1 with rfl | h3
  · rfl
  · rcases above_rank r1 h2 with rfl | h4
    · rfl
    · omega

theorem findSome_path {h : Heap} (hf : Forest h) {attr : Nat → Option Val} {v : Val} : ∀ {fuel n : Nat} {l : List Nat}, pathToRoot h fuel n = .ok l →
    (l.findSome? attr = some v ↔ ∃ a, Nearest h attr n a ∧ attr a = some v)
  | 0, n, l, hl => by simp [pathToRoot] at hl
  | fuel + 1, n, l, hl => by
    obtain ⟨r, rfl⟩ : ∃ r, l = n :: r := by
      have := (path_path hl).first
      cases l with
      | nil => simp at this
      | cons x r => simp only [List.head?_cons, Option.some.injEq] at this; exact ⟨r, by rw [this]⟩
    cases hn : attr n with
    | some w =>
      rw [List.findSome?_cons, hn]
      constructor
      · intro e
        exact ⟨n, ⟨.refl, by simp [hn], fun b hb _ => hb⟩, by rw [hn]; exact e⟩
      · rintro ⟨a, ⟨h1, h2, h3⟩, h4⟩
        obtain rfl := above_antisymm hf h1 (h3 n .refl (by simp [hn]))
        rw [← hn, h4]
    | none =>
      rw [List.findSome?_cons, hn]
      rw [pathToRoot] at hl
      cases hp : h.parent n with
      | none =>
        simp only [hp, Except.ok.injEq, List.cons.injEq, true_and] at hl
        subst hl
        constructor
        · intro e; cases e
        · rintro ⟨a, ⟨h1, h2, h3⟩, h4⟩
          rcases above_head.mp h1 with rfl | ⟨p, hp', -⟩
          · rw [hn] at h4; cases h4
          · rw [hp] at hp'; cases hp'
      | some p =>
        simp only [hp] at hl
        cases hq : pathToRoot h fuel p with
        | error e => simp [hq] at hl
        | ok r' =>
          simp only [hq, Except.ok.injEq, List.cons.injEq, true_and] at hl
          subst hl
          have low : ∀ a, (attr a).isSome → (Above h n a ↔ Above h p a) := by
            intro a ha
            rw [above_head]
            constructor
            · rintro (rfl | ⟨p', hp', h1⟩)
              · simp [hn] at ha
              · rw [hp] at hp'
                obtain rfl := Option.some.inj hp'
                exact h1
            · intro h1; exact .inr ⟨p, hp, h1⟩
          show List.findSome? attr r' = some v ↔ _
          rw [findSome_path hf hq]
          constructor
          · rintro ⟨a, ⟨h1, h2, h3⟩, h4⟩
            exact ⟨a, ⟨(low a h2).mpr h1, h2, fun b hb hs => h3 b ((low b hs).mp hb) hs⟩, h4⟩
          · rintro ⟨a, ⟨h1, h2, h3⟩, h4⟩
            exact ⟨a, ⟨(low a h2).mp h1, h2, fun b hb hs => h3 b ((low b hs).mpr hb) hs⟩, h4⟩

theorem findSome_none {h : Heap} {attr : Nat → Option Val} {fuel n : Nat} {l : List Nat} (hl : pathToRoot h fuel n = .ok l) : l.findSome? attr = none ↔ ∀ a, Above h n a → attr a = none := by
  rw [List.findSome?_eq_none_iff]
  simp only [path_mem hl]

theorem treeProp_path {h : Heap} {attr : Nat → Option Val} : ∀ {fuel n : Nat} {l : List Nat}, pathToRoot h fuel n = .ok l →
    treeProp h attr fuel n = match l.findSome? attr with | some v => .ok v | none => .error .valueError
  | 0, n, l, hl => by simp [pathToRoot] at hl
  | fuel + 1, n, l, hl => by
    rw [pathToRoot] at hl
    rw [treeProp]
    cases hp : h.parent n with
    | none =>
      simp only [hp, Except.ok.injEq] at hl
      subst hl
      cases hn : attr n <;> simp [hn]
    | some p =>
      simp only [hp] at hl
      cases hq : pathToRoot h fuel p with
      | error e => simp [hq] at hl
      | ok r =>
        simp only [hq, Except.ok.injEq] at hl
        subst hl
        cases hn : attr n with
        | some v => simp [hn]
        | none => simp only [List.findSome?_cons, hn, treeProp_path hq]

end ABX.TreeHeap
