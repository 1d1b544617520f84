import Verif.Properties.TaskObject
import Verif.Proofs.TaskBareOut
/-!
Property C88: filters on bare columns (`Task` with a filter that selects items of a level).

Such a filter is applied when the task is prepared; the items that are left keep their numbers, and these are then used as positions in the
table of what is left (task.py 414-415, 497).  `C88_created` says exactly when this raises IndexError, `C88_none` what that means without
across column, `C88_labels` which labels a block gets otherwise.
-/
namespace ABX.Task
open ExtSort SideOps Sampler
variable {ρ : Type}

section
variable {e : Env} (he : e.Lawful) {a : Args ρ} (ha : a.OK) {T : Task ρ} (h : init e a = .ok T) {L : Level ρ} {fr0 : Frame} (I : InitLevel e a T L fr0)
include ha h I

theorem frame_sorted : L.frame.Pairwise (fun p q => p.1 < q.1) := by
  have hp0 : Positional fr0 := by rw [I.group]; exact resetIndex_positional _
  rw [I.hyp.frame]
  refine List.Pairwise.filter _ (List.pairwise_iff_getElem.mpr ?_)
  intro i j hi hj hij
  rw [hp0 i _ (List.getElem?_eq_getElem hi), hp0 j _ (List.getElem?_eq_getElem hj)]
  exact hij

/-- the blocks of the code -/
theorem sameLabels_key {p q p' q' : Nat × Row} (hp : p ∈ L.frame) (hq : q ∈ L.frame) (sp : Sim a.columns p p') (sq : Sim a.columns q q') :
    keyOf (T.on :: T.across) q.2 = keyOf (T.on :: T.across) p.2 ↔ Spec.sameLabels a.on a.across p' q' = true := by
  obtain ⟨c1, c2, c3, c4⟩ := checkDatabase_ok (init_ok h).1
  have hacr := init_across' h
  have H := I.hyp
  unfold Spec.sameLabels
  by_cases hne : a.across = []
  · rw [if_pos hne] at hacr
    rw [if_pos (by simp [hne]), beq_iff_eq, ← sp.1, ← sq.1]
    constructor
    · intro hk
      exact H.dum hacr q (H.sub hq) p (H.sub hp) (List.map_inj_left.mp hk "#across" (by simp [hacr]))
    · intro hk
      rw [H.distinctL.inj hq hp hk]
  · rw [if_neg hne] at hacr
    rw [if_neg (by simpa using hne), Bool.and_eq_true, List.all_eq_true, beq_iff_eq, hacr, I.on]
    unfold keyOf
    rw [List.map_inj_left]
    constructor
    · intro hk
      refine ⟨?_, fun c hc => ?_⟩
      · rw [← sp.2 _ c1, ← sq.2 _ c1]; exact hk _ (by simp)
      · rw [beq_iff_eq, ← sp.2 _ (c2 c hc), ← sq.2 _ (c2 c hc)]; exact hk _ (by simp [hc])
    · rintro ⟨h1, h2⟩ c hc
      rcases List.mem_cons.mp hc with rfl | hc
      · rw [sp.2 _ c1, sq.2 _ c1]; exact h1
      · rw [sp.2 _ (c2 c hc), sq.2 _ (c2 c hc)]; exact beq_iff_eq.mp (h2 c hc)

theorem first_key {p p' : Nat × Row} (hp : p ∈ L.frame) (sp : Sim a.columns p p') :
    (∀ q ∈ L.frame, keyOf (T.on :: T.across) q.2 = keyOf (T.on :: T.across) p.2 → p.1 ≤ q.1) ↔ Spec.firstOfBlock a.on a.across (keptOf a L.key) p' = true := by
  have sim := frame_kept ha h I
  unfold Spec.firstOfBlock
  rw [List.all_eq_true]
  constructor
  · intro hall q' hq'
    obtain ⟨q, hq, sq⟩ := forall₂_mem_right sim q' hq'
    rw [Bool.or_eq_true, decide_eq_true_eq, Bool.not_eq_true', ← sp.1, ← sq.1]
    by_cases hk : Spec.sameLabels a.on a.across p' q' = true
    · exact .inr (hall q hq ((sameLabels_key ha h I hp hq sp sq).mpr hk))
    · exact .inl (by simpa using hk)
  · intro hall q hq hk
    obtain ⟨q', hq', sq⟩ := forall₂_mem_left sim q hq
    have := hall q' hq'
    rw [(sameLabels_key ha h I hp hq sp sq).mp hk] at this
    rw [sp.1, sq.1]
    simpa using this

end

/-- C88: a task can be created exactly when, in every level, the number of the first item of every block (among the items that the filters on bare
columns keep) is smaller than the number of items that are kept; otherwise IndexError is raised. -/
theorem C88_created {e : Env} (he : e.Lawful) {a : Args ρ} (ha : a.OK) {T : Task ρ} (h : init e a = .ok T) :
    ((∃ o, Obj.new e a = .ok o) ↔ ∀ L ∈ T.levels, ∀ A ∈ keptOf a L.key, Spec.firstOfBlock a.on a.across (keptOf a L.key) A = true → A.1 < (keptOf a L.key).length) ∧
    ((∃ o, Obj.new e a = .ok o) ∨ Obj.new e a = .error .indexError) := by
  have hlev : ∀ L ∈ T.levels, ((∃ s, statsOf false e T L = .ok s) ↔ ∀ A ∈ keptOf a L.key, Spec.firstOfBlock a.on a.across (keptOf a L.key) A = true → A.1 < (keptOf a L.key).length) ∧
      ((∃ s, statsOf false e T L = .ok s) ∨ statsOf false e T L = .error .indexError) := by
    intro L hL
    obtain ⟨fr0, I⟩ := init_level he ha h hL
    have sim := frame_kept ha h I
    obtain ⟨h1, h2⟩ := statsOf_iff I.hyp (frame_sorted ha h I) false
    refine ⟨h1.trans ?_, h2⟩
    rw [← sim.length_eq]
    constructor
    · intro hall A hA hf
      obtain ⟨p, hp, sp⟩ := forall₂_mem_right sim A hA
      rw [← sp.1]
      exact hall p hp ((first_key ha h I hp sp).mpr hf)
    · intro hall p hp hf
      obtain ⟨A, hA, sp⟩ := forall₂_mem_left sim p hp
      rw [sp.1]
      exact hall A hA ((first_key ha h I hp sp).mp hf)
  have hnew : (∃ o, Obj.new e a = .ok o) ↔ ∃ ls, sequence (T.levels.map (fun L => (statsOf false e T L).map (fun s => (L.key, s)))) = .ok ls := by
    unfold Obj.new
    rw [h]
    unfold computeStatistics
    dsimp only
    cases sequence (T.levels.map (fun L => (statsOf false e T L).map (fun s => (L.key, s)))) with
    | error er => constructor <;> (rintro ⟨_, h⟩; cases h)
    | ok ls => exact ⟨fun _ => ⟨ls, rfl⟩, fun _ => ⟨_, rfl⟩⟩
  have hor := sequence_error_of (l := T.levels.map (fun L => (statsOf false e T L).map (fun s => (L.key, s)))) (P := (· = .indexError)) (by
    intro x hx
    obtain ⟨L, hL, rfl⟩ := List.mem_map.mp hx
    rcases (hlev L hL).2 with ⟨s, hs⟩ | hs <;> rw [hs]
    · exact .inl ⟨_, rfl⟩
    · exact .inr ⟨_, rfl, rfl⟩)
  refine ⟨hnew.trans ⟨?_, ?_⟩, ?_⟩
  · rintro ⟨ls, hls⟩ L hL
    refine (hlev L hL).1.mp ?_
    obtain ⟨v, _, hv⟩ := forall₂_mem_left (sequence_inv hls) L hL
    cases hs : statsOf false e T L with
    | error er => rw [hs] at hv; cases hv
    | ok s => exact ⟨s, rfl⟩
  · intro hall
    obtain ⟨ys, hys, _⟩ := sequence_exists (f := fun L => (statsOf false e T L).map (fun s => (L.key, s))) (l := T.levels) (Q := fun _ _ => True) (by
      intro L hL
      obtain ⟨s, hs⟩ := (hlev L hL).1.mpr (hall L hL)
      exact ⟨(L.key, s), by rw [hs]; rfl, trivial⟩)
    exact ⟨ys, hys⟩
  · rcases hor with ⟨ls, hls⟩ | ⟨er, hls, rfl⟩
    · exact .inl (hnew.mpr ⟨ls, hls⟩)
    · right
      unfold Obj.new
      rw [h]
      unfold computeStatistics
      dsimp only
      rw [hls]

/-- numbers that are all smaller than their number are all the smaller numbers -/
theorem all_below {l : List Nat} (hn : l.Nodup) (hlt : ∀ x ∈ l, x < l.length) : ∀ i < l.length, i ∈ l := by
  have hsub := List.subperm_of_subset hn (l₂ := List.range l.length) (fun x hx => List.mem_range.mpr (hlt x hx))
  have hp := hsub.perm_of_length_le (by simp)
  intro i hi
  exact hp.mem_iff.mpr (List.mem_range.mpr hi)

/-- the numbers of the items of a level are different -/
theorem items_inj {a : Args ρ} {key : List Val} {p q : Nat × Row} (hp : p ∈ itemsOf a key) (hq : q ∈ itemsOf a key) (hpq : p.1 = q.1) : p = q := by
  have get : ∀ {p : Nat × Row}, p ∈ itemsOf a key → ((a.db.map (·.2)).filter (fun r => a.by_.map r == specKey a key))[p.1]? = some p.2 := by
    intro p hp
    unfold itemsOf Spec.items at hp
    obtain ⟨q, hq, rfl⟩ := List.mem_map.mp hp
    obtain ⟨i, hi⟩ := List.getElem?_of_mem hq
    rw [List.getElem?_zipIdx, Option.map_eq_some_iff] at hi
    obtain ⟨r, hr, rfl⟩ := hi
    simpa using hr
  have h1 := get hp
  have h2 := get hq
  rw [hpq] at h1
  exact Prod.ext hpq (Option.some.inj (h1.symm.trans h2))

theorem items_range (a : Args ρ) (key : List Val) : (itemsOf a key).map (·.1) = List.range (itemsOf a key).length := by
  unfold itemsOf Spec.items
  rw [List.map_map]
  have : (fun x : Nat × Row => x.1) ∘ (fun p : Row × Nat => (p.2, p.1)) = Prod.snd := rfl
  rw [this, List.zipIdx_map_snd, List.length_map, List.length_zipIdx, List.range_eq_range']

theorem items_nodup (a : Args ρ) (key : List Val) : ((itemsOf a key).map (·.1)).Nodup := by
  rw [items_range]
  exact List.nodup_range

/-- C88: without across column a task can be created exactly when, in every level, the items that the filters on bare columns remove are the last ones. -/
theorem C88_none {e : Env} (he : e.Lawful) {a : Args ρ} (ha : a.OK) {T : Task ρ} (h : init e a = .ok T) (hac : a.across = []) :
    (∃ o, Obj.new e a = .ok o) ↔ ∀ L ∈ T.levels, ∀ p ∈ itemsOf a L.key, ∀ q ∈ itemsOf a L.key, p.1 < q.1 → Spec'.ItemKept a q → Spec'.ItemKept a p := by
  rw [(C88_created he ha h).1]
  refine forall_congr' (fun L => forall_congr' (fun hL => ?_))
  have hfirst : ∀ A ∈ keptOf a L.key, Spec.firstOfBlock a.on a.across (keptOf a L.key) A = true := by
    intro A _
    unfold Spec.firstOfBlock Spec.sameLabels
    rw [List.all_eq_true]
    intro B _
    rw [hac]
    simp only [List.isEmpty_nil, if_true, Bool.or_eq_true, Bool.not_eq_true', beq_eq_false_iff_ne, decide_eq_true_eq]
    by_cases hab : B.1 = A.1
    · exact .inr (by omega)
    · exact .inl hab
  have hnd : ((keptOf a L.key).map (·.1)).Nodup := ((List.filter_sublist (p := Spec.keeps a.cols a.filters) (l := itemsOf a L.key)).map (·.1)).nodup (items_nodup a L.key)
  constructor
  · intro hall p hp q hq hpq hk
    have hqm : q ∈ keptOf a L.key := List.mem_filter.mpr ⟨hq, Spec'.keeps_iff.mpr hk⟩
    have hlt := hall q hqm (hfirst q hqm)
    have := all_below hnd (by
      intro x hx
      obtain ⟨A, hA, rfl⟩ := List.mem_map.mp hx
      rw [List.length_map]
      exact hall A hA (hfirst A hA)) p.1 (by rw [List.length_map]; omega)
    obtain ⟨r, hr, hrp⟩ := List.mem_map.mp this
    obtain ⟨hr1, hr2⟩ := List.mem_filter.mp hr
    rw [items_inj hp hr1 hrp.symm]
    exact Spec'.keeps_iff.mp hr2
  · intro hall A hA _
    obtain ⟨hA1, hA2⟩ := List.mem_filter.mp hA
    have hrange := items_range a L.key
    have hlt : A.1 < (itemsOf a L.key).length := by
      have : A.1 ∈ (itemsOf a L.key).map (·.1) := List.mem_map_of_mem hA1
      rw [hrange] at this
      exact List.mem_range.mp this
    have hsub : List.range (A.1 + 1) ⊆ (keptOf a L.key).map (·.1) := by
      intro i hi
      have hi := List.mem_range.mp hi
      have : i ∈ (itemsOf a L.key).map (·.1) := by rw [hrange]; exact List.mem_range.mpr (by omega)
      obtain ⟨p, hp, rfl⟩ := List.mem_map.mp this
      refine List.mem_map_of_mem (List.mem_filter.mpr ⟨hp, ?_⟩)
      by_cases hpA : p.1 = A.1
      · rw [items_inj hp hA1 hpA]; exact hA2
      · exact Spec'.keeps_iff.mpr (hall p hp A hA1 (by omega) (Spec'.keeps_iff.mp hA2))
    have := (List.subperm_of_subset List.nodup_range hsub).length_le
    rw [List.length_range, List.length_map] at this
    omega

theorem strict_gap {l : List Nat} (hs : l.Pairwise (· < ·)) {i : Nat} : ∀ {k : Nat} (hk : i + k < l.length), l[i] + k ≤ l[i + k]
  | 0, _ => Nat.le_refl _
  | k + 1, hk => by
    have h1 := strict_gap hs (i := i) (k := k) (by omega)
    have h2 := List.pairwise_iff_getElem.mp hs (i + k) (i + (k + 1)) (by omega) hk (by omega)
    omega

/-- in an increasing list of numbers, n is at position n exactly when all the smaller numbers are in the list -/
theorem strict_position {l : List Nat} (hs : l.Pairwise (· < ·)) {n : Nat} (hn : n ∈ l) : l[n]? = some n ↔ ∀ i < n, i ∈ l := by
  constructor
  · intro h i hi
    obtain ⟨hlt, h⟩ := List.getElem?_eq_some_iff.mp h
    have g1 := strict_gap hs (i := i) (k := n - i) (by omega)
    have g2 := strict_gap hs (i := 0) (k := i) (by omega)
    simp only [Nat.zero_add, Nat.add_sub_cancel' (Nat.le_of_lt hi)] at g1 g2
    have : l[i] = i := by omega
    rw [← this]
    exact List.getElem_mem _
  · intro h
    obtain ⟨j, hj, hjn⟩ := List.getElem_of_mem hn
    have g := strict_gap hs (i := 0) (k := j) (by omega)
    simp only [Nat.zero_add] at g
    have hsub : List.range (n + 1) ⊆ l.take (j + 1) := by
      intro i hi
      have hi := List.mem_range.mp hi
      have hm : i ∈ l := by
        by_cases hin : i = n
        · rw [hin]; exact hn
        · exact h i (by omega)
      obtain ⟨m, hm, hmi⟩ := List.getElem_of_mem hm
      have hmj : m ≤ j := by
        by_contra hc
        have := List.pairwise_iff_getElem.mp hs j m hj hm (by omega)
        omega
      rw [List.mem_take_iff_getElem]
      exact ⟨m, by omega, hmi⟩
    have := (List.subperm_of_subset List.nodup_range hsub).length_le
    rw [List.length_range, List.length_take] at this
    have : j = n := by omega
    subst this
    exact List.getElem?_eq_some_iff.mpr ⟨hj, hjn⟩

theorem forall₂_attach {α β : Type} {R : α → β → Prop} {l : List α} {l' : List β} (h : List.Forall₂ R l l') : List.Forall₂ (fun x y => x ∈ l ∧ R x y) l l' := by
  induction h with
  | nil => exact .nil
  | cons h _ ih => exact .cons ⟨by simp, h⟩ (ih.imp (fun _ _ hxy => ⟨List.mem_cons_of_mem _ hxy.1, hxy.2⟩))

/-- C88: the block of an item A that comes first in its block consists of the items with the labels of A, but the labels that the other filters and the
regressors see for it are those of the item at position `A.1` among those that are kept: A itself only if no item before A was removed. -/
theorem C88_labels {e : Env} (he : e.Lawful) {a : Args ρ} (ha : a.OK) {T : Task ρ} (h : init e a = .ok T) {L : Level ρ} (hL : L ∈ T.levels)
    {A B : Spec.Item} (hA : A ∈ keptOf a L.key) (hf : Spec.firstOfBlock a.on a.across (keptOf a L.key) A = true) (hB : (keptOf a L.key)[A.1]? = some B) :
    ∃ key row, key ∈ groupKeys e "stats" (T.on :: T.across) L.frame ∧
      blockRow T L key = .ok (((keptOf a L.key).filter (Spec.sameLabels a.on a.across A)).map (·.1), row) ∧ (∀ c ∈ a.columns, row c = B.2 c) ∧
      (B = A ↔ ∀ p ∈ itemsOf a L.key, p.1 < A.1 → Spec'.ItemKept a p) := by
  obtain ⟨fr0, I⟩ := init_level he ha h hL
  have sim := frame_kept ha h I
  have hsort := frame_sorted ha h I
  obtain ⟨p, hp, sp⟩ := forall₂_mem_right sim A hA
  have hk : ∃ q ∈ L.frame, keyOf (T.on :: T.across) q.2 = keyOf (T.on :: T.across) p.2 := ⟨p, hp, rfl⟩
  obtain ⟨q, hq, hrow⟩ := blockRow_head I.hyp hk
  have hmin := (first_key ha h I hp sp).mpr hf
  have hqp : q = p := by
    have hqm := List.mem_of_mem_head? hq
    obtain ⟨q1, q2⟩ := List.mem_filter.mp hqm
    have hpm : p ∈ aItems T.on T.across L.frame (keyOf (T.on :: T.across) p.2) := List.mem_filter.mpr ⟨hp, beq_iff_eq.mpr rfl⟩
    have hle : q.1 ≤ p.1 := by
      have hpw : (aItems T.on T.across L.frame (keyOf (T.on :: T.across) p.2)).Pairwise (fun p q => p.1 < q.1) := hsort.filter _
      cases hc : aItems T.on T.across L.frame (keyOf (T.on :: T.across) p.2) with
      | nil => rw [hc] at hpm; cases hpm
      | cons r J =>
        rw [hc] at hq hpm hpw
        cases Option.some.inj hq
        rcases List.mem_cons.mp hpm with hr | hpI
        · rw [hr]
        · exact Nat.le_of_lt ((List.pairwise_cons.mp hpw).1 p hpI)
    exact I.hyp.distinctL.inj q1 hp (Nat.le_antisymm hle (hmin q q1 (beq_iff_eq.mp q2)))
  subst hqp
  obtain ⟨hlt, hBe⟩ := List.getElem?_eq_some_iff.mp hB
  have hltF : q.1 < L.frame.length := by rw [sim.length_eq, sp.1]; exact hlt
  have sB : Sim a.columns L.frame[q.1] B := by
    have := List.Forall₂.get sim hltF (by rw [sp.1]; exact hlt)
    simp only [List.get_eq_getElem] at this
    rw [← hBe]
    convert this using 2
    exact sp.1.symm
  rw [List.getElem?_eq_getElem hltF] at hrow
  refine ⟨_, L.frame[q.1].2, (mem_groupKeys he).mpr hk, ?_, fun c hc => sB.2 c hc, ?_⟩
  · rw [hrow]
    refine congrArg (fun l => Except.ok (l, L.frame[q.1].2)) ?_
    refine forall₂_map_eq (forall₂_filter ?_ (forall₂_attach sim)) (fun x y hxy => hxy.2.1)
    rintro x y ⟨hx, sx⟩
    rw [Bool.eq_iff_iff, beq_iff_eq]
    exact sameLabels_key ha h I hp hx sp sx
  · have hks : ((keptOf a L.key).map (·.1)).Pairwise (· < ·) := by
      rw [← forall₂_map_eq (f := fun p : Nat × Row => p.1) (g := fun p : Nat × Row => p.1) sim (fun x y hxy => hxy.1)]
      exact List.pairwise_map.mpr hsort
    have hpos := strict_position hks (List.mem_map_of_mem (f := (·.1)) hA)
    rw [List.getElem?_map, hB] at hpos
    have hBm : B ∈ keptOf a L.key := List.mem_of_getElem? hB
    have e1 : B = A ↔ Option.map (fun x : Spec.Item => x.1) (some B) = some A.1 := by
      constructor
      · intro hBA; rw [hBA]; rfl
      · intro hBA
        exact items_inj (List.mem_filter.mp hBm).1 (List.mem_filter.mp hA).1 (Option.some.inj hBA)
    rw [e1, hpos]
    constructor
    · intro hall p hp hpA
      obtain ⟨r, hr, hrp⟩ := List.mem_map.mp (hall p.1 hpA)
      obtain ⟨r1, r2⟩ := List.mem_filter.mp hr
      rw [items_inj hp r1 hrp.symm]
      exact Spec'.keeps_iff.mp r2
    · intro hall i hi
      have hrange : i ∈ (itemsOf a L.key).map (·.1) := by
        have hAm : A.1 ∈ (itemsOf a L.key).map (·.1) := List.mem_map_of_mem (List.mem_filter.mp hA).1
        have hr : (itemsOf a L.key).map (·.1) = List.range (itemsOf a L.key).length := items_range a L.key
        rw [hr, List.mem_range] at hAm ⊢
        omega
      obtain ⟨p, hp, rfl⟩ := List.mem_map.mp hrange
      exact List.mem_map_of_mem (List.mem_filter.mpr ⟨hp, Spec'.keeps_iff.mpr (hall p hp hi)⟩)

/-- C88: the triplets written for a level are nevertheless those of the specification, if no filter reads the labels of the block. -/
theorem C88_triplets {e : Env} (he : e.Lawful) {a : Args ρ} (ha : a.OK) (hf : ∀ f ∈ a.filters, Spec.readsLabels a.cols f = false) {T : Task ρ}
    (h : init e a = .ok T) {L : Level ρ} (hL : L ∈ T.levels) {N : Num} (hN : ArgsortLaw N.argsort) {src : List Val → List Val → Nat → Src}
    {os : List BlkOut} (ho : levelOut e N 0 src T L = .ok os) :
    (os.flatMap BlkOut.trips).Perm (Spec.triplets a.cols a.on a.across a.filters (itemsOf a L.key)) := by
  obtain ⟨fr0, I⟩ := init_level he ha h hL
  obtain ⟨h1, h2, -, -⟩ := checkDatabase_ok (init_ok h).1
  obtain ⟨S', e1, e2⟩ := levelOut_rows I.hyp I.reg (by rw [I.cols]; exact hf) hN ho
  have sim : List.Forall₂ (Sim3 a.columns) (Spec.itemTriplets T.cols T.on (userAcross T.across) a.filters fr0) (tripsSpec a L.key) := by
    rw [I.cols, I.on, I.across]
    exact itemTriplets_sim h1 h2 ha.inF I.sim
  rw [e1]
  refine (e2.map lab).trans ?_
  rw [show Spec.triplets a.cols a.on a.across a.filters (itemsOf a L.key) = (tripsSpec a L.key).map lab from rfl]
  refine .of_eq (forall₂_map_eq sim ?_)
  rintro t u ⟨⟨a1, _⟩, ⟨b1, _⟩, ⟨x1, _⟩⟩
  simp only [lab, a1, b1, x1]

/-! ### examples -/

/-- a table with the filter sp == 0 -/
def bareEx (rows : List Row) : Args Nat := args0 rows [keepF] []

theorem bareEx_ok {rows : List Row} (h : checkDatabase (bareEx rows) = .ok ()) (hs : (bareEx rows).db.length * (bareEx rows).db.length * (bareEx rows).db.length < 2 ^ 64) :
    (bareEx rows).OK := Args.OK.flat rfl h
  (by intro f hf; simp only [bareEx, args0, List.mem_cons, List.not_mem_nil, or_false] at hf
      subst hf; constructor <;> simp [keepF, bareEx, args0])
  (by intro f hf; cases hf)
  (by intro f hf; simp only [bareEx, args0, List.mem_cons, List.not_mem_nil, or_false] at hf
      subst hf; simp [keepF, bareEx, args0])
  (by intro f hf; cases hf) hs

/-- the item 0 is removed; the number of the last item, first of its block, is the number of items that are left -/
def exIndex : Args Nat := bareEx [mk "z" 1 1, mk "a" 1, mk "b" 1, mk "a" 2]

/-- the item 0 is removed; the numbers of the first items of the blocks are small enough -/
def exShift : Args Nat := bareEx [mk "z" 1 1, mk "a" 1, mk "b" 1, mk "a" 2, mk "a" 1]

theorem exShift_ok : exShift.OK := bareEx_ok (by decide +kernel) (by decide +kernel)

/-- C88, example: both cases occur; the condition on the items agrees -/
example : (∃ T, init E0 exIndex = .ok T) ∧ ((Obj.new E0 exIndex).map (fun _ => ())) = .error .indexError ∧
    (keptOf exIndex [.int 0]).map (fun A => (A.1, Spec.firstOfBlock "on" ["ac"] (keptOf exIndex [.int 0]) A)) = [(1, true), (2, true), (3, true)] ∧
    ((Obj.new E0 exShift).map (fun _ => ())) = .ok () ∧
    (keptOf exShift [.int 0]).map (fun A => (A.1, Spec.firstOfBlock "on" ["ac"] (keptOf exShift [.int 0]) A)) = [(1, true), (2, true), (3, true), (4, false)] := by
  refine ⟨?_, by decide +kernel, by decide +kernel, by decide +kernel, by decide +kernel⟩
  have h : (init E0 exIndex).map (fun _ => ()) = .ok () := by decide +kernel
  cases hi : init E0 exIndex with
  | error er => rw [hi] at h; cases h
  | ok T => exact ⟨T, rfl⟩

example : ∃ T, init E0 exShift = .ok T ∧ ((∃ o, Obj.new E0 exShift = .ok o) ↔
    ∀ L ∈ T.levels, ∀ A ∈ keptOf exShift L.key, Spec.firstOfBlock "on" ["ac"] (keptOf exShift L.key) A = true → A.1 < (keptOf exShift L.key).length) := by
  obtain ⟨T, L, os, h1, h2, h3, h4⟩ := runLevel_ok (show runLevel 0 exShift = .ok [(1, 2, 3), (4, 2, 3)] by decide +kernel)
  exact ⟨T, h1, (C88_created E0_lawful exShift_ok h1).1⟩

/-- C88, example without across column: the table of `exShift` raises IndexError, the one of `exLast` does not -/
example : ((Obj.new E0 { exShift with across := [], cols := ⟨["on"], [], []⟩ }).map (fun _ => ())) = .error .indexError ∧
    ((Obj.new E0 { exLast with across := [], cols := ⟨["on"], [], []⟩ }).map (fun _ => ())) = .ok () := by
  constructor <;> decide +kernel

/-- C88, example: the block of the items 1 and 4, with on = 'a', gets the labels of the item 2 -/
theorem C88_wrong_labels : runBlockRow exShift [.str "a", .int 1] = .ok ([1, 4], .str "b", .int 1) := by decide +kernel

/-- C88, example: the triplets written are those of the specification all the same -/
example : ∃ (T : Task Nat) (L : Level Nat) (os : List BlkOut), init E0 exShift = .ok T ∧ L ∈ T.levels ∧ levelOut E0 N0 0 (fun _ _ _ => src0) T L = .ok os ∧
    os.flatMap BlkOut.trips = [(1, 2, 3), (4, 2, 3)] ∧
    (os.flatMap BlkOut.trips).Perm (Spec.triplets exShift.cols exShift.on exShift.across exShift.filters (itemsOf exShift L.key)) := by
  obtain ⟨T, L, os, h1, h2, h3, h4⟩ := runLevel_ok (show runLevel 0 exShift = .ok [(1, 2, 3), (4, 2, 3)] by decide +kernel)
  refine ⟨T, L, os, h1, h2, h3, h4, C88_triplets E0_lawful exShift_ok ?_ h1 h2 insArgsort_law h3⟩
  intro f hf
  simp only [exShift, bareEx, args0, List.mem_cons, List.not_mem_nil, or_false] at hf
  subst hf
  decide +kernel

#print axioms C88_created
#print axioms C88_none
#print axioms C88_labels
#print axioms C88_triplets
#print axioms C88_wrong_labels

end ABX.Task

#print axioms ABX.Task.C88_created
#print axioms ABX.Task.C88_none
#print axioms ABX.Task.C88_labels
#print axioms ABX.Task.C88_triplets
#print axioms ABX.Task.C88_wrong_labels
