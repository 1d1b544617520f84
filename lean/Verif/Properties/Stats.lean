import Verif.Proofs.StatsText
import Verif.Properties.NbLevels
/-!
Property C80: the statistics of a task (`Task.compute_statistics`) and the summary of them that `Task.print_stats` writes.

The numbers of items, of labels, of pairs (A, B) and of triplets are those of the specification.  The number of pairs (A, X) is too
when there is at most one across column (`C80_on_pairs_partial`); with several the code counts pairs that differ in some of the across
columns only, which no triplet has (`C80_violated`).  With `approximate=True` the number of triplets is never smaller than the exact one
(`C80_upper`) and it is exact unless the flag `approximate_nb_triplets` is set (`C80_flag`).
-/
namespace ABX.Task
open ExtSort SideOps
open Database (Text)
variable {ρ : Type}

/-- C80: the statistics can be computed, and the numbers of items, of 'on' labels, of 'across' labels and of blocks of a level are those of
its items (without across column every item is a block). -/
theorem C80_counts {e : Env} (he : e.Lawful) {a : Args ρ} (ha : a.OK) (hb : Spec'.KeptFirst a) {T : Task ρ} (h : init e a = .ok T)
    {L : Level ρ} (hL : L ∈ T.levels) (approximate : Bool) : ∃ s, statsOf approximate e T L = .ok s ∧
      s.nbItems = (keptOf a L.key).length ∧ s.nbOnLevels = Spec.nbLabels [a.on] (keptOf a L.key) ∧
      s.nbAcrossLevels = (if a.across = [] then (keptOf a L.key).length else Spec.nbLabels a.across (keptOf a L.key)) ∧
      s.nbOnAcrossLevels = (if a.across = [] then (keptOf a L.key).length else Spec.nbLabels (a.on :: a.across) (keptOf a L.key)) := by
  obtain ⟨s, hs, S⟩ := statsOf_main he ha hb h hL approximate
  exact ⟨s, hs, S.items, S.on, S.across, S.onAcross⟩

/-- C80: the number of across pairs is the number of ordered pairs (A, B) where B has another 'on' label and the 'across' labels of A, and A
is accepted by the filters it decides. -/
theorem C80_across_pairs {e : Env} (he : e.Lawful) {a : Args ρ} (ha : a.OK) (hb : Spec'.KeptFirst a) {T : Task ρ} (h : init e a = .ok T)
    {L : Level ρ} (hL : L ∈ T.levels) {approximate : Bool} {s : LevelStats} (hs : statsOf approximate e T L = .ok s) :
    s.nbAcrossPairs = ((Spec.pairsAB a.cols a.on a.across a.filters (keptOf a L.key)).length : Nat) := by
  obtain ⟨s', hs', S⟩ := statsOf_main he ha hb h hL approximate
  rw [Except.ok.inj (hs.symm.trans hs')]
  exact S.acrossPairs

/-- C80: the number of on pairs is the number of ordered pairs of items with the same 'on' label that differ in some across column. -/
theorem C80_on_pairs_some {e : Env} (he : e.Lawful) {a : Args ρ} (ha : a.OK) (hb : Spec'.KeptFirst a) {T : Task ρ} (h : init e a = .ok T)
    {L : Level ρ} (hL : L ∈ T.levels) {approximate : Bool} {s : LevelStats} (hs : statsOf approximate e T L = .ok s) :
    s.nbOnPairs = ((Spec.pairsSomeAX a.cols a.on a.across a.filters (keptOf a L.key)).length : Nat) := by
  obtain ⟨s', hs', S⟩ := statsOf_main he ha hb h hL approximate
  rw [Except.ok.inj (hs.symm.trans hs')]
  exact S.onPairs

theorem pairsSome_eq {c : Cols} {on : String} {across : List String} (h1 : across.length ≤ 1) (fs : List (DBFun Bool)) (its : List Spec.Item) :
    Spec.pairsSomeAX c on across fs its = Spec.pairsAX c on across fs its := by
  unfold Spec.pairsSomeAX Spec.pairsAX
  match across, h1 with
  | [], _ => rfl
  | [_], _ => simp
  | _ :: _ :: _, h1 => simp at h1

/-- C80: with at most one across column the number of on pairs is the number of ordered pairs (A, X) where X has the 'on' label of A and
another 'across' label.  Missing: several across columns, where it is not (`C80_violated`). -/
theorem C80_on_pairs_partial {e : Env} (he : e.Lawful) {a : Args ρ} (ha : a.OK) (hb : Spec'.KeptFirst a) {T : Task ρ} (h : init e a = .ok T)
    (h1 : a.across.length ≤ 1) {L : Level ρ} (hL : L ∈ T.levels) {approximate : Bool} {s : LevelStats} (hs : statsOf approximate e T L = .ok s) :
    s.nbOnPairs = ((Spec.pairsAX a.cols a.on a.across a.filters (keptOf a L.key)).length : Nat) := by
  rw [C80_on_pairs_some he ha hb h hL hs, pairsSome_eq h1]

/-- the filters accept the item A of a triplet -/
theorem admits_of_holds {a : Args ρ} (ha : a.OK) {key : List Val} {A B X : Spec.Item} (mA : A ∈ itemsOf a key) (mB : B ∈ itemsOf a key) (mX : X ∈ itemsOf a key)
    (hax : A.2 a.on = X.2 a.on) (h : a.filters.all (fun f => Spec.holds a.cols f A.2 B.2 X.2) = true) : Spec.admits a.cols a.filters A = true := by
  have db : ∀ {p : Spec.Item}, p ∈ itemsOf a key → ∃ q ∈ a.db, q.2 = p.2 ∧ keyOf a.by_ p.2 = specKey a key := by
    intro p hp
    unfold itemsOf Spec.items at hp
    obtain ⟨q, hq, rfl⟩ := List.mem_map.mp hp
    obtain ⟨i, hi⟩ := List.getElem?_of_mem hq
    rw [List.getElem?_zipIdx, Option.map_eq_some_iff] at hi
    obtain ⟨r, hr, rfl⟩ := hi
    obtain ⟨h1, h2⟩ := List.mem_filter.mp (List.mem_of_getElem? hr)
    obtain ⟨q, hq, hqr⟩ := List.mem_map.mp h1
    exact ⟨q, hq, hqr, by simpa [keyOf] using h2⟩
  obtain ⟨qa, ha1, ha2, ha3⟩ := db mA
  obtain ⟨qb, hb1, hb2, hb3⟩ := db mB
  obtain ⟨qx, hx1, hx2, hx3⟩ := db mX
  have byB : ∀ r ∈ a.cols.by_, B.2 r = A.2 r := by rw [← ha2, ← hb2]; exact ha.detBy _ hb1 _ ha1 (by rw [ha2, hb2, ha3, hb3])
  have byX : ∀ r ∈ a.cols.by_, X.2 r = A.2 r := by rw [← ha2, ← hx2]; exact ha.detBy _ hx1 _ ha1 (by rw [ha2, hx2, ha3, hx3])
  have onX : ∀ r ∈ a.cols.on, X.2 r = A.2 r := by rw [← ha2, ← hx2]; exact ha.detOn _ hx1 _ ha1 (by rw [ha2, hx2, hax])
  unfold Spec.admits
  rw [List.all_eq_true] at h ⊢
  intro f hf
  have h := h f hf
  rw [Bool.or_eq_true]
  by_cases hd : Spec.decidedByA a.cols f = true
  · right
    unfold Spec.holds at h
    split at h
    · simp only [Bool.and_eq_true] at h; exact h.1.1
    · rw [← h]
      apply f.ext
      rintro ⟨r, y⟩ hv
      have hv' := List.all_eq_true.mp hd _ hv
      cases y <;> simp only [Spec.sem]
      all_goals simp at hv'
      · exact (byB r hv').symm
      · rcases hv' with h | h
        · exact (byX r h).symm
        · exact (onX r h).symm
      · split
        · exact (byB r hv').symm
        · exact (byX r hv').symm
  · left; simpa using hd

theorem trip_mem {a : Args ρ} {key : List Val} {t : Tri} (ht : t ∈ tripsSpec a key) : (t.1 ∈ itemsOf a key ∧ t.2.1 ∈ itemsOf a key ∧ t.2.2 ∈ itemsOf a key) ∧
    Spec.legal a.on a.across t.1 t.2.1 t.2.2 = true ∧ a.filters.all (fun f => Spec.holds a.cols f t.1.2 t.2.1.2 t.2.2.2) = true := by
  obtain ⟨hm, ht⟩ := List.mem_filter.mp ht
  simp only [Bool.and_eq_true] at ht
  exact ⟨mem_prod3.mp (show t ∈ prod3 _ _ _ from hm), ht⟩

/-- C80: the pairs counted are those of the triplets: A and B, and A and X, of every triplet are among them. -/
theorem C80_pairs {a : Args ρ} (ha : a.OK) {key : List Val} {t : Tri} (ht : t ∈ tripsSpec a key) :
    (t.1, t.2.1) ∈ Spec.pairsAB a.cols a.on a.across a.filters (keptOf a key) ∧ (t.1, t.2.2) ∈ Spec.pairsAX a.cols a.on a.across a.filters (keptOf a key) := by
  obtain ⟨A, B, X⟩ := t
  obtain ⟨⟨mA, mB, mX⟩, hl, hf⟩ := trip_mem ht
  simp only [Bool.and_eq_true, Spec.legal, beq_iff_eq, bne_iff_ne] at hl
  obtain ⟨⟨⟨h1, h2⟩, h3⟩, h4⟩ := hl
  have hadm := admits_of_holds ha mA mB mX h1 hf
  obtain ⟨kA, kB, kX⟩ := kept_of_holds hf
  have mp : ∀ y ∈ keptOf a key, (A, y) ∈ Spec.itemPairs (keptOf a key) := fun y hy =>
    List.mem_flatMap.mpr ⟨A, List.mem_filter.mpr ⟨mA, Spec'.keeps_iff.mpr kA⟩, List.mem_map.mpr ⟨y, hy, rfl⟩⟩
  have mB := List.mem_filter.mpr ⟨mB, Spec'.keeps_iff.mpr kB⟩
  have mX := List.mem_filter.mpr ⟨mX, Spec'.keeps_iff.mpr kX⟩
  refine ⟨List.mem_filter.mpr ⟨mp B mB, ?_⟩, List.mem_filter.mpr ⟨mp X mX, ?_⟩⟩
  · simp only [hadm, Bool.true_and, Bool.and_eq_true, bne_iff_ne]
    exact ⟨h2, h3⟩
  · simp only [hadm, Bool.true_and, Bool.and_eq_true, beq_iff_eq]
    exact ⟨h1.symm, h4⟩

/-- C80: without approximation, and with several across columns in any case, the number of triplets of a level is that of the legal triples
on which the filters hold. -/
theorem C80_exact {e : Env} (he : e.Lawful) {a : Args ρ} (ha : a.OK) (hb : Spec'.KeptFirst a) {T : Task ρ} (h : init e a = .ok T)
    {L : Level ρ} (hL : L ∈ T.levels) {approximate : Bool} (happ : approximate = false ∨ 1 < a.across.length) {s : LevelStats} (hs : statsOf approximate e T L = .ok s) :
    s.nbTriplets = ((tripsSpec a L.key).length : Nat) := by
  obtain ⟨s', hs', S⟩ := statsOf_main he ha hb h hL approximate
  rw [Except.ok.inj (hs.symm.trans hs')]
  exact S.exact happ

/-- C80: with approximation and at most one across column, the number of triplets is that of the legal triples whose A is accepted by the
filters it decides; the other filters are ignored. -/
theorem C80_approximate {e : Env} (he : e.Lawful) {a : Args ρ} (ha : a.OK) (hb : Spec'.KeptFirst a) {T : Task ρ} (h : init e a = .ok T)
    {L : Level ρ} (hL : L ∈ T.levels) (h1 : a.across.length ≤ 1) {s : LevelStats} (hs : statsOf true e T L = .ok s) :
    s.nbTriplets = ((Spec.admittedTriplets a.cols a.on a.across a.filters (keptOf a L.key)).length : Nat) := by
  obtain ⟨s', hs', S⟩ := statsOf_main he ha hb h hL true
  rw [Except.ok.inj (hs.symm.trans hs')]
  exact S.approx rfl h1

/-- C80: the approximate number of triplets is never smaller than the number of triplets. -/
theorem C80_upper {e : Env} (he : e.Lawful) {a : Args ρ} (ha : a.OK) (hb : Spec'.KeptFirst a) {T : Task ρ} (h : init e a = .ok T)
    {L : Level ρ} (hL : L ∈ T.levels) {s : LevelStats} (hs : statsOf true e T L = .ok s) : ((tripsSpec a L.key).length : Int) ≤ s.nbTriplets := by
  by_cases h1 : a.across.length ≤ 1
  · rw [C80_approximate he ha hb h hL h1 hs]
    refine Int.ofNat_le.mpr (List.Subperm.length_le (List.subperm_of_subset (tripsSpec_nodup a L.key) ?_))
    rintro ⟨A, B, X⟩ ht
    obtain ⟨⟨mA, mB, mX⟩, hl, hf⟩ := trip_mem ht
    obtain ⟨kA, kB, kX⟩ := kept_of_holds hf
    refine List.mem_filter.mpr ⟨show _ ∈ prod3 _ _ _ from mem_prod3.mpr ⟨List.mem_filter.mpr ⟨mA, Spec'.keeps_iff.mpr kA⟩,
      List.mem_filter.mpr ⟨mB, Spec'.keeps_iff.mpr kB⟩, List.mem_filter.mpr ⟨mX, Spec'.keeps_iff.mpr kX⟩⟩, ?_⟩
    rw [Bool.and_eq_true]
    refine ⟨admits_of_holds ha mA mB mX ?_ hf, hl⟩
    simp only [Spec.legal, Bool.and_eq_true, beq_iff_eq] at hl
    exact hl.1.1.1
  · exact (C80_exact he ha hb h hL (.inr (by omega)) hs).symm.le

theorem blockStatsWith_noFilters (approximate : Bool) {e : Env} {T : Task ρ} {L : Level ρ} (key : List Val)
    (hf : ((T.filters.ops .A).isEmpty && (T.filters.ops .B).isEmpty && (T.filters.ops .X).isEmpty && (T.filters.ops .ABX).isEmpty) = true) :
    blockStatsWith approximate e T L key = blockStatsWith false e T L key := by
  unfold blockStatsWith
  simp only [hf, Bool.or_true]

theorem computeStatistics_inv {approximate : Bool} {e : Env} {T : Task ρ} {g : TaskStats} {ls : List (List Val × LevelStats)} (hc : computeStatistics approximate e T = .ok (g, ls)) :
    List.Forall₂ (fun L p => p.1 = L.key ∧ statsOf approximate e T L = .ok p.2) T.levels ls ∧ g = (⟨!((T.filters.ops .A).isEmpty && (T.filters.ops .B).isEmpty && (T.filters.ops .X).isEmpty && (T.filters.ops .ABX).isEmpty),
      approximate && !((T.filters.ops .A).isEmpty && (T.filters.ops .B).isEmpty && (T.filters.ops .X).isEmpty && (T.filters.ops .ABX).isEmpty), T.levels.length,
      (ls.map (fun p => p.2.nbOnAcrossLevels)).sum, (ls.map (fun p => p.2.nbTriplets)).sum, none⟩ : TaskStats) := by
  unfold computeStatistics at hc
  split at hc
  · cases hc
  rename_i ls' hls
  have hc := Except.ok.inj hc
  have e2 : ls' = ls := congrArg Prod.snd hc
  subst e2
  refine ⟨(sequence_inv hls).imp ?_, (congrArg Prod.fst hc).symm⟩
  intro L p hp
  cases hst : statsOf approximate e T L with
  | error er => rw [hst] at hp; cases hp
  | ok s => rw [hst] at hp; rw [← Except.ok.inj hp]; exact ⟨rfl, rfl⟩

theorem forall₂_sum {α β : Type} {R : α → β → Prop} {f : α → Nat} {g : β → Int} (hR : ∀ x y, R x y → g y = f x) {l : List α} {m : List β} (h : List.Forall₂ R l m) :
    (m.map g).sum = (((l.map f).sum : Nat) : Int) := by
  induction h with
  | nil => rfl
  | cons h _ ih => rw [List.map_cons, List.sum_cons, List.map_cons, List.sum_cons, hR _ _ h, ih]; push_cast; rfl

theorem forall₂_le {α β : Type} {R : α → β → Prop} {f : α → Nat} {g : β → Int} (hR : ∀ x y, R x y → (f x : Int) ≤ g y) {l : List α} {m : List β} (h : List.Forall₂ R l m) :
    (((l.map f).sum : Nat) : Int) ≤ (m.map g).sum := by
  induction h with
  | nil => exact Int.le_refl _
  | cons h _ ih => rw [List.map_cons, List.sum_cons, List.map_cons, List.sum_cons]; push_cast; exact Int.add_le_add (hR _ _ h) ih

theorem level_flag {e : Env} (he : e.Lawful) {a : Args ρ} (ha : a.OK) (hb : Spec'.KeptFirst a) {T : Task ρ} (h : init e a = .ok T)
    {L : Level ρ} (hL : L ∈ T.levels) {approximate : Bool}
    (hfl : (approximate && !((T.filters.ops .A).isEmpty && (T.filters.ops .B).isEmpty && (T.filters.ops .X).isEmpty && (T.filters.ops .ABX).isEmpty)) = false)
    {s : LevelStats} (hs : statsOf approximate e T L = .ok s) : s.nbTriplets = ((tripsSpec a L.key).length : Nat) := by
  rcases Bool.and_eq_false_iff.mp hfl with hfl | hfl
  · exact C80_exact he ha hb h hL (.inl hfl) hs
  · refine C80_exact he ha hb h hL (approximate := false) (.inl rfl) ?_
    rw [← hs]
    unfold statsOf
    rw [show blockStatsWith approximate e T L = blockStatsWith false e T L from
      funext (fun key => blockStatsWith_noFilters approximate key (by simpa using hfl))]

/-- C80: the statistics of the task can be computed; the number of levels is that of the task, the number of blocks and of triplets are the sums over the
levels; the number of triplets is exact when the flag `approximate_nb_triplets` is false, and never too small. -/
theorem C80_flag {e : Env} (he : e.Lawful) {a : Args ρ} (ha : a.OK) (hb : Spec'.KeptFirst a) {T : Task ρ} (h : init e a = .ok T) (approximate : Bool) :
    ∃ g ls, computeStatistics approximate e T = .ok (g, ls) ∧ g.nbByLevels = T.levels.length ∧
      g.nbBlocks = (T.levels.map (fun L => if a.across = [] then (keptOf a L.key).length else Spec.nbLabels (a.on :: a.across) (keptOf a L.key))).sum ∧
      (g.approximateNbTriplets = false → g.nbTriplets = (((T.levels.map (fun L => (tripsSpec a L.key).length)).sum : Nat) : Int)) ∧
      (((T.levels.map (fun L => (tripsSpec a L.key).length)).sum : Nat) : Int) ≤ g.nbTriplets := by
  have hok : ∃ g ls, computeStatistics approximate e T = .ok (g, ls) := by
    obtain ⟨ys, hys, _⟩ := sequence_exists (f := fun L => (statsOf approximate e T L).map (fun s => (L.key, s))) (l := T.levels) (Q := fun _ _ => True) (by
      intro L hL
      obtain ⟨s, hs, _⟩ := statsOf_main he ha hb h hL approximate
      exact ⟨(L.key, s), by rw [hs]; rfl, trivial⟩)
    unfold computeStatistics
    rw [hys]
    exact ⟨_, _, rfl⟩
  obtain ⟨g, ls, hc⟩ := hok
  obtain ⟨hF, hg⟩ := computeStatistics_inv hc
  have hF' : List.Forall₂ (fun L p => L ∈ T.levels ∧ p.1 = L.key ∧ statsOf approximate e T L = .ok p.2) T.levels ls := by
    have : ∀ {l : List (Level ρ)} {m : List (List Val × LevelStats)}, (∀ L ∈ l, L ∈ T.levels) → List.Forall₂ (fun L p => p.1 = L.key ∧ statsOf approximate e T L = .ok p.2) l m →
        List.Forall₂ (fun L p => L ∈ T.levels ∧ p.1 = L.key ∧ statsOf approximate e T L = .ok p.2) l m := by
      intro l m hm hl
      induction hl with
      | nil => exact .nil
      | cons h _ ih => exact .cons ⟨hm _ (by simp), h⟩ (ih (fun L hL => hm L (by simp [hL])))
    exact this (fun _ h => h) hF
  have g1 : g.nbByLevels = T.levels.length := by rw [hg]
  have g2 : g.nbBlocks = (ls.map (fun p => p.2.nbOnAcrossLevels)).sum := by rw [hg]
  have g3 : g.nbTriplets = (ls.map (fun p => p.2.nbTriplets)).sum := by rw [hg]
  have g4 : g.approximateNbTriplets = (approximate && !((T.filters.ops .A).isEmpty && (T.filters.ops .B).isEmpty && (T.filters.ops .X).isEmpty && (T.filters.ops .ABX).isEmpty)) := by rw [hg]
  clear hg
  refine ⟨g, ls, hc, g1, ?_, ?_, ?_⟩
  · rw [g2]
    refine congrArg List.sum (forall₂_map_eq hF' ?_).symm
    rintro L p ⟨hL, _, hs⟩
    obtain ⟨s, hs', _, _, _, h4⟩ := C80_counts he ha hb h hL approximate
    rw [Except.ok.inj (hs.symm.trans hs'), h4]
  · intro hfl
    rw [g4] at hfl
    rw [g3]
    exact forall₂_sum (f := fun L : Level ρ => (tripsSpec a L.key).length) (g := fun p : List Val × LevelStats => p.2.nbTriplets)
      (fun L p hp => level_flag he ha hb h hp.1 hfl hp.2.2) hF'
  · rw [g3]
    refine forall₂_le (f := fun L : Level ρ => (tripsSpec a L.key).length) (g := fun p : List Val × LevelStats => p.2.nbTriplets) ?_ hF'
    rintro L p ⟨hL, _, hs⟩
    cases approximate with
    | false => exact (level_flag he ha hb h hL rfl hs).symm.le
    | true => exact C80_upper he ha hb h hL hs

/-! ### the text -/

theorem decided_stage {c : Cols} {fs : List (DBFun Bool)} {m : Mgr Bool} (hm : mgr true c fs = .ok m) {q : Placed Bool} (hq : q ∈ m) :
    Spec.decidedByA c q.op = true ↔ q.stage = .by ∨ q.stage = .onAcrossBy := by
  have P := mgr_ok hm q hq
  constructor
  · intro hall
    by_contra hn
    rw [not_or] at hn
    rw [Spec.decidedByA, List.all_eq_true] at hall
    by_cases hg : q.stage = .generic
    · obtain ⟨v, hv, hvb⟩ := P.hne hn.1
      have hn := (P.genV v (P.hgen hg v hv hvb)).2
      have := hall v hv
      simp [hn, hvb] at this
    · obtain ⟨v, hv, hvb, hc⟩ := P.hne2 hn.1 hg hn.2
      have := hall v hv
      simp only [condition, Bool.and_eq_true, Bool.not_eq_true'] at hc
      simp [hvb] at this
      obtain ⟨r, x⟩ := v
      cases x <;> simp_all
  · intro hs
    rw [Spec.decidedByA, List.all_eq_true]
    intro v hv
    by_cases hb : v.1 ∈ c.by_
    · simp [hb]
    rcases hs with hs | hs
    · exact absurd (P.hby' hs v hv) hb
    · have hc := P.hoab hs v hv hb
      obtain ⟨r, x⟩ := v
      cases x <;> simp_all [condition]

/-- no filter is applied to A, B, X or triplets exactly when all are decided by A or select items -/
theorem noFilters_iff {c : Cols} {fs : List (DBFun Bool)} {m : Mgr Bool} (hm : mgr true c fs = .ok m) :
    ((m.ops .A).isEmpty && (m.ops .B).isEmpty && (m.ops .X).isEmpty && (m.ops .ABX).isEmpty) = fs.all (Spec.decidedEarly c) := by
  have hfs : fs = m.map Placed.op := (mgr_ops hm).symm
  rw [Bool.eq_iff_iff]
  simp only [Bool.and_eq_true, List.isEmpty_iff, List.all_eq_true]
  constructor
  · rintro ⟨⟨⟨h1, h2⟩, h3⟩, h4⟩ f hf
    rw [hfs] at hf
    obtain ⟨q, hq, rfl⟩ := List.mem_map.mp hf
    rw [Spec.decidedEarly, Bool.or_eq_true, decided_stage hm hq, ← stage_generic hm hq]
    have no : ∀ s, m.ops s = [] → q.stage ≠ s := by
      intro s hs hqs
      have : q.op ∈ m.ops s := mem_ops.mpr ⟨q, hq, hqs, rfl⟩
      rw [hs] at this; cases this
    cases hs : q.stage with
    | «by» => simp
    | onAcrossBy => simp
    | generic => simp
    | A => exact absurd hs (no _ h1)
    | B => exact absurd hs (no _ h2)
    | X => exact absurd hs (no _ h3)
    | ABX => exact absurd hs (no _ h4)
  · intro hall
    have no : ∀ s, s ≠ .by → s ≠ .onAcrossBy → s ≠ .generic → m.ops s = [] := by
      intro s h1 h2 h3
      rw [List.eq_nil_iff_forall_not_mem]
      intro f hf
      obtain ⟨q, hq, hqs, rfl⟩ := mem_ops.mp hf
      have := hall _ (by rw [hfs]; exact List.mem_map_of_mem hq)
      rw [Spec.decidedEarly, Bool.or_eq_true, decided_stage hm hq, ← stage_generic hm hq, hqs] at this
      rcases this with (h | h) | h
      · exact h1 h
      · exact h2 h
      · exact h3 h
    exact ⟨⟨⟨no _ (by decide) (by decide) (by decide), no _ (by decide) (by decide) (by decide)⟩, no _ (by decide) (by decide) (by decide)⟩, no _ (by decide) (by decide) (by decide)⟩

/-- the numbers of a level that the summary holds; with several across columns the pairs (A, X) that differ in some across column are counted -/
def statFields (a : Args ρ) (key : List Val) : List (Text × Int) :=
  [("nb_triplets".toList, ((tripsSpec a key).length : Int))] ++
  (if a.filters.all (Spec.decidedEarly a.cols) then [("nb_levels".toList, (nbSpec a key : Int))] else []) ++
  [("nb_across_pairs".toList, ((Spec.pairsAB a.cols a.on a.across a.filters (keptOf a key)).length : Int)),
   ("nb_on_pairs".toList, ((if a.across.length ≤ 1 then Spec.pairsAX a.cols a.on a.across a.filters (keptOf a key)
      else Spec.pairsSomeAX a.cols a.on a.across a.filters (keptOf a key)).length : Int)),
   ("nb_on_levels".toList, (Spec.nbLabels [a.on] (keptOf a key) : Int)),
   ("nb_across_levels".toList, ((if a.across = [] then (keptOf a key).length else Spec.nbLabels a.across (keptOf a key) : Nat) : Int)),
   ("nb_on_across_levels".toList, ((if a.across = [] then (keptOf a key).length else Spec.nbLabels (a.on :: a.across) (keptOf a key) : Nat) : Int))]

theorem nbLevelsTry_ok {e : Env} (he : e.Lawful) {a : Args ρ} (ha : a.OK) (hb : Spec'.KeptFirst a) {T : Task ρ} (h : init e a = .ok T) :
    nbLevelsTry e T = .ok (T.levels.map (fun L => if a.filters.all (Spec.decidedEarly a.cols) then
      some (nbSpec a L.key) else none)) := by
  unfold nbLevelsTry
  have hmgr := (init_ok h).2.2.2.2.1
  rw [noFilters_iff hmgr]
  by_cases hd : a.filters.all (Spec.decidedEarly a.cols) = true
  · rw [if_pos hd]
    have hf := noFilters_iff hmgr
    rw [hd] at hf
    simp only [Bool.and_eq_true, List.isEmpty_iff] at hf
    rw [sequence_map_ok (fun L hL => nbLevel_all he ha hb h ⟨hf.1.1.1, hf.1.1.2, hf.1.2, hf.2⟩ hL)]
    simp only [List.map_map, hd, if_true]
    rfl
  · rw [if_neg hd]
    simp only [hd, Bool.false_eq_true, if_false]

/-- C80: the statistics can be computed and summarized; after the global statistics the text holds, for every
level in order, a line with its name and the lines of its numbers, which are those of the specification, except with several across columns
`nb_on_pairs` and `nb_levels`, which count the X that differ from A in some across column (`statFields`); `nb_levels` is there exactly when all
the filters are decided by A or select items.  When the names of the levels hold no end of line, that is the only way to read the text. -/
theorem C80_text {e : Env} (he : e.Lawful) {a : Args ρ} (ha : a.OK) (hb : Spec'.KeptFirst a) {T : Task ρ} (h : init e a = .ok T)
    (pp : TaskStats → Text) : ∃ S t body, computeStatistics false e T = .ok S ∧ printStats pp e T S = .ok t ∧
      t = "\n\n###### Global stats ######\n\n".toList ++ pp S.1 ++ "\n\n###### by blocks stats ######\n\n".toList ++ body ∧
      Spec.StatLevels (T.levels.map (fun L => (Names.keyName L.key, statFields a L.key))) body ∧
      ((∀ L ∈ T.levels, '\n' ∉ Names.keyName L.key) → ∀ ls, Spec.ReadableStats ls → Spec.StatLevels ls body →
        ls = T.levels.map (fun L => (Names.keyName L.key, statFields a L.key))) := by
  obtain ⟨g, ls, hc, _⟩ := C80_flag he ha hb h false
  obtain ⟨hF, _⟩ := computeStatistics_inv hc
  have hn := nbLevelsTry_ok he ha hb h
  have hread : Spec.StatLevels (T.levels.map (fun L => (Names.keyName L.key, statFields a L.key)))
      ((ls.zip (T.levels.map (fun L => if a.filters.all (Spec.decidedEarly a.cols) then
      some (nbSpec a L.key) else none))).flatMap
        (fun p => levelText p.1.1 p.1.2 p.2)) := by
    have := levelText_levels (ls.zip (T.levels.map (fun L => if a.filters.all (Spec.decidedEarly a.cols) then
      some (nbSpec a L.key) else none)))
    convert this using 1
    clear this
    have step : ∀ {lv : List (Level ρ)} {ls : List (List Val × LevelStats)}, (∀ L ∈ lv, L ∈ T.levels) →
        List.Forall₂ (fun L p => p.1 = L.key ∧ statsOf false e T L = .ok p.2) lv ls →
        lv.map (fun L => (Names.keyName L.key, statFields a L.key)) = (ls.zip (lv.map (fun L => if a.filters.all (Spec.decidedEarly a.cols) then
      some (nbSpec a L.key) else none))).map
          (fun p => (Names.keyName p.1.1, [("nb_triplets".toList, p.1.2.nbTriplets)] ++
      (match p.2 with | some n => [("nb_levels".toList, (n : Int))] | none => []) ++
      [("nb_across_pairs".toList, p.1.2.nbAcrossPairs), ("nb_on_pairs".toList, p.1.2.nbOnPairs), ("nb_on_levels".toList, (p.1.2.nbOnLevels : Int)),
        ("nb_across_levels".toList, (p.1.2.nbAcrossLevels : Int)), ("nb_on_across_levels".toList, (p.1.2.nbOnAcrossLevels : Int))])) := by
      intro lv ls hm hF
      induction hF with
      | nil => rfl
      | @cons L p lv ls hp _ ih =>
        rw [List.map_cons, List.map_cons, List.zip_cons_cons, List.map_cons, ih (fun L hL => hm L (by simp [hL]))]
        congr 1
        have hL := hm L (by simp)
        obtain ⟨s', hs', S⟩ := statsOf_main he ha hb h hL false
        obtain ⟨k, s⟩ := p
        obtain ⟨hk, hs⟩ := hp
        simp only at hk hs
        have e1 := Except.ok.inj (hs.symm.trans hs')
        subst e1
        subst hk
        have e2 : s.nbOnPairs = (((if a.across.length ≤ 1 then Spec.pairsAX a.cols a.on a.across a.filters (keptOf a L.key)
            else Spec.pairsSomeAX a.cols a.on a.across a.filters (keptOf a L.key)).length : Nat) : Int) := by
          split
          · rename_i h1; exact C80_on_pairs_partial he ha hb h h1 hL hs
          · exact C80_on_pairs_some he ha hb h hL hs
        simp only [S.exact (.inl rfl), S.acrossPairs, e2, S.on, S.across, S.onAcross, statFields]
        split <;> rfl
    exact step (fun _ h => h) hF
  refine ⟨(g, ls), _, _, hc, by unfold printStats; rw [hn], rfl, hread, ?_⟩
  intro hnl ls' hr hl
  refine levels_unique hl hread hr ?_
  intro l hl
  obtain ⟨L, hL, rfl⟩ := List.mem_map.mp hl
  refine ⟨hnl L hL, ?_⟩
  intro f hf
  simp only [statFields] at hf
  split at hf <;> simp only [List.cons_append, List.nil_append, List.mem_cons, List.not_mem_nil, or_false] at hf
  · rcases hf with rfl | rfl | rfl | rfl | rfl | rfl | rfl <;> (refine ⟨?_, ?_⟩ <;> dsimp only <;> decide)
  · rcases hf with rfl | rfl | rfl | rfl | rfl | rfl <;> (refine ⟨?_, ?_⟩ <;> dsimp only <;> decide)

/-- the statistics of all the levels -/
def runStats (approximate : Bool) (a : Args Nat) : Except Err (List LevelStats) := match init E0 a with
  | .error e => .error e
  | .ok T => sequence (T.levels.map (statsOf approximate E0 T))

theorem runStats_ok {approximate : Bool} {a : Args Nat} {ss} (h : runStats approximate a = .ok ss) : ∃ T, init E0 a = .ok T ∧
    sequence (T.levels.map (statsOf approximate E0 T)) = .ok ss := by
  unfold runStats at h
  split at h
  · cases h
  · rename_i T hT; exact ⟨T, hT, h⟩

theorem runStats_one {approximate : Bool} {a : Args Nat} {s} (h : runStats approximate a = .ok [s]) : ∃ T L, init E0 a = .ok T ∧ L ∈ T.levels ∧
    statsOf approximate E0 T L = .ok s := by
  obtain ⟨T, hT, hs⟩ := runStats_ok h
  have hF := sequence_inv hs
  obtain ⟨L, hL, h⟩ := forall₂_mem_right hF (y := s) (by simp)
  exact ⟨T, L, hT, hL, h⟩

/-- C80 is false of the on pairs with two across columns: the pair of items differs in one of them only and no triplet contains it, but it is
counted (twice, once in each order). -/
theorem C80_violated : ¬ ∀ (e : Env) (a : Args Nat) (T : Task Nat) (L : Level Nat) (s : LevelStats), e.Lawful → a.OK → a.filters = [] → init e a = .ok T → L ∈ T.levels →
    statsOf false e T L = .ok s → s.nbOnPairs = ((Spec.pairsAX a.cols a.on a.across a.filters (keptOf a L.key)).length : Nat) := by
  intro hall
  have h : runStats false exAcross = .ok [⟨3, 2, 2, 3, 0, 2, 2⟩] := by decide +kernel
  obtain ⟨T, L, hT, hL, hs⟩ := runStats_one h
  have := hall E0 exAcross T L _ E0_lawful exAcross_ok rfl hT hL hs
  have hk : L.key = [.int 0] := by
    have hk : (match init E0 exAcross with
      | .error _ => false
      | .ok T => T.levels.all (fun L => L.key == [.int 0])) = true := by decide +kernel
    rw [hT] at hk
    exact eq_of_beq (List.all_eq_true.mp hk L hL)
  rw [hk] at this
  revert this
  decide +kernel

/-- two items 'a' and one 'b' with the first across label, one 'a' with another; the filter accepts the item A if its third column is 0 -/
def spZeroA : DBFun Bool := ⟨[("sp", .A)], fun e => e ("sp", .A) == .int 0, by intro e e' h; rw [h _ (by simp)]⟩

def exStats : Args Nat := args0 [mk "a" 1, mk "a" 1 1, mk "b" 1, mk "a" 2] [spZeroA] []

theorem exStats_ok : exStats.OK := Args.OK.flat rfl (by decide +kernel)
  (by intro f hf; simp only [exStats, args0, List.mem_cons, List.not_mem_nil, or_false] at hf
      subst hf; constructor <;> simp [spZeroA, exStats, args0])
  (by intro f hf; cases hf)
  (by intro f hf; simp only [exStats, args0, List.mem_cons, List.not_mem_nil, or_false] at hf
      subst hf; simp [spZeroA, exStats, args0])
  (by intro f hf; cases hf) (by decide +kernel)

/-- one triplet; the approximate number is 2, the filter being ignored -/
example : runStats false exStats = .ok [⟨4, 2, 2, 3, 1, 4, 4⟩] ∧ runStats true exStats = .ok [⟨4, 2, 2, 3, 2, 4, 4⟩] ∧
    (tripsSpec exStats [.int 0]).length = 1 ∧ (∀ f ∈ exStats.filters, Spec.bare exStats.cols f = false) := by decide +kernel

/-- the hypotheses of `C80_exact`, `C80_approximate` and `C80_upper` are met -/
example : ∃ T L s s', init E0 exStats = .ok T ∧ L ∈ T.levels ∧ statsOf false E0 T L = .ok s ∧ statsOf true E0 T L = .ok s' ∧ s.nbTriplets ≤ s'.nbTriplets := by
  obtain ⟨T, L, hT, hL, hs⟩ := runStats_one (show runStats false exStats = .ok [⟨4, 2, 2, 3, 1, 4, 4⟩] by decide +kernel)
  obtain ⟨s', hs', _⟩ := C80_counts E0_lawful exStats_ok (.of_not_bare (by decide +kernel)) hT hL true
  refine ⟨T, L, _, s', hT, hL, hs, hs', ?_⟩
  rw [C80_exact E0_lawful exStats_ok (.of_not_bare (by decide +kernel)) hT hL (.inl rfl) hs]
  exact C80_upper E0_lawful exStats_ok (.of_not_bare (by decide +kernel)) hT hL hs'

/-- the text of a task -/
def runText (a : Args Nat) : Except Err Text := match init E0 a with
  | .error e => .error e
  | .ok T => match computeStatistics false E0 T with
    | .error e => .error e
    | .ok S => printStats (fun g => Names.decimal g.nbTriplets) E0 T S

/-- without filter the number of combinations of labels is in the text -/
example : runText exNb = .ok ("\n\n###### Global stats ######\n\n6\n\n###### by blocks stats ######\n\n### by level: 0 ###\nnb_triplets: 6\nnb_levels: 2\nnb_across_pairs: 16\nnb_on_pairs: 4\nnb_on_levels: 3\nnb_across_levels: 2\nnb_on_across_levels: 4\n").toList := by
  decide +kernel

/-- two across columns: a pair (A, X) and a combination of labels that no triplet has are counted -/
example : runText exAcross = .ok ("\n\n###### Global stats ######\n\n0\n\n###### by blocks stats ######\n\n### by level: 0 ###\nnb_triplets: 0\nnb_levels: 1\nnb_across_pairs: 2\nnb_on_pairs: 2\nnb_on_levels: 2\nnb_across_levels: 2\nnb_on_across_levels: 3\n").toList ∧
    statFields exAcross [.int 0] = [("nb_triplets".toList, 0), ("nb_levels".toList, 1), ("nb_across_pairs".toList, 2), ("nb_on_pairs".toList, 2), ("nb_on_levels".toList, 2),
      ("nb_across_levels".toList, 2), ("nb_on_across_levels".toList, 3)] := by
  decide +kernel

/-- with the filter of A it is not -/
example : runText exStats = .ok ("\n\n###### Global stats ######\n\n1\n\n###### by blocks stats ######\n\n### by level: 0 ###\nnb_triplets: 1\nnb_across_pairs: 4\nnb_on_pairs: 4\nnb_on_levels: 2\nnb_across_levels: 2\nnb_on_across_levels: 3\n").toList := by
  decide +kernel

#print axioms C80_counts
#print axioms C80_across_pairs
#print axioms C80_on_pairs_some
#print axioms C80_on_pairs_partial
#print axioms C80_pairs
#print axioms C80_exact
#print axioms C80_approximate
#print axioms C80_upper
#print axioms C80_flag
#print axioms C80_text
#print axioms C80_violated

end ABX.Task
