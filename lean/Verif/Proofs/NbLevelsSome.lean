import Verif.Proofs.NbLevels
import Verif.Proofs.Stats
import Verif.Spec.NbLevelsSome
/-! The number of levels of a task with any number of across columns. -/
namespace ABX.Task
open ExtSort SideOps
variable {α β γ ρ : Type}

theorem nbCandidates_some {e : Env} (he : e.Lawful) {T : Task ρ} {L : Level ρ} (hd : Distinct L.frame)
    (ht : ∀ p ∈ L.frame, castNat L.type p.1 = p.1) (hna : T.across ≠ ["#across"]) {key : List Val}
    (hk : ∃ p ∈ L.frame, keyOf (T.on :: T.across) p.2 = key) :
    ∃ IB IX : Frame, IB.Perm (bItems T.on T.across L.frame key) ∧ IX.Perm (oItems T.on T.across L.frame key) ∧
      nbCandidates e T L key ((aItems T.on T.across L.frame key).map (·.1)) = .ok (IB.map (·.1), IX.map (·.1)) := by
  obtain ⟨p0, hp0, hkey⟩ := hk
  have hA : ((aItems T.on T.across L.frame key).map (·.1)).map (castNat L.type) = (aItems T.on T.across L.frame key).map (·.1) :=
    castAll_map ht (fun p hp => (List.mem_filter.mp hp).1)
  match key, hkey with
  | on :: ac, hkey =>
  obtain ⟨hon, hacr⟩ : p0.2 T.on = on ∧ T.across.map p0.2 = ac := by simpa [keyOf] using hkey
  have gon : groupLabels L.frame [T.on] [on] = .ok ((groupFrame L.frame [T.on] [on]).map (·.1)) :=
    groupLabels_ok ⟨p0, hp0, by simp [keyOf, hon]⟩
  have gac : groupLabels L.frame T.across ac = .ok ((groupFrame L.frame T.across ac).map (·.1)) :=
    groupLabels_ok ⟨p0, hp0, by simp [keyOf, hacr]⟩
  have hB : ∃ IB : Frame, IB.Perm (bItems T.on T.across L.frame (on :: ac)) ∧
      e.sets "nb_B" (on :: ac) (((groupFrame L.frame T.across ac).map (·.1)).dedup.filter
          (fun l => !((aItems T.on T.across L.frame (on :: ac)).map (·.1)).contains l)) = IB.map (·.1) := by
    have h1 := filter_labels hd (fun p => keyOf T.across p.2 == ac) (fun p => keyOf (T.on :: T.across) p.2 == on :: ac) false
    simp only [beq_false] at h1
    have h2 := he.sets "nb_B" (on :: ac) (((groupFrame L.frame T.across ac).map (·.1)).dedup.filter
        (fun l => !((aItems T.on T.across L.frame (on :: ac)).map (·.1)).contains l))
    unfold groupFrame aItems at h2 ⊢
    rw [h1] at h2 ⊢
    obtain ⟨IB, p1, p2⟩ := perm_lift h2 rfl
    refine ⟨IB, p1.trans (List.Perm.of_eq ?_), by rw [p2]⟩
    unfold bItems
    apply List.filter_congr
    intro p _
    rw [Bool.eq_iff_iff]
    simp [keyOf, hna]
    tauto
  have hX : ∃ IX : Frame, IX.Perm (oItems T.on T.across L.frame (on :: ac)) ∧
      e.sets "nb_X" (on :: ac) (((groupFrame L.frame [T.on] [on]).map (·.1)).dedup.filter
            (fun l => !((aItems T.on T.across L.frame (on :: ac)).map (·.1)).contains l)) = IX.map (·.1) := by
    have h1 := filter_labels hd (fun p => keyOf [T.on] p.2 == [on]) (fun p => keyOf (T.on :: T.across) p.2 == on :: ac) false
    simp only [beq_false] at h1
    have h2 := he.sets "nb_X" (on :: ac) (((groupFrame L.frame [T.on] [on]).map (·.1)).dedup.filter
        (fun l => !((aItems T.on T.across L.frame (on :: ac)).map (·.1)).contains l))
    unfold groupFrame aItems at h2 ⊢
    rw [h1] at h2 ⊢
    obtain ⟨IX, p1, p2⟩ := perm_lift h2 rfl
    exact ⟨IX, p1, by rw [p2]⟩
  obtain ⟨IB, hB1, hB2⟩ := hB
  obtain ⟨IX, hX1, hX2⟩ := hX
  refine ⟨IB, IX, hB1, hX1, ?_⟩
  unfold nbCandidates
  simp only [gon, gac, hA, if_neg hna, hB2, hX2]
  rw [castAll_map ht (fun p hp => (List.mem_filter.mp (hB1.mem_iff.mp hp)).1), castAll_map ht (fun p hp => (List.mem_filter.mp (hX1.mem_iff.mp hp)).1)]

section
variable {e : Env} {T : Task ρ} {L : Level ρ} {fs : List (DBFun Bool)} {fr0 : Frame} (H : LevelHyp e T L fs fr0)
include H

theorem nbBlock_some (hpos : Positional L.frame) (hna : T.across ≠ ["#across"]) {key : List Val}
    (hk : ∃ p ∈ L.frame, keyOf (T.on :: T.across) p.2 = key) :
    ∃ p ∈ aItems T.on T.across L.frame key, nbBlock e T L key = .ok (if pBlock T.cols T.filters p.2 then
      ((bItems T.on T.across L.frame key).map (fun p => keyOf (T.on :: T.across) p.2)).dedup.length *
      ((oItems T.on T.across L.frame key).map (fun p => keyOf (T.on :: T.across) p.2)).dedup.length else 0) := by
  obtain ⟨IB, IX, hB, hX, hc⟩ := nbCandidates_some H.lawful H.distinctL H.cast hna hk
  unfold nbBlock
  rw [groupLabels_ok hk]
  obtain ⟨p, hp1, hp2⟩ := hk
  have hne : p ∈ aItems T.on T.across L.frame key := by simp [aItems, hp1, hp2]
  have e : groupFrame L.frame (T.on :: T.across) key = aItems T.on T.across L.frame key := rfl
  rw [e]
  obtain ⟨q, I, ha⟩ : ∃ q I, aItems T.on T.across L.frame key = q :: I := by
    cases ha : aItems T.on T.across L.frame key with
    | nil => rw [ha] at hne; simp at hne
    | cons q I => exact ⟨q, I, rfl⟩
  have hq' : q ∈ aItems T.on T.across L.frame key := by rw [ha]; simp
  have hq : q ∈ L.frame := (List.mem_filter.mp hq').1
  refine ⟨q, hq', ?_⟩
  have h0 : ((aItems T.on T.across L.frame key).map (·.1))[0]? = some q.1 := by rw [ha]; rfl
  simp only [h0, H.distinctL.loc hq, onAcrossByFilter_ok H.mgrOK H.availM q.2 q.2 q.2 q.2]
  rw [show ((T.filters.ops .onAcrossBy).all fun f => f.fn (stageEnv T.cols q.2 q.2 q.2 q.2)) = pBlock T.cols T.filters q.2 from rfl]
  cases hb : pBlock T.cols T.filters q.2
  · simp
  have mB : ∀ p ∈ IB, p ∈ L.frame := fun p hp => (List.mem_filter.mp (hB.mem_iff.mp hp)).1
  have mX : ∀ p ∈ IX, p ∈ L.frame := fun p hp => (List.mem_filter.mp (hX.mem_iff.mp hp)).1
  simp only [hc, if_neg hna]
  simp only [nbGroups_ok hpos mB, nbGroups_ok hpos mX, if_true]
  have eB : (IB.map (fun p => keyOf (T.on :: T.across) p.2)).dedup.length = ((bItems T.on T.across L.frame key).map (fun p => keyOf (T.on :: T.across) p.2)).dedup.length :=
    ((hB.map _).dedup).length_eq
  have eX : (IX.map (fun p => keyOf (T.on :: T.across) p.2)).dedup.length = ((oItems T.on T.across L.frame key).map (fun p => keyOf (T.on :: T.across) p.2)).dedup.length :=
    ((hX.map _).dedup).length_eq
  rw [eB, eX]
  split
  · rfl
  · rename_i hn
    rw [not_and_or] at hn
    rcases hn with hn | hn
    · have : IB = [] := by simpa using hn
      have hb' : bItems T.on T.across L.frame key = [] := by rw [this] at hB; exact List.nil_perm.mp hB
      simp [hb']
    · have : IX = [] := by simpa using hn
      have hb' : oItems T.on T.across L.frame key = [] := by rw [this] at hX; exact List.nil_perm.mp hX
      simp [hb']

/-- a triple that the block counts -/
def Loose (T : Task ρ) (L : Level ρ) (fs : List (DBFun Bool)) (a b x : Nat × Row) : Prop :=
  a ∈ L.frame ∧ b ∈ L.frame ∧ x ∈ L.frame ∧ Spec.admits T.cols fs a = true ∧ Spec.looselyLegal T.on T.across a b x = true

theorem loose_iff (hna : T.across ≠ ["#across"]) {key : List Val} {p : Nat × Row} (hp : p ∈ aItems T.on T.across L.frame key) (a b x : Nat × Row) :
    (pBlock T.cols T.filters p.2 = true ∧ a ∈ aItems T.on T.across L.frame key ∧ b ∈ bItems T.on T.across L.frame key ∧ x ∈ oItems T.on T.across L.frame key) ↔
    Loose T L fs a b x ∧ keyOf (T.on :: T.across) a.2 = key := by
  have hu : userAcross T.across = T.across := by unfold userAcross; rw [if_neg hna]
  constructor
  · rintro ⟨h1, h2, h3, h4⟩
    obtain ⟨haL, hak⟩ : a ∈ L.frame ∧ keyOf (T.on :: T.across) a.2 = key := by have := List.mem_filter.mp h2; simpa using this
    rw [← hak, bItems_eq H haL] at h3
    rw [← hak, oItems_eq H haL] at h4
    rw [hu] at h3 h4
    obtain ⟨hbL, hb⟩ := List.mem_filter.mp h3
    obtain ⟨hxL, hx⟩ := List.mem_filter.mp h4
    rw [if_neg (by simpa using H.across)] at hx
    refine ⟨⟨haL, hbL, hxL, by rw [← pBlock_admits H hp h2]; exact h1, ?_⟩, hak⟩
    unfold Spec.looselyLegal
    rw [hb, hx]
    rfl
  · rintro ⟨⟨haL, hbL, hxL, h1, h2⟩, hak⟩
    have ha : a ∈ aItems T.on T.across L.frame key := List.mem_filter.mpr ⟨haL, by simpa using hak⟩
    unfold Spec.looselyLegal at h2
    rw [Bool.and_eq_true] at h2
    refine ⟨by rw [pBlock_admits H hp ha]; exact h1, ha, ?_, ?_⟩
    · rw [← hak, bItems_eq H haL, hu]
      exact List.mem_filter.mpr ⟨hbL, h2.1⟩
    · rw [← hak, oItems_eq H haL, hu]
      refine List.mem_filter.mpr ⟨hxL, ?_⟩
      rw [if_neg (by simpa using H.across)]
      exact h2.2

/-- what a block contributes -/
theorem nbBlock_loose (hpos : Positional L.frame) (hna : T.across ≠ ["#across"]) {key : List Val}
    (hk : ∃ p ∈ L.frame, keyOf (T.on :: T.across) p.2 = key) :
    ∃ C : List (List Val × List Val × List Val), nbBlock e T L key = .ok C.length ∧ C.Nodup ∧
      ∀ c, c ∈ C ↔ c.1 = key ∧ ∃ a b x, Loose T L fs a b x ∧ keyOf (T.on :: T.across) a.2 = key ∧
        keyOf (T.on :: T.across) b.2 = c.2.1 ∧ keyOf (T.on :: T.across) x.2 = c.2.2 := by
  obtain ⟨p, hp, hb⟩ := nbBlock_some H hpos hna hk
  have good := loose_iff H hna hp
  by_cases hpb : pBlock T.cols T.filters p.2 = true
  · refine ⟨(((bItems T.on T.across L.frame key).map (fun p => keyOf (T.on :: T.across) p.2)).dedup ×ˢ
      ((oItems T.on T.across L.frame key).map (fun p => keyOf (T.on :: T.across) p.2)).dedup).map (fun c => (key, c)), ?_, ?_, ?_⟩
    · rw [hb, if_pos hpb]; simp [List.length_product]
    · exact ((List.nodup_dedup _).product (List.nodup_dedup _)).map (fun c d h => by simpa using h)
    · rintro ⟨k, kb, kx⟩
      simp only [List.mem_map, List.mem_product', List.mem_dedup, Prod.mk.injEq, Prod.exists]
      constructor
      · rintro ⟨kb', kx', ⟨⟨b1, b2, hb, rfl⟩, ⟨x1, x2, hx, rfl⟩⟩, rfl, rfl, rfl⟩
        have := (good p (b1, b2) (x1, x2)).mp ⟨hpb, hp, hb, hx⟩
        exact ⟨rfl, p.1, p.2, b1, b2, x1, x2, this.1, this.2, rfl, rfl⟩
      · rintro ⟨rfl, a1, a2, b1, b2, x1, x2, hg, ha, rfl, rfl⟩
        obtain ⟨_, _, h3, h4⟩ := (good (a1, a2) (b1, b2) (x1, x2)).mpr ⟨hg, ha⟩
        exact ⟨_, _, ⟨⟨b1, b2, h3, rfl⟩, ⟨x1, x2, h4, rfl⟩⟩, rfl, rfl, rfl⟩
  · refine ⟨[], ?_, List.nodup_nil, ?_⟩
    · rw [hb, if_neg hpb]; rfl
    · rintro ⟨k, kb, kx⟩
      simp only [List.not_mem_nil, false_iff]
      rintro ⟨_, a, b, x, hg, ha, _⟩
      exact hpb ((good a b x).mpr ⟨hg, ha⟩).1

theorem nbLevel_loose (hpos : Positional L.frame) (hna : T.across ≠ ["#across"]) : nbLevel e T L = .ok (Spec.nbLevelsSome T.cols T.on T.across fs L.frame) := by
  obtain ⟨ns, hns, hF⟩ := sequence_exists (f := nbBlock e T L) (l := groupKeys e "stats" (T.on :: T.across) L.frame)
    (Q := fun key n => ∃ C : List (List Val × List Val × List Val), n = C.length ∧ C.Nodup ∧
      ∀ c, c ∈ C ↔ c.1 = key ∧ ∃ a b x, Loose T L fs a b x ∧ keyOf (T.on :: T.across) a.2 = key ∧
        keyOf (T.on :: T.across) b.2 = c.2.1 ∧ keyOf (T.on :: T.across) x.2 = c.2.2) (by
    intro key hkey
    obtain ⟨C, h1, h2⟩ := nbBlock_loose H hpos hna ((mem_groupKeys H.lawful).mp hkey)
    exact ⟨C.length, h1, C, rfl, h2⟩)
  unfold nbLevel
  rw [hns]
  simp only [Except.map]
  congr 1
  have step : ∀ {keys : List (List Val)} {ns : List Nat}, keys.Nodup →
      List.Forall₂ (fun key n => ∃ C : List (List Val × List Val × List Val), n = C.length ∧ C.Nodup ∧
      ∀ c, c ∈ C ↔ c.1 = key ∧ ∃ a b x, Loose T L fs a b x ∧ keyOf (T.on :: T.across) a.2 = key ∧
        keyOf (T.on :: T.across) b.2 = c.2.1 ∧ keyOf (T.on :: T.across) x.2 = c.2.2) keys ns →
      ∃ C : List (List Val × List Val × List Val), ns.sum = C.length ∧ C.Nodup ∧
      ∀ c, c ∈ C ↔ c.1 ∈ keys ∧ ∃ a b x, Loose T L fs a b x ∧ keyOf (T.on :: T.across) a.2 = c.1 ∧
        keyOf (T.on :: T.across) b.2 = c.2.1 ∧ keyOf (T.on :: T.across) x.2 = c.2.2 := by
    intro keys ns hn h
    induction h with
    | nil => exact ⟨[], rfl, List.nodup_nil, by simp⟩
    | @cons key n keys ns h0 _ ih =>
      rw [List.nodup_cons] at hn
      obtain ⟨C, c1, c2, c3⟩ := ih hn.2
      obtain ⟨D, d1, d2, d3⟩ := h0
      refine ⟨D ++ C, by simp [c1, d1], ?_, ?_⟩
      · rw [List.nodup_append]
        refine ⟨d2, c2, ?_⟩
        rintro c hc c' hc' rfl
        have h1 := ((d3 c).mp hc).1
        have h2 := ((c3 c).mp hc').1
        rw [h1] at h2
        exact hn.1 h2
      · intro c
        rw [List.mem_append, c3, d3, List.mem_cons]
        constructor
        · rintro (⟨h, a, b, x, g, ka, r⟩ | ⟨h, r⟩)
          · exact ⟨.inl h, a, b, x, g, by rw [ka, h], r⟩
          · exact ⟨.inr h, r⟩
        · rintro ⟨h | h, a, b, x, g, ka, r⟩
          · exact .inl ⟨h, a, b, x, g, by rw [ka, h], r⟩
          · exact .inr ⟨h, a, b, x, g, ka, r⟩
  obtain ⟨C, c1, c2, c3⟩ := step (nodup_groupKeys H.lawful) hF
  rw [c1]
  apply List.Perm.length_eq
  rw [List.perm_ext_iff_of_nodup c2 (List.nodup_dedup _)]
  rintro ⟨k, kb, kx⟩
  rw [c3]
  simp only [List.mem_dedup, List.mem_map, Prod.exists, Prod.mk.injEq]
  have gm : ∀ a b x, (a, b, x) ∈ (Spec.triples L.frame).filter (fun t => Spec.admits T.cols fs t.1 && Spec.looselyLegal T.on T.across t.1 t.2.1 t.2.2) ↔ Loose T L fs a b x := by
    intro a b x
    simp only [List.mem_filter, Bool.and_eq_true]
    have hm : (a, b, x) ∈ Spec.triples L.frame ↔ a ∈ L.frame ∧ b ∈ L.frame ∧ x ∈ L.frame := mem_prod3
    rw [hm]
    unfold Loose
    tauto
  constructor
  · rintro ⟨_, a1, a2, b1, b2, x1, x2, hg, rfl, rfl, rfl⟩
    exact ⟨a1, a2, b1, b2, x1, x2, (gm _ _ _).mpr hg, rfl, rfl, rfl⟩
  · rintro ⟨a1, a2, b1, b2, x1, x2, hg, rfl, rfl, rfl⟩
    have hg := (gm _ _ _).mp hg
    exact ⟨(mem_groupKeys H.lawful).mpr ⟨(a1, a2), hg.1, rfl⟩, a1, a2, b1, b2, x1, x2, hg, rfl, rfl, rfl⟩

end

/-- the value for one level with one or more across columns -/
theorem nbLevel_several {e : Env} (he : e.Lawful) {a : Args ρ} (ha : a.OK) (hb : Spec'.KeptFirst a) {T : Task ρ} (h : init e a = .ok T)
    (h1 : a.across ≠ []) {L : Level ρ} (hL : L ∈ T.levels) :
    nbLevel e T L = .ok (Spec.nbLevelsSome a.cols a.on a.across a.filters (keptOf a L.key)) := by
  obtain ⟨fr0, I⟩ := init_level he ha h hL
  obtain ⟨c1, c2, c3, c4⟩ := checkDatabase_ok (init_ok h).1
  have hacr := init_across h
  rw [if_neg h1] at hacr
  have hna : T.across ≠ ["#across"] := by
    rw [hacr]
    intro h'
    exact (c4 "#across" (c2 _ (by rw [h']; simp))).2 rfl
  rw [nbLevel_loose I.hyp (positional he ha hb h hL) hna, I.cols, I.on, hacr]
  congr 1
  have sim := frame_kept ha h I
  have lab : ∀ p q : Nat × Row, Sim a.columns p q → Spec.labelsOf a.on a.across p = Spec.labelsOf a.on a.across q := by
    intro p q hs
    unfold Spec.labelsOf
    apply List.map_congr_left
    intro c hc
    apply hs.2
    rcases List.mem_cons.mp hc with rfl | hc
    · exact c1
    · exact c2 c hc
  unfold Spec.nbLevelsSome
  congr 2
  refine forall₂_map_eq (forall₂_filter ?_ (triples_sim sim)) ?_
  · rintro ⟨x1, x2, x3⟩ ⟨y1, y2, y3⟩ ⟨s1, s2, s3⟩
    dsimp only at s1 s2 s3 ⊢
    rw [admits_sim ha.inF s1]
    unfold Spec.looselyLegal
    rw [s1.2 _ c1, s2.2 _ c1, s3.2 _ c1, all_congr_mem (fun c hc => by rw [s1.2 c (c2 c hc), s2.2 c (c2 c hc)]), any_congr_mem (fun c hc => by rw [s1.2 c (c2 c hc), s3.2 c (c2 c hc)])]
  · rintro ⟨x1, x2, x3⟩ ⟨y1, y2, y3⟩ ⟨s1, s2, s3⟩
    dsimp only
    rw [lab _ _ s1, lab _ _ s2, lab _ _ s3]

/-- the number of combinations of labels of a level that is reported: with at most one across column those of the triplets (without across
column every item A counts); with several those of the triples whose X differs from A in some across column -/
def nbSpec (a : Args ρ) (key : List Val) : Nat :=
  if a.across = [] then Spec.nbLevelsA a.cols a.on a.across a.filters (itemsOf a key)
  else if a.across.length ≤ 1 then Spec.nbLevels a.cols a.on a.across a.filters (itemsOf a key)
  else Spec.nbLevelsSome a.cols a.on a.across a.filters (keptOf a key)

theorem nbLevel_all {e : Env} (he : e.Lawful) {a : Args ρ} (ha : a.OK) (hb : Spec'.KeptFirst a) {T : Task ρ} (h : init e a = .ok T)
    (hf : T.filters.ops .A = [] ∧ T.filters.ops .B = [] ∧ T.filters.ops .X = [] ∧ T.filters.ops .ABX = []) {L : Level ρ} (hL : L ∈ T.levels) :
    nbLevel e T L = .ok (nbSpec a L.key) := by
  unfold nbSpec
  by_cases h1 : a.across.length ≤ 1
  · rw [nbLevel_main he ha hb h hf h1 hL, if_pos h1]
  · have h0 : a.across ≠ [] := by rintro h0; simp [h0] at h1
    rw [nbLevel_several he ha hb h h0 hL, if_neg h0, if_neg h1]

end ABX.Task
