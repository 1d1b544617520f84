import Verif.Model.NbLevels
import Verif.Spec.NbLevels
import Verif.Properties.Task
import Mathlib.Data.List.ProdSigma
/-! The number of levels of a task. -/
namespace ABX.Task
open ExtSort SideOps
variable {α β γ ρ : Type}

theorem dedup_map_length [DecidableEq β] [DecidableEq γ] {l : List α} {f : α → β} {g : α → γ} (h : ∀ x ∈ l, ∀ y ∈ l, f x = f y ↔ g x = g y) :
    (l.map f).dedup.length = (l.map g).dedup.length := by
  induction l with
  | nil => rfl
  | cons x l ih =>
    have ih := ih (fun y hy z hz => h y (by simp [hy]) z (by simp [hz]))
    have hm : f x ∈ l.map f ↔ g x ∈ l.map g := by
      simp only [List.mem_map]
      constructor
      · rintro ⟨y, hy, e⟩; exact ⟨y, hy, (h y (by simp [hy]) x (by simp)).mp e⟩
      · rintro ⟨y, hy, e⟩; exact ⟨y, hy, (h y (by simp [hy]) x (by simp)).mpr e⟩
    simp only [List.map_cons]
    by_cases hc : f x ∈ l.map f
    · rw [List.dedup_cons_of_mem hc, List.dedup_cons_of_mem (hm.mp hc), ih]
    · rw [List.dedup_cons_of_notMem hc, List.dedup_cons_of_notMem (fun h' => hc (hm.mpr h'))]
      simp [ih]

theorem _root_.List.mem_product' {l₁ : List α} {l₂ : List β} {p : α × β} : p ∈ l₁ ×ˢ l₂ ↔ p.1 ∈ l₁ ∧ p.2 ∈ l₂ := by
  obtain ⟨a, b⟩ := p; exact List.mem_product

/-- the columns by which B and X are grouped -/
def grp (T : Task ρ) : List String := if T.across = ["#across"] then [T.on] else T.on :: T.across

theorem nbGroups_ok {fr : Frame} (hp : Positional fr) {I : Frame} (hI : ∀ p ∈ I, p ∈ fr) (g : List String) :
    nbGroups fr g (I.map (·.1)) = .ok (I.map (fun p => keyOf g p.2)).dedup.length := by
  have : sequence ((I.map (·.1)).map (iloc fr)) = .ok (I.map (·.2)) := by
    rw [List.map_map]
    exact sequence_map_ok (fun p hp' => iloc_mem hp (hI p hp'))
  unfold nbGroups
  rw [this]
  simp only [List.map_map]
  rfl

theorem nbCandidates_ok {e : Env} (he : e.Lawful) {T : Task ρ} {L : Level ρ} (hd : Distinct L.frame)
    (ht : ∀ p ∈ L.frame, castNat L.type p.1 = p.1) (h1 : T.across.length = 1) {key : List Val}
    (hk : ∃ p ∈ L.frame, keyOf (T.on :: T.across) p.2 = key) :
    ∃ IB IX : Frame, IB.Perm (bItems T.on T.across L.frame key) ∧ IX.Perm (xItems T.on T.across L.frame key) ∧
      nbCandidates e T L key ((aItems T.on T.across L.frame key).map (·.1)) = .ok (IB.map (·.1), IX.map (·.1)) := by
  have he' : Env.Lawful { e with sets := fun s k l => e.sets ("nb_" ++ s) k l } := ⟨he.groups, fun s k l => he.sets _ k l, he.names, he.sort⟩
  obtain ⟨IB, IX, hB, hX, hc⟩ := candidates_ok (T := T) he' hd ht (by intro h; simp [h] at h1) hk
  refine ⟨IB, IX, hB, hX, ?_⟩
  obtain ⟨p, hp, hkey⟩ := hk
  subst hkey
  unfold candidates at hc
  unfold nbCandidates
  have hl : ¬ (keyOf T.across p.2).length > 1 := by simp [keyOf, h1]
  rw [show keyOf (T.on :: T.across) p.2 = p.2 T.on :: keyOf T.across p.2 from rfl] at hc ⊢
  simp only [if_neg hl] at hc ⊢
  split at hc
  · cases hc
  rename_i onSet ho
  simp only [ho]
  split at hc
  · cases hc
  rename_i B hB'
  rw [show "nb_" ++ "B" = "nb_B" from by decide] at hB'
  rw [show "nb_" ++ "X" = "nb_X" from by decide] at hc
  injection hc with hc
  rw [Prod.mk.injEq, Prod.mk.injEq] at hc
  by_cases hd : T.across = ["#across"]
  · rw [if_pos hd] at hB' ⊢
    injection hB' with hB'
    rw [← hB'] at hc
    simp only [Except.ok.injEq, Prod.mk.injEq]
    exact hc.2
  · rw [if_neg hd] at hB' ⊢
    cases hg : groupLabels L.frame T.across (keyOf T.across p.2) with
    | error e => simp [hg] at hB'
    | ok g =>
      simp only [hg] at hB' ⊢
      injection hB' with hB'
      rw [← hB'] at hc
      simp only [Except.ok.injEq, Prod.mk.injEq]
      exact hc.2

section
variable {e : Env} {T : Task ρ} {L : Level ρ} {fs : List (DBFun Bool)} {fr0 : Frame} (H : LevelHyp e T L fs fr0)
include H

theorem nbBlock_ok (hpos : Positional L.frame) (h1 : T.across.length = 1) {key : List Val}
    (hk : ∃ p ∈ L.frame, keyOf (T.on :: T.across) p.2 = key) :
    ∃ p ∈ aItems T.on T.across L.frame key, nbBlock e T L key = .ok (if pBlock T.cols T.filters p.2 then
      ((bItems T.on T.across L.frame key).map (fun p => keyOf (grp T) p.2)).dedup.length *
      ((xItems T.on T.across L.frame key).map (fun p => keyOf (grp T) p.2)).dedup.length else 0) := by
  obtain ⟨IB, IX, hB, hX, hc⟩ := nbCandidates_ok H.lawful H.distinctL H.cast h1 hk
  unfold nbBlock
  rw [groupLabels_ok hk]
  obtain ⟨p, hp1, hp2⟩ := hk
  have hne : p ∈ aItems T.on T.across L.frame key := by simp [aItems, hp1, hp2]
  have e : groupFrame L.frame (T.on :: T.across) key = aItems T.on T.across L.frame key := rfl
  rw [e]
  obtain ⟨q, I, ha⟩ : ∃ q I, aItems T.on T.across L.frame key = q :: I := by
    cases ha : aItems T.on T.across L.frame key with
    | nil => rw [ha] at hne; simp at hne
    | cons q I => exact ⟨q, I, rfl⟩
  have hq' : q ∈ aItems T.on T.across L.frame key := by rw [ha]; simp
  have hq : q ∈ L.frame := (List.mem_filter.mp hq').1
  refine ⟨q, hq', ?_⟩
  have h0 : ((aItems T.on T.across L.frame key).map (·.1))[0]? = some q.1 := by rw [ha]; rfl
  simp only [h0, H.distinctL.loc hq, onAcrossByFilter_ok H.mgrOK H.availM q.2 q.2 q.2 q.2]
  rw [show ((T.filters.ops .onAcrossBy).all fun f => f.fn (stageEnv T.cols q.2 q.2 q.2 q.2)) = pBlock T.cols T.filters q.2 from rfl]
  cases hb : pBlock T.cols T.filters q.2
  · simp
  have mB : ∀ p ∈ IB, p ∈ L.frame := fun p hp => (List.mem_filter.mp (hB.mem_iff.mp hp)).1
  have mX : ∀ p ∈ IX, p ∈ L.frame := fun p hp => (List.mem_filter.mp (hX.mem_iff.mp hp)).1
  simp only [hc]
  rw [show (if T.across = ["#across"] then [T.on] else T.on :: T.across) = grp T from rfl]
  simp only [nbGroups_ok hpos mB, nbGroups_ok hpos mX, if_true]
  have eB : (IB.map (fun p => keyOf (grp T) p.2)).dedup.length = ((bItems T.on T.across L.frame key).map (fun p => keyOf (grp T) p.2)).dedup.length :=
    ((hB.map _).dedup).length_eq
  have eX : (IX.map (fun p => keyOf (grp T) p.2)).dedup.length = ((xItems T.on T.across L.frame key).map (fun p => keyOf (grp T) p.2)).dedup.length :=
    ((hX.map _).dedup).length_eq
  rw [eB, eX]
  split
  · rfl
  · rename_i hn
    rw [not_and_or] at hn
    rcases hn with hn | hn
    · have : IB = [] := by simpa using hn
      have hb' : bItems T.on T.across L.frame key = [] := by rw [this] at hB; exact List.nil_perm.mp hB
      simp [hb']
    · have : IX = [] := by simpa using hn
      have hb' : xItems T.on T.across L.frame key = [] := by rw [this] at hX; exact List.nil_perm.mp hX
      simp [hb']

/-- what a block contributes: one unit for each combination of labels in it -/
theorem nbBlock_combos (hpos : Positional L.frame) (h1 : T.across.length = 1)
    (hf : T.filters.ops .A = [] ∧ T.filters.ops .B = [] ∧ T.filters.ops .X = [] ∧ T.filters.ops .ABX = []) {key : List Val}
    (hk : ∃ p ∈ L.frame, keyOf (T.on :: T.across) p.2 = key) :
    ∃ C : List (List Val × List Val × List Val), nbBlock e T L key = .ok C.length ∧ C.Nodup ∧
      ∀ c, c ∈ C ↔ c.1 = key ∧ ∃ a b x, Good T.cols T.on T.across fs fr0 a b x ∧ keyOf (T.on :: T.across) a.2 = key ∧
        keyOf (grp T) b.2 = c.2.1 ∧ keyOf (grp T) x.2 = c.2.2 := by
  obtain ⟨p, hp, hb⟩ := nbBlock_ok H hpos h1 hk
  obtain ⟨fA, fB, fX, fABX⟩ := hf
  have good : ∀ a b x, (pBlock T.cols T.filters p.2 = true ∧ a ∈ aItems T.on T.across L.frame key ∧
      b ∈ bItems T.on T.across L.frame key ∧ x ∈ xItems T.on T.across L.frame key) ↔
      Good T.cols T.on T.across fs fr0 a b x ∧ keyOf (T.on :: T.across) a.2 = key := by
    intro a b x
    rw [← good_iff H hp a b x]
    simp [pA, pB, pX, pABX, fA, fB, fX, fABX]
  by_cases hpb : pBlock T.cols T.filters p.2 = true
  · refine ⟨(((bItems T.on T.across L.frame key).map (fun p => keyOf (grp T) p.2)).dedup ×ˢ
      ((xItems T.on T.across L.frame key).map (fun p => keyOf (grp T) p.2)).dedup).map (fun c => (key, c)), ?_, ?_, ?_⟩
    · rw [hb, if_pos hpb]; simp [List.length_product]
    · exact ((List.nodup_dedup _).product (List.nodup_dedup _)).map (fun c d h => by simpa using h)
    · rintro ⟨k, kb, kx⟩
      simp only [List.mem_map, List.mem_product', List.mem_dedup, Prod.mk.injEq, Prod.exists]
      constructor
      · rintro ⟨kb', kx', ⟨⟨b1, b2, hb, rfl⟩, ⟨x1, x2, hx, rfl⟩⟩, rfl, rfl, rfl⟩
        have := (good p (b1, b2) (x1, x2)).mp ⟨hpb, hp, hb, hx⟩
        exact ⟨rfl, p.1, p.2, b1, b2, x1, x2, this.1, this.2, rfl, rfl⟩
      · rintro ⟨rfl, a1, a2, b1, b2, x1, x2, hg, ha, rfl, rfl⟩
        obtain ⟨_, _, h3, h4⟩ := (good (a1, a2) (b1, b2) (x1, x2)).mpr ⟨hg, ha⟩
        exact ⟨_, _, ⟨⟨b1, b2, h3, rfl⟩, ⟨x1, x2, h4, rfl⟩⟩, rfl, rfl, rfl⟩
  · refine ⟨[], ?_, List.nodup_nil, ?_⟩
    · rw [hb, if_neg hpb]; rfl
    · rintro ⟨k, kb, kx⟩
      simp only [List.not_mem_nil, false_iff]
      rintro ⟨_, a, b, x, hg, ha, _⟩
      exact hpb ((good a b x).mpr ⟨hg, ha⟩).1

theorem nbLevel_ok (hpos : Positional L.frame) (h1 : T.across.length = 1)
    (hf : T.filters.ops .A = [] ∧ T.filters.ops .B = [] ∧ T.filters.ops .X = [] ∧ T.filters.ops .ABX = []) :
    nbLevel e T L = .ok ((Spec.itemTriplets T.cols T.on (userAcross T.across) fs fr0).map
      (fun t => (keyOf (T.on :: T.across) t.1.2, keyOf (grp T) t.2.1.2, keyOf (grp T) t.2.2.2))).dedup.length := by
  obtain ⟨ns, hns, hF⟩ := sequence_exists (f := nbBlock e T L) (l := groupKeys e "stats" (T.on :: T.across) L.frame)
    (Q := fun key n => ∃ C : List (List Val × List Val × List Val), n = C.length ∧ C.Nodup ∧
      ∀ c, c ∈ C ↔ c.1 = key ∧ ∃ a b x, Good T.cols T.on T.across fs fr0 a b x ∧ keyOf (T.on :: T.across) a.2 = key ∧
        keyOf (grp T) b.2 = c.2.1 ∧ keyOf (grp T) x.2 = c.2.2) (by
    intro key hkey
    obtain ⟨C, h1, h2⟩ := nbBlock_combos H hpos h1 hf ((mem_groupKeys H.lawful).mp hkey)
    exact ⟨C.length, h1, C, rfl, h2⟩)
  unfold nbLevel
  rw [hns]
  simp only [Except.map]
  congr 1
  have step : ∀ {keys : List (List Val)} {ns : List Nat}, keys.Nodup →
      List.Forall₂ (fun key n => ∃ C : List (List Val × List Val × List Val), n = C.length ∧ C.Nodup ∧
      ∀ c, c ∈ C ↔ c.1 = key ∧ ∃ a b x, Good T.cols T.on T.across fs fr0 a b x ∧ keyOf (T.on :: T.across) a.2 = key ∧
        keyOf (grp T) b.2 = c.2.1 ∧ keyOf (grp T) x.2 = c.2.2) keys ns →
      ∃ C : List (List Val × List Val × List Val), ns.sum = C.length ∧ C.Nodup ∧
      ∀ c, c ∈ C ↔ c.1 ∈ keys ∧ ∃ a b x, Good T.cols T.on T.across fs fr0 a b x ∧ keyOf (T.on :: T.across) a.2 = c.1 ∧
        keyOf (grp T) b.2 = c.2.1 ∧ keyOf (grp T) x.2 = c.2.2 := by
    intro keys ns hn h
    induction h with
    | nil => exact ⟨[], rfl, List.nodup_nil, by simp⟩
    | @cons key n keys ns h0 _ ih =>
      rw [List.nodup_cons] at hn
      obtain ⟨C, c1, c2, c3⟩ := ih hn.2
      obtain ⟨D, d1, d2, d3⟩ := h0
      refine ⟨D ++ C, by simp [c1, d1], ?_, ?_⟩
      · rw [List.nodup_append]
        refine ⟨d2, c2, ?_⟩
        rintro c hc c' hc' rfl
        have h1 := ((d3 c).mp hc).1
        have h2 := ((c3 c).mp hc').1
        rw [h1] at h2
        exact hn.1 h2
      · intro c
        rw [List.mem_append, c3, d3, List.mem_cons]
        constructor
        · rintro (⟨h, a, b, x, g, ka, r⟩ | ⟨h, r⟩)
          · exact ⟨.inl h, a, b, x, g, by rw [ka, h], r⟩
          · exact ⟨.inr h, r⟩
        · rintro ⟨h | h, a, b, x, g, ka, r⟩
          · exact .inl ⟨h, a, b, x, g, by rw [ka, h], r⟩
          · exact .inr ⟨h, a, b, x, g, ka, r⟩
  obtain ⟨C, c1, c2, c3⟩ := step (nodup_groupKeys H.lawful) hF
  rw [c1]
  apply List.Perm.length_eq
  rw [List.perm_ext_iff_of_nodup c2 (List.nodup_dedup _)]
  rintro ⟨k, kb, kx⟩
  rw [c3]
  simp only [List.mem_dedup, List.mem_map, Prod.exists, Prod.mk.injEq]
  have gm : ∀ a b x, (a, b, x) ∈ Spec.itemTriplets T.cols T.on (userAcross T.across) fs fr0 ↔ Good T.cols T.on T.across fs fr0 a b x := by
    intro a b x
    simp only [Spec.itemTriplets, List.mem_filter, Bool.and_eq_true]
    have hm : (a, b, x) ∈ Spec.triples fr0 ↔ a ∈ fr0 ∧ b ∈ fr0 ∧ x ∈ fr0 := mem_prod3
    rw [hm]
    unfold Good
    tauto
  constructor
  · rintro ⟨_, a1, a2, b1, b2, x1, x2, hg, rfl, rfl, rfl⟩
    exact ⟨a1, a2, b1, b2, x1, x2, (gm _ _ _).mpr hg, rfl, rfl, rfl⟩
  · rintro ⟨a1, a2, b1, b2, x1, x2, hg, rfl, rfl, rfl⟩
    have hg := (gm _ _ _).mp hg
    exact ⟨good_key H "stats" hg, a1, a2, b1, b2, x1, x2, hg, rfl, rfl, rfl⟩

end
theorem init_across {e : Env} {a : Args ρ} {T : Task ρ} (h : init e a = .ok T) : T.across = if a.across = [] then ["#across"] else a.across := by
  rw [(init_ok h).2.2.2.1]
  by_cases hb : a.across = []
  · rw [(prep_across a hb).1, if_pos hb]
  · rw [prep_across' a hb, if_neg hb]

theorem nbLevels_inv {e : Env} {T : Task ρ} {n : Nat} (h : nbLevels e T = .ok n) :
    (T.filters.ops .A = [] ∧ T.filters.ops .B = [] ∧ T.filters.ops .X = [] ∧ T.filters.ops .ABX = []) ∧
    ∃ ns, sequence (T.levels.map (nbLevel e T)) = .ok ns ∧ n = ns.sum := by
  unfold nbLevels at h
  split at h
  · rename_i hc
    refine ⟨by simpa [and_assoc] using hc, ?_⟩
    cases hs : sequence (T.levels.map (nbLevel e T)) with
    | error e => rw [hs] at h; cases h
    | ok ns => rw [hs] at h; exact ⟨ns, rfl, (Except.ok.inj h).symm⟩
  · cases h

/-- the value for one level when the labels are positions and at most one across column is given -/
theorem nbLevel_main {e : Env} (he : e.Lawful) {a : Args ρ} (ha : a.OK) (hb : Spec'.KeptFirst a) {T : Task ρ} (h : init e a = .ok T)
    (hf : T.filters.ops .A = [] ∧ T.filters.ops .B = [] ∧ T.filters.ops .X = [] ∧ T.filters.ops .ABX = [])
    (h1 : a.across.length ≤ 1) {L : Level ρ} (hL : L ∈ T.levels) :
    nbLevel e T L = .ok (if a.across = [] then Spec.nbLevelsA a.cols a.on a.across a.filters (itemsOf a L.key)
      else Spec.nbLevels a.cols a.on a.across a.filters (itemsOf a L.key)) := by
  obtain ⟨fr0, I⟩ := init_level he ha h hL
  obtain ⟨c1, c2, c3, c4⟩ := checkDatabase_ok (init_ok h).1
  have hacr := init_across h
  have hlen : T.across.length = 1 := by
    rw [hacr]
    split
    · rfl
    · rename_i hne
      have : a.across.length ≠ 0 := fun h0 => hne (List.length_eq_zero_iff.mp h0)
      omega
  rw [nbLevel_ok I.hyp (positional he ha hb h hL) hlen hf]
  congr 1
  have sim : List.Forall₂ (Sim3 a.columns) (Spec.itemTriplets T.cols T.on (userAcross T.across) a.filters fr0) (tripsSpec a L.key) := by
    rw [I.cols, I.on, I.across]
    exact itemTriplets_sim c1 c2 ha.inF I.sim
  have lab : ∀ p q : Nat × Row, Sim a.columns p q → keyOf (a.on :: a.across) p.2 = Spec.labelsOf a.on a.across q := by
    intro p q hs
    unfold keyOf Spec.labelsOf
    apply List.map_congr_left
    intro c hc
    apply hs.2
    rcases List.mem_cons.mp hc with rfl | hc
    · exact c1
    · exact c2 c hc
  by_cases hn : a.across = []
  · rw [if_pos hn]
    rw [if_pos hn] at hacr
    have hg : grp T = a.on :: a.across := by unfold grp; rw [if_pos hacr, hn, I.on]
    have hm : ∀ t ∈ Spec.itemTriplets T.cols T.on (userAcross T.across) a.filters fr0, t.1 ∈ fr0 := by
      intro t ht
      exact (mem_prod3.mp (show t ∈ prod3 _ _ _ from (List.mem_filter.mp ht).1)).1
    rw [dedup_map_length (g := fun t => (t.1.1, keyOf (grp T) t.2.1.2, keyOf (grp T) t.2.2.2))]
    · unfold Spec.nbLevelsA
      congr 2
      refine forall₂_map_eq sim ?_
      rintro ⟨x1, x2, x3⟩ ⟨y1, y2, y3⟩ ⟨s1, s2, s3⟩
      simp only [Prod.mk.injEq]
      rw [hg]
      exact ⟨s1.1, lab _ _ s2, lab _ _ s3⟩
    · intro t ht u hu
      simp only [Prod.mk.injEq]
      have : keyOf (T.on :: T.across) t.1.2 = keyOf (T.on :: T.across) u.1.2 ↔ t.1.1 = u.1.1 := by
        constructor
        · intro hk
          refine I.hyp.dum hacr _ (hm t ht) _ (hm u hu) ?_
          rw [hacr] at hk
          simpa [keyOf] using (List.cons.inj hk).2
        · intro hk
          rw [I.hyp.distinct.inj (hm t ht) (hm u hu) hk]
      rw [this]
  · rw [if_neg hn]
    rw [if_neg hn] at hacr
    have hna : a.across ≠ ["#across"] := by
      intro h'
      exact (c4 "#across" (c2 _ (by rw [h']; simp))).2 rfl
    have hg : grp T = a.on :: a.across := by unfold grp; rw [hacr, if_neg hna, I.on]
    unfold Spec.nbLevels
    congr 2
    refine forall₂_map_eq sim ?_
    rintro ⟨x1, x2, x3⟩ ⟨y1, y2, y3⟩ ⟨s1, s2, s3⟩
    simp only [Prod.mk.injEq]
    rw [hg, I.on, hacr]
    exact ⟨lab _ _ s1, lab _ _ s2, lab _ _ s3⟩

end ABX.Task
