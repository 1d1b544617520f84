import Verif.Proofs.Task
/-! The triplets of a level are those of the specification. -/
namespace ABX.Task
open ExtSort SideOps
variable {α β γ ρ : Type}

theorem sequence_exists {f : α → Except Err β} {Q : α → β → Prop} : ∀ {l : List α}, (∀ x ∈ l, ∃ y, f x = .ok y ∧ Q x y) →
    ∃ ys, sequence (l.map f) = .ok ys ∧ List.Forall₂ Q l ys
  | [], _ => ⟨[], rfl, .nil⟩
  | x :: l, h => by
    obtain ⟨y, hy, hq⟩ := h x (by simp)
    obtain ⟨ys, h1, h2⟩ := sequence_exists (l := l) (fun z hz => h z (by simp [hz]))
    exact ⟨y :: ys, by simp [sequence, hy, h1], .cons hq h2⟩

/-- the across columns given by the user -/
def userAcross (across : List String) : List String := if across = ["#across"] then [] else across

/-- a legal triple of items of the frame, all the filters of which hold -/
def Good (c : Cols) (on : String) (across : List String) (fs : List (DBFun Bool)) (fr : Frame) (a b x : Nat × Row) : Prop :=
  a ∈ fr ∧ b ∈ fr ∧ x ∈ fr ∧ Spec.legal on (userAcross across) a b x = true ∧ fs.all (fun f => Spec.holds c f a.2 b.2 x.2) = true

/-- the dummy across column identifies the item -/
def DumOK (across : List String) (fr : Frame) : Prop :=
  across = ["#across"] → ∀ p ∈ fr, ∀ q ∈ fr, p.2 "#across" = q.2 "#across" → p.1 = q.1

theorem legal_iff {on : String} {across : List String} {fr : Frame} (hd : Distinct fr) (hac : across ≠ [])
    (hdum : DumOK across fr) {key : List Val}
    {a b x : Nat × Row} (ha : a ∈ fr) (hb : b ∈ fr) (hx : x ∈ fr) (hk : keyOf (on :: across) a.2 = key) :
    (b ∈ bItems on across fr key ∧ x ∈ xItems on across fr key) ↔ Spec.legal on (userAcross across) a b x = true := by
  subst hk
  simp only [bItems, xItems, List.mem_filter, hb, hx, true_and, keyOf, List.map_cons, List.map_nil, List.tail_cons,
    List.take_succ_cons, List.take_zero, Spec.legal, userAcross]
  by_cases h : across = ["#across"]
  · have hl : (x.2 "#across" = a.2 "#across") ↔ x.1 = a.1 := by
      constructor
      · exact fun h' => hdum h x hx a ha h'
      · intro h'; rw [hd.inj hx ha h']
    simp only [h]
    simp [hl]
    tauto
  · have hz : ∀ (P : String × Val → Bool), (across.zip (across.map a.2)).all P = across.all (fun c => P (c, a.2 c)) := by
      intro P
      generalize across = l
      induction l with
      | nil => rfl
      | cons c l ih => simp [ih]
    have hne : across.isEmpty = false := by simpa using hac
    simp only [if_neg h, hz, hne]
    simp [h]
    tauto

structure LevelHyp (e : Env) (T : Task ρ) (L : Level ρ) (fs : List (DBFun Bool)) (fr0 : Frame) : Prop where
  lawful : e.Lawful
  mgr : mgr true T.cols fs = .ok T.filters
  avail : ∀ f ∈ fs, Avail T.cols f
  distinct : Distinct fr0
  frame : L.frame = fr0.filter (fun p => (T.filters.ops .generic).all (fun f => f.fn (fun v => p.2 v.1)))
  byf : ∀ p ∈ fr0, (T.filters.ops .by).all (fun f => f.fn (fun v => p.2 v.1)) = true
  fd : FD T.cols T.on T.across fr0
  cast : ∀ p ∈ L.frame, castNat L.type p.1 = p.1
  across : T.across ≠ []
  dum : DumOK T.across fr0
  size : fr0.length * fr0.length * fr0.length < 2 ^ 64

section
variable {e : Env} {T : Task ρ} {L : Level ρ} {fs : List (DBFun Bool)} {fr0 : Frame} (H : LevelHyp e T L fs fr0)
include H

theorem LevelHyp.sub {p : Nat × Row} (hp : p ∈ L.frame) : p ∈ fr0 := by
  rw [H.frame] at hp; exact (List.mem_filter.mp hp).1

theorem LevelHyp.distinctL : Distinct L.frame := by rw [H.frame]; exact H.distinct.filter _

theorem LevelHyp.sizeL : L.frame.length * L.frame.length * L.frame.length < 2 ^ 64 := by
  have : L.frame.length ≤ fr0.length := by rw [H.frame]; exact List.length_filter_le _ _
  exact Nat.lt_of_le_of_lt (mul3_le this this this) H.size

theorem LevelHyp.mgrOK : MgrOK true T.cols T.filters := mgr_ok H.mgr

theorem LevelHyp.availM : ∀ p ∈ T.filters, Avail T.cols p.op := fun p hp =>
  H.avail _ (by rw [← mgr_ops H.mgr]; exact List.mem_map_of_mem hp)

/-- which triples of items the stages of a block let through -/
theorem good_iff {key : List Val} {p : Nat × Row} (hp : p ∈ aItems T.on T.across L.frame key) (a b x : Nat × Row) :
    (pBlock T.cols T.filters p.2 = true ∧
      (a ∈ aItems T.on T.across L.frame key ∧ pA T.cols T.filters p.2 a = true) ∧
      (b ∈ bItems T.on T.across L.frame key ∧ pB T.cols T.filters p.2 b = true) ∧
      (x ∈ xItems T.on T.across L.frame key ∧ pX T.cols T.filters p.2 x = true) ∧
      pABX T.cols T.filters p.2 (a, b, x) = true) ↔
    Good T.cols T.on T.across fs fr0 a b x ∧ keyOf (T.on :: T.across) a.2 = key := by
  obtain ⟨hpL, hpk⟩ : p ∈ L.frame ∧ keyOf (T.on :: T.across) p.2 = key := by
    have := List.mem_filter.mp hp; simpa using this
  have hp0 := H.sub hpL
  have hgen : ∀ q, q ∈ L.frame ↔ q ∈ fr0 ∧ (T.filters.ops .generic).all (fun f => f.fn (fun v => q.2 v.1)) = true := by
    intro q; rw [H.frame]; exact List.mem_filter
  have hdumL : DumOK T.across L.frame := fun h p hp q hq => H.dum h p (H.sub hp) q (H.sub hq)
  -- the block's row shares the determined values
  have share : ∀ {a b x : Nat × Row}, a ∈ fr0 → b ∈ fr0 → x ∈ fr0 → keyOf (T.on :: T.across) a.2 = key → a.2 T.on = x.2 T.on →
      (∀ r ∈ T.cols.by_, p.2 r = a.2 r ∧ p.2 r = b.2 r ∧ p.2 r = x.2 r) ∧
      (∀ r ∈ T.cols.on, p.2 r = a.2 r ∧ p.2 r = x.2 r) ∧ (∀ r ∈ T.cols.across, p.2 r = a.2 r) := by
    intro a b x ha hb hx hk hax
    have hpa : p.2 T.on = a.2 T.on ∧ keyOf T.across p.2 = keyOf T.across a.2 := by
      rw [← hk] at hpk; simpa [keyOf] using hpk
    exact ⟨fun r hr => ⟨H.fd.by_ p hp0 a ha r hr, H.fd.by_ p hp0 b hb r hr, H.fd.by_ p hp0 x hx r hr⟩,
      fun r hr => ⟨H.fd.on p hp0 a ha hpa.1 r hr, H.fd.on p hp0 x hx (hpa.1.trans hax) r hr⟩,
      fun r hr => H.fd.across p hp0 a ha hpa.2 r hr⟩
  have legal_on : ∀ {a b x : Nat × Row} {ac}, Spec.legal T.on ac a b x = true → a.2 T.on = x.2 T.on := by
    intro a b x ac h; simp [Spec.legal] at h; exact h.1.1.1
  constructor
  · rintro ⟨h1, ⟨ha, h2⟩, ⟨hb, h3⟩, ⟨hx, h4⟩, h5⟩
    obtain ⟨haL, hak⟩ : a ∈ L.frame ∧ keyOf (T.on :: T.across) a.2 = key := by
      have := List.mem_filter.mp ha; simpa using this
    have hbL : b ∈ L.frame := (List.mem_filter.mp hb).1
    have hxL : x ∈ L.frame := (List.mem_filter.mp hx).1
    have hl := (legal_iff H.distinctL H.across hdumL haL hbL hxL hak).mp ⟨hb, hx⟩
    have ha0 := (hgen a).mp haL
    have hb0 := (hgen b).mp hbL
    have hx0 := (hgen x).mp hxL
    obtain ⟨s1, s2, s3⟩ := share ha0.1 hb0.1 hx0.1 hak (legal_on hl)
    exact ⟨⟨ha0.1, hb0.1, hx0.1, hl, (stages_holds H.mgr H.avail s1 s2 s3).mp
      ⟨H.byf p hp0, ⟨ha0.2, hb0.2, hx0.2⟩, h1, h2, h3, h4, h5⟩⟩, hak⟩
  · rintro ⟨⟨ha, hb, hx, hl, hf⟩, hak⟩
    obtain ⟨s1, s2, s3⟩ := share ha hb hx hak (legal_on hl)
    obtain ⟨_, ⟨g1, g2, g3⟩, h1, h2, h3, h4, h5⟩ := (stages_holds H.mgr H.avail s1 s2 s3).mpr hf
    have haL := (hgen a).mpr ⟨ha, g1⟩
    have hbL := (hgen b).mpr ⟨hb, g2⟩
    have hxL := (hgen x).mpr ⟨hx, g3⟩
    obtain ⟨kb, kx⟩ := (legal_iff H.distinctL H.across hdumL haL hbL hxL hak).mpr hl
    refine ⟨h1, ⟨?_, h2⟩, ⟨kb, h3⟩, ⟨kx, h4⟩, h5⟩
    simp [aItems, haL, hak]

theorem lab_inj {t u : (Nat × Row) × (Nat × Row) × (Nat × Row)} (h1 : t.1 ∈ fr0 ∧ t.2.1 ∈ fr0 ∧ t.2.2 ∈ fr0)
    (h2 : u.1 ∈ fr0 ∧ u.2.1 ∈ fr0 ∧ u.2.2 ∈ fr0) (h : lab t = lab u) : t = u := by
  obtain ⟨a, b, x⟩ := t
  obtain ⟨a', b', x'⟩ := u
  simp only [lab, Prod.mk.injEq] at h
  dsimp only at h1 h2
  rw [H.distinct.inj h1.1 h2.1 h.1, H.distinct.inj h1.2.1 h2.2.1 h.2.1, H.distinct.inj h1.2.2 h2.2.2 h.2.2]

/-- a block of a level: what `_compute_triplets` generates for a key -/
theorem blockTriplets_ok (hpos : Positional L.frame) {key : List Val}
    (hk : ∃ p ∈ L.frame, keyOf (T.on :: T.across) p.2 = key) :
    ∃ o, blockTriplets e T L key = .ok o ∧
      (∃ p ∈ aItems T.on T.across L.frame key, ∃ IB IX : Frame, IB.Perm (bItems T.on T.across L.frame key) ∧
        IX.Perm (xItems T.on T.across L.frame key) ∧
        o = if pBlock T.cols T.filters p.2 then
          some (p.2, blkOf T.cols T.filters p.2 ((aItems T.on T.across L.frame key).filter (pA T.cols T.filters p.2))
            (IB.filter (pB T.cols T.filters p.2)) (IX.filter (pX T.cols T.filters p.2))) else none) := by
  obtain ⟨p, hp, hrow⟩ := blockRow_ok (T := T) hpos hk
  obtain ⟨IB, IX, hB, hX, hot⟩ := onAcrossTriplets_ok H.lawful H.mgrOK H.availM H.distinctL H.cast H.across H.sizeL p.2 hk
  unfold blockTriplets
  simp only [hrow, onAcrossByFilter_ok H.mgrOK H.availM p.2 p.2 p.2 p.2]
  rw [show ((T.filters.ops .onAcrossBy).all fun f => f.fn (stageEnv T.cols p.2 p.2 p.2 p.2)) = pBlock T.cols T.filters p.2 from rfl]
  cases hb : pBlock T.cols T.filters p.2
  · exact ⟨none, rfl, p, hp, IB, IX, hB, hX, by simp [hb]⟩
  · exact ⟨_, by simp only [hot]; rfl, p, hp, IB, IX, hB, hX, by simp [hb]⟩

end
end ABX.Task
