import Verif.Proofs.TaskMain
import Mathlib.Tactic.Tauto
/-! The statistics count the triplets. -/
namespace ABX.Task
open ExtSort SideOps Sampler
variable {α β γ ρ : Type}

theorem filter_length_sub {l : List α} {P Q R : α → Bool} (h : ∀ x ∈ l, (P x = (Q x || R x)) ∧ (Q x && R x) = false) :
    (l.filter P).length = (l.filter Q).length + (l.filter R).length := by
  induction l with
  | nil => rfl
  | cons x l ih =>
    have ih := ih (fun y hy => h y (by simp [hy]))
    obtain ⟨h1, h2⟩ := h x (by simp)
    simp only [List.filter_cons]
    cases hq : Q x <;> cases hr : R x <;> simp [hq, hr] at h1 h2 <;> simp [h1, ih] <;> omega

theorem ok_fst {x y u v : Int} (h : x = y) : ∃ p1 p2, (Except.ok (x, u, v) : Except Err (Int × Int × Int)) = .ok (y, p1, p2) :=
  ⟨u, v, by rw [h]⟩

section
variable {e : Env} {T : Task ρ} {L : Level ρ} {fs : List (DBFun Bool)} {fr0 : Frame} (H : LevelHyp e T L fs fr0)
include H

/-- the statistics of a block, whatever the row used for its labels: the size of the triplets `blkTri` -/
theorem blockStats_row {key : List Val} (hk : ∃ p ∈ L.frame, keyOf (T.on :: T.across) p.2 = key) {row : Row}
    (hrow : blockRow T L key = .ok ((aItems T.on T.across L.frame key).map (·.1), row)) :
    ∃ IB IX : Frame, IB.Perm (bItems T.on T.across L.frame key) ∧ IX.Perm (xItems T.on T.across L.frame key) ∧
      (∃ p1 p2, blockStats e T L key = .ok (((if pBlock T.cols T.filters row then
          blkTri T.cols T.filters row ((aItems T.on T.across L.frame key).filter (pA T.cols T.filters row))
            (IB.filter (pB T.cols T.filters row)) (IX.filter (pX T.cols T.filters row)) else []).length : Nat), p1, p2)) ∧
      blockTriplets e T L key = .ok (if pBlock T.cols T.filters row then
          some (row, blkOf T.cols T.filters row ((aItems T.on T.across L.frame key).filter (pA T.cols T.filters row))
            (IB.filter (pB T.cols T.filters row)) (IX.filter (pX T.cols T.filters row))) else none) := by
  obtain ⟨IB, IX, hB, hX, hot⟩ := onAcrossTriplets_ok H.lawful H.mgrOK H.availM H.distinctL H.cast H.across H.sizeL row hk
  refine ⟨IB, IX, hB, hX, ?_, ?_⟩
  swap
  · unfold blockTriplets
    simp only [hrow, onAcrossByFilter_ok H.mgrOK H.availM row row row row]
    rw [show ((T.filters.ops .onAcrossBy).all fun f => f.fn (stageEnv T.cols row row row row)) = pBlock T.cols T.filters row from rfl]
    cases hb : pBlock T.cols T.filters row
    · rfl
    · simp only [hot]; rfl
  unfold blockStats
  simp only [hrow, onAcrossByFilter_ok H.mgrOK H.availM row row row row]
  rw [show ((T.filters.ops .onAcrossBy).all fun f => f.fn (stageEnv T.cols row row row row)) = pBlock T.cols T.filters row from rfl]
  cases hb : pBlock T.cols T.filters row
  · exact ⟨0, 0, by simp⟩
  simp only [if_true]
  obtain ⟨q, hq, hqk⟩ := hk
  have hkey : key = q.2 T.on :: keyOf T.across q.2 := by rw [← hqk]; rfl
  subst hkey
  simp only []
  rw [show groupLabels L.frame [T.on] [q.2 T.on] = .ok ((groupFrame L.frame [T.on] [q.2 T.on]).map (·.1)) from groupLabels_ok ⟨q, hq, rfl⟩]
  simp only []
  have hnB : (if T.across = ["#across"] then Except.ok ((L.frame.length : Int) - ((groupFrame L.frame [T.on] [q.2 T.on]).map (·.1)).length)
      else .ok ((((groupFrame L.frame T.across (keyOf T.across q.2)).map (·.1)).length : Int) - ((aItems T.on T.across L.frame (q.2 T.on :: keyOf T.across q.2)).map (·.1)).length)) =
      (Except.ok (IB.length : Int) : Except Err Int) := by
    rw [hB.length_eq]
    split
    · rename_i hd
      congr 1
      have : (L.frame.filter (fun _ => true)).length = (groupFrame L.frame [T.on] [q.2 T.on]).length +
          (bItems T.on T.across L.frame (q.2 T.on :: keyOf T.across q.2)).length := by
        unfold groupFrame bItems
        apply filter_length_sub
        intro x _
        rw [hd]
        simp [keyOf]
      rw [List.filter_true] at this
      simp only [List.length_map]
      omega
    · rename_i hd
      simp only [List.length_map]
      congr 1
      have : (groupFrame L.frame T.across (keyOf T.across q.2)).length = (aItems T.on T.across L.frame (q.2 T.on :: keyOf T.across q.2)).length +
          (bItems T.on T.across L.frame (q.2 T.on :: keyOf T.across q.2)).length := by
        unfold groupFrame aItems bItems
        apply filter_length_sub
        intro x _
        simp only [keyOf, List.map_cons, List.map_nil, List.tail_cons, List.take_succ_cons, List.take_zero]
        refine ⟨?_, ?_⟩ <;> rw [Bool.eq_iff_iff] <;> simp [hd] <;> tauto
      omega
  rw [show groupLabels L.frame T.across (keyOf T.across q.2) = .ok ((groupFrame L.frame T.across (keyOf T.across q.2)).map (·.1)) from
    groupLabels_ok ⟨q, hq, rfl⟩]
  simp only []
  rw [hnB]
  simp only []
  have hX' : ¬ (keyOf T.across q.2).length > 1 → ((groupFrame L.frame [T.on] [q.2 T.on]).map (·.1)).length =
      (aItems T.on T.across L.frame (q.2 T.on :: keyOf T.across q.2)).length + IX.length := by
    intro hlen
    rw [hX.length_eq, List.length_map]
    obtain ⟨c, hc⟩ : ∃ c, T.across = [c] := by
      have h1 := H.across
      have h2 : T.across.length ≤ 1 := by simpa [keyOf] using hlen
      cases hT : T.across with
      | nil => exact absurd hT h1
      | cons c l =>
        rw [hT] at h2
        simp at h2
        exact ⟨c, by rw [h2]⟩
    unfold groupFrame aItems xItems
    apply filter_length_sub
    intro x _
    rw [hc]
    simp only [keyOf, List.map_cons, List.map_nil, List.tail_cons, List.take_succ_cons, List.take_zero]
    refine ⟨?_, ?_⟩ <;> rw [Bool.eq_iff_iff] <;> simp <;> tauto
  split
  · rename_i hnf
    simp only [Bool.and_eq_true, List.isEmpty_iff, Bool.not_eq_true', decide_eq_false_iff_not] at hnf
    obtain ⟨⟨⟨⟨n1, n2⟩, n3⟩, n4⟩, n5⟩ := hnf
    apply ok_fst
    have hS : (blkTri T.cols T.filters row ((aItems T.on T.across L.frame (q.2 T.on :: keyOf T.across q.2)).filter (pA T.cols T.filters row))
            (IB.filter (pB T.cols T.filters row)) (IX.filter (pX T.cols T.filters row))).length =
        (aItems T.on T.across L.frame (q.2 T.on :: keyOf T.across q.2)).length * IB.length * IX.length := by
      have e1 : ∀ (l : Frame), l.filter (pA T.cols T.filters row) = l := fun l => List.filter_eq_self.mpr (fun _ _ => by simp [pA, n1])
      have e2 : ∀ (l : Frame), l.filter (pB T.cols T.filters row) = l := fun l => List.filter_eq_self.mpr (fun _ _ => by simp [pB, n2])
      have e3 : ∀ (l : Frame), l.filter (pX T.cols T.filters row) = l := fun l => List.filter_eq_self.mpr (fun _ _ => by simp [pX, n3])
      have e4 : ∀ (l : List Tri), l.filter (pABX T.cols T.filters row) = l := fun l => List.filter_eq_self.mpr (fun _ _ => by simp [pABX, n4])
      rw [blkTri, e1, e2, e3, e4, prod3_length]
    rw [hS]
    have := hX' (by simpa using n5)
    have e : (((groupFrame L.frame [T.on] [q.2 T.on]).map (·.1)).length : Int) -
        ((aItems T.on T.across L.frame (q.2 T.on :: keyOf T.across q.2)).map (·.1)).length = IX.length := by
      rw [List.length_map (as := aItems ..)]
      omega
    have e5 : ((aItems T.on T.across L.frame (q.2 T.on :: keyOf T.across q.2)).map (·.1)).length =
        (aItems T.on T.across L.frame (q.2 T.on :: keyOf T.across q.2)).length := List.length_map _
    rw [e, e5]
    push_cast
    rfl
  · rw [hot]
    apply ok_fst
    simp only [blkOf, List.length_map, blkTri]

theorem blockStats_ok (hpos : Positional L.frame) {key : List Val} (hk : ∃ p ∈ L.frame, keyOf (T.on :: T.across) p.2 = key) :
    ∃ S : List Tri, BlockTri T.cols T.on T.across fs fr0 key S ∧ ∃ p1 p2, blockStats e T L key = .ok ((S.length : Nat), p1, p2) := by
  obtain ⟨p, hp, hrow⟩ := blockRow_ok (T := T) hpos hk
  obtain ⟨IB, IX, hB, hX, h1, _⟩ := blockStats_row H hk hrow
  exact ⟨_, block_tri H hp hB hX, h1⟩

/-- statistics and generation agree on a block, whatever the labels -/
theorem block_count {rs : List (DBFun Nat)} (R : RegHyp T rs) {N : Num} (ha : ArgsortLaw N.argsort) {src : List Val → List Val → Nat → Src} {byR : List Nat}
    {key : List Val} (hk : ∃ p ∈ L.frame, keyOf (T.on :: T.across) p.2 = key) {s : Int × Int × Int} (hs : blockStats e T L key = .ok s)
    {o : Option BlkOut} (ho : blockOut e N 0 src T L byR key = .ok o) : s.1 = ((tripsOf o).length : Nat) := by
  have hrow : ∃ row, blockRow T L key = .ok ((aItems T.on T.across L.frame key).map (·.1), row) := by
    cases hr : blockRow T L key with
    | error er => unfold blockStats at hs; rw [hr] at hs; cases hs
    | ok r =>
      obtain ⟨block, row⟩ := r
      refine ⟨row, ?_⟩
      unfold blockRow at hr
      rw [groupLabels_ok hk] at hr
      dsimp only at hr
      split at hr
      · cases hr
      split at hr
      · cases hr
      injection hr with hr
      rw [Prod.mk.injEq] at hr
      rw [← hr.1]; rfl
  obtain ⟨row, hrow⟩ := hrow
  obtain ⟨IB, IX, hB, hX, ⟨p1, p2, h1⟩, h2⟩ := blockStats_row H hk hrow
  rw [h1] at hs
  injection hs with hs
  rw [← hs]
  unfold blockOut at ho
  rw [h2] at ho
  dsimp only
  cases hpb : pBlock T.cols T.filters row
  · rw [hpb] at ho
    simp only [Bool.false_eq_true, if_false, Except.ok.injEq] at ho ⊢
    rw [← ho]; rfl
  · rw [hpb] at ho
    simp only [if_true] at ho ⊢
    rw [onAcrossByRegs_ok R.mgrOK R.availM] at ho
    simp only [] at ho
    split at ho
    · cases ho
    rename_i out hout
    injection ho with ho
    rw [← ho]
    have sub : ∀ (P Q : Nat × Row → Bool) q, q ∈ (L.frame.filter P).filter Q → q ∈ L.frame := fun P Q q hq =>
      (List.mem_filter.mp (List.mem_filter.mp hq).1).1
    obtain ⟨f1, q, f2, f3, f4⟩ := finishBlock_ok (A := (aItems T.on T.across L.frame key).filter (pA T.cols T.filters row)) R.mgrOK R.availM H.distinctL (sub _ _)
      (fun q hq => (List.mem_filter.mp (hB.mem_iff.mp (List.mem_filter.mp hq).1)).1)
      (fun q hq => (List.mem_filter.mp (hX.mem_iff.mp (List.mem_filter.mp hq).1)).1) hout
    obtain ⟨S'', s1, s2, s3⟩ := sortBlock_zero ha f2
    show _ = ((out.trips.length : Nat) : Int)
    rw [s2, List.length_map, s1.length_eq]

/-- ... and on a level -/
theorem level_count {rs : List (DBFun Nat)} (R : RegHyp T rs) {N : Num} (ha : ArgsortLaw N.argsort) {src : List Val → List Val → Nat → Src}
    {n : Int} (hn : levelNbTriplets e T L = .ok n) {os : List BlkOut} (ho : levelOut e N 0 src T L = .ok os) :
    n = ((os.flatMap BlkOut.trips).length : Nat) := by
  unfold levelNbTriplets levelStats at hn
  cases hs : sequence ((groupKeys e "stats" (T.on :: T.across) L.frame).map (fun k => (blockStats e T L k).map (fun s => (k, s)))) with
  | error er => rw [hs] at hn; cases hn
  | ok l =>
    rw [hs] at hn
    simp only [Except.map, Except.ok.injEq] at hn
    unfold levelOut at ho
    split at ho
    · cases ho
    rename_i row0 hrow0
    split at ho
    · cases ho
    rename_i byR hby
    split at ho
    · cases ho
    rename_i outs houts
    injection ho with ho
    have hF := sequence_inv hs
    have hG := sequence_inv houts
    -- every block has a size
    let f : List Val → Nat := fun k => match blockStats e T L k with
      | .ok s => s.1.toNat
      | .error _ => 0
    have e1 : (l.map (fun p => p.2.1)).sum = (((groupKeys e "stats" (T.on :: T.across) L.frame).map f).sum : Nat) ∧
        ∀ k ∈ groupKeys e "stats" (T.on :: T.across) L.frame, ∃ s, blockStats e T L k = .ok s := by
      have hmem : ∀ k ∈ groupKeys e "stats" (T.on :: T.across) L.frame, ∃ p ∈ L.frame, keyOf (T.on :: T.across) p.2 = k := fun k hk => (mem_groupKeys H.lawful).mp hk
      revert hmem
      have hbl : ∀ k ∈ groupKeys e "gen" (T.on :: T.across) L.frame, ∃ o, blockOut e N 0 src T L byR k = .ok o := by
        intro k hk
        obtain ⟨o, _, h⟩ := forall₂_mem_left hG k hk
        exact ⟨o, h⟩
      have hall : ∀ k, (∃ p ∈ L.frame, keyOf (T.on :: T.across) p.2 = k) → ∃ o, blockOut e N 0 src T L byR k = .ok o := fun k hk => hbl k ((mem_groupKeys H.lawful).mpr hk)
      generalize groupKeys e "stats" (T.on :: T.across) L.frame = keys at hF
      clear hn hs
      induction hF with
      | nil => intro _; exact ⟨rfl, by simp⟩
      | @cons k z ks l h _ ih =>
        intro hm
        obtain ⟨i1, i2⟩ := ih (fun k' hk' => hm k' (by simp [hk']))
        cases hb : blockStats e T L k with
        | error er => rw [hb] at h; cases h
        | ok s =>
          rw [hb] at h
          simp only [Except.map, Except.ok.injEq] at h
          obtain ⟨o, ho'⟩ := hall k (hm k (by simp))
          have hc := block_count H R ha (hm k (by simp)) hb ho'
          constructor
          · rw [List.map_cons, List.sum_cons, i1, List.map_cons, List.sum_cons, ← h]
            have : f k = (tripsOf o).length := by simp only [f, hb, hc]; rfl
            rw [this]
            dsimp only
            rw [hc]; push_cast; rfl
          · intro k' hk'
            rcases List.mem_cons.mp hk' with rfl | hk'
            · exact ⟨s, hb⟩
            · exact i2 k' hk'
    have e2 : (os.flatMap BlkOut.trips).length = ((groupKeys e "gen" (T.on :: T.across) L.frame).map f).sum := by
      rw [← ho]
      have hmem : ∀ k ∈ groupKeys e "gen" (T.on :: T.across) L.frame, ∃ p ∈ L.frame, keyOf (T.on :: T.across) p.2 = k := fun k hk => (mem_groupKeys H.lawful).mp hk
      have hst : ∀ k, (∃ p ∈ L.frame, keyOf (T.on :: T.across) p.2 = k) → ∃ s, blockStats e T L k = .ok s := fun k hk => e1.2 k ((mem_groupKeys H.lawful).mpr hk)
      revert hmem
      generalize groupKeys e "gen" (T.on :: T.across) L.frame = keys at hG
      clear houts ho
      induction hG with
      | nil => intro _; rfl
      | @cons k o ks outs h _ ih =>
        intro hm
        have i1 := ih (fun k' hk' => hm k' (by simp [hk']))
        obtain ⟨s, hs'⟩ := hst k (hm k (by simp))
        have hc := block_count H R ha (hm k (by simp)) hs' h
        have : f k = (tripsOf o).length := by simp only [f, hs', hc]; rfl
        rw [List.map_cons, List.sum_cons, ← i1, this]
        cases o with
        | none => rw [List.filterMap_cons_none rfl]; simp [tripsOf]
        | some o => rw [List.filterMap_cons_some (f := id) (a := some o) (b := o) rfl, List.flatMap_cons, List.length_append]; rfl
    rw [← hn, e1.1, e2]
    congr 1
    refine List.Perm.sum_nat (List.Perm.map _ ?_)
    unfold groupKeys
    exact (H.lawful.groups _ _).trans (H.lawful.groups _ _).symm

/-- the number of triplets of a level -/
theorem levelNbTriplets_ok (hpos : Positional L.frame) :
    levelNbTriplets e T L = .ok ((Spec.itemTriplets T.cols T.on (userAcross T.across) fs fr0).length : Nat) ∧
    ∃ l, levelStats e T L = .ok l ∧ List.Forall₂ (fun key z => z.1 = key ∧ ∃ S : List Tri, BlockTri T.cols T.on T.across fs fr0 key S ∧ z.2.1 = ((S.length : Nat) : Int))
      (groupKeys e "stats" (T.on :: T.across) L.frame) l := by
  have hex : ∃ l, levelStats e T L = .ok l ∧ List.Forall₂ (fun key z => z.1 = key ∧ ∃ S : List Tri, BlockTri T.cols T.on T.across fs fr0 key S ∧ z.2.1 = ((S.length : Nat) : Int))
      (groupKeys e "stats" (T.on :: T.across) L.frame) l := by
    apply sequence_exists
    intro key hkey
    obtain ⟨S, hS, p1, p2, hb⟩ := blockStats_ok H hpos ((mem_groupKeys H.lawful).mp hkey)
    exact ⟨(key, ((S.length : Nat), p1, p2)), by rw [hb]; rfl, rfl, S, hS, rfl⟩
  refine ⟨?_, hex⟩
  obtain ⟨l, hl, hF⟩ := hex
  unfold levelNbTriplets
  rw [hl]
  simp only [Except.map]
  congr 1
  have : ∃ Ss : List (List Tri), List.Forall₂ (fun key S => BlockTri T.cols T.on T.across fs fr0 key S) (groupKeys e "stats" (T.on :: T.across) L.frame) Ss ∧
      (l.map (fun p => p.2.1)).sum = (Ss.flatten.length : Nat) := by
    generalize groupKeys e "stats" (T.on :: T.across) L.frame = keys at hF
    clear hl
    induction hF with
    | nil => exact ⟨[], .nil, rfl⟩
    | @cons k z ks l h _ ih =>
      obtain ⟨_, S, hS, hz⟩ := h
      obtain ⟨Ss, h1, h2⟩ := ih
      refine ⟨S :: Ss, .cons hS h1, ?_⟩
      rw [List.map_cons, List.sum_cons, h2, hz, List.flatten_cons, List.length_append]
      push_cast; rfl
  obtain ⟨Ss, h1, h2⟩ := this
  rw [h2, (tri_perm H.distinct.nodup (nodup_groupKeys H.lawful) (fun _ _ _ hg => good_key H "stats" hg) h1).length_eq]

end

/-- ... in terms of the item table -/
theorem levelNb_main {e : Env} (he : e.Lawful) {a : Args ρ} (ha : a.OK) {T : Task ρ} (h : init e a = .ok T) {L : Level ρ} (hL : L ∈ T.levels)
    (hpos : Positional L.frame) : levelNbTriplets e T L = .ok ((tripsSpec a L.key).length : Nat) := by
  obtain ⟨fr0, I⟩ := init_level he ha h hL
  obtain ⟨h1, h2, h3, h4⟩ := checkDatabase_ok (init_ok h).1
  rw [(levelNbTriplets_ok I.hyp hpos).1]
  have sim : List.Forall₂ (Sim3 a.columns) (Spec.itemTriplets T.cols T.on (userAcross T.across) a.filters fr0) (tripsSpec a L.key) := by
    rw [I.cols, I.on, I.across]
    exact itemTriplets_sim h1 h2 ha.inF I.sim
  rw [sim.length_eq]

theorem nbTriplets_main {e : Env} (he : e.Lawful) {a : Args ρ} (ha : a.OK) {T : Task ρ} (h : init e a = .ok T)
    (hpos : ∀ L ∈ T.levels, Positional L.frame) :
    nbTriplets e T = .ok (((T.levels.map (fun L => (tripsSpec a L.key).length)).sum : Nat) : Int) := by
  unfold nbTriplets
  have : sequence (T.levels.map (levelNbTriplets e T)) = .ok (T.levels.map (fun L => ((tripsSpec a L.key).length : Int))) :=
    sequence_map_ok (fun L hL => levelNb_main he ha h hL (hpos L hL))
  rw [this]
  simp only [Except.map]
  congr 1
  generalize T.levels = ls
  induction ls with
  | nil => rfl
  | cons L ls ih => simp only [List.map_cons, List.sum_cons, ih]; push_cast; rfl

end ABX.Task
