import Verif.Proofs.TaskMain
/-! Output of a level whose blocks get the labels of another item. -/
namespace ABX.Task
open ExtSort SideOps Sampler
variable {α β ρ : Type}

/-- an operation that does not read the labels of the block sees of the block's row the columns determined by 'by' only -/
theorem stageEnv_rows {c : Cols} {f : DBFun β} (hf : Spec.readsLabels c f = false) {r r' : Row} (hb : ∀ q ∈ c.by_, r q = r' q) (a b x : Row) :
    f.fn (stageEnv c r a b x) = f.fn (stageEnv c r' a b x) := by
  apply f.ext
  intro v hv
  unfold Spec.readsLabels at hf
  rw [List.any_eq_false] at hf
  have := hf v hv
  unfold stageEnv
  by_cases hvb : v.1 ∈ c.by_
  · rw [if_pos (.inl hvb), if_pos (.inl hvb), hb v.1 hvb]
  · have hc : condition c v = true := by
      unfold condition
      simp only [List.contains_eq_mem, hvb, decide_false, Bool.not_false, Bool.true_and, Bool.not_eq_true, Bool.or_eq_false_iff, Bool.and_eq_false_iff] at this
      simp only [Bool.and_eq_true, Bool.not_eq_true', Bool.or_eq_false_iff, List.contains_eq_mem, Bool.and_eq_false_iff]
      exact this
    have hn : ¬ (v.1 ∈ c.by_ ∨ condition c v = false) := by rw [hc]; simp [hvb]
    rw [if_neg hn, if_neg hn]

theorem all_stage {m : Mgr Bool} {s : Stage} {g g' : DBFun Bool → Bool} (h : ∀ p ∈ m, p.stage = s → g p.op = g' p.op) : (m.ops s).all g = (m.ops s).all g' := by
  rw [Bool.eq_iff_iff, List.all_eq_true, List.all_eq_true]
  refine forall_congr' (fun f => forall_congr' (fun hf => ?_))
  obtain ⟨p, hp, hs, rfl⟩ := mem_ops.mp hf
  rw [h p hp hs]

section
variable {c : Cols} {m : Mgr Bool} (hm : MgrOK true c m) (hl : ∀ p ∈ m, Spec.readsLabels c p.op = false) {r r' : Row} (hb : ∀ q ∈ c.by_, r q = r' q)
include hm hl hb

theorem pBlock_rows : pBlock c m r = pBlock c m r' := by
  refine all_stage (fun p hp hs => ?_)
  rw [stageEnv_rows (hl p hp) hb]
  exact stageEnv_congr_block hm hp hs ..

theorem pA_rows : pA c m r = pA c m r' := by
  funext q
  refine all_stage (fun p hp hs => ?_)
  rw [stageEnv_rows (hl p hp) hb]
  exact stageEnv_congr_A hm hp hs ..

theorem pB_rows : pB c m r = pB c m r' := by
  funext q
  refine all_stage (fun p hp hs => ?_)
  rw [stageEnv_rows (hl p hp) hb]
  exact stageEnv_congr_B hm hp hs ..

theorem pX_rows : pX c m r = pX c m r' := by
  funext q
  refine all_stage (fun p hp hs => ?_)
  rw [stageEnv_rows (hl p hp) hb]
  exact stageEnv_congr_X hm hp hs ..

theorem pABX_rows : pABX c m r = pABX c m r' := by
  funext q
  exact all_stage (fun p hp _ => stageEnv_rows (hl p hp) hb ..)

end

section
variable {e : Env} {T : Task ρ} {L : Level ρ} {fs : List (DBFun Bool)} {fr0 : Frame} (H : LevelHyp e T L fs fr0)
include H

/-- the block of a key, whatever row its labels are taken from -/
theorem block_rows (hlab : ∀ f ∈ fs, Spec.readsLabels T.cols f = false) {key : List Val} {p q : Nat × Row} (hp : p ∈ aItems T.on T.across L.frame key)
    (hq : q ∈ L.frame) {IB IX : Frame} (hB : IB.Perm (bItems T.on T.across L.frame key)) (hX : IX.Perm (xItems T.on T.across L.frame key)) :
    BlockTri T.cols T.on T.across fs fr0 key (if pBlock T.cols T.filters q.2 then
          blkTri T.cols T.filters q.2 ((aItems T.on T.across L.frame key).filter (pA T.cols T.filters q.2))
            (IB.filter (pB T.cols T.filters q.2)) (IX.filter (pX T.cols T.filters q.2)) else []) := by
  have hl : ∀ p ∈ T.filters, Spec.readsLabels T.cols p.op = false := fun p hp => hlab _ (by rw [← mgr_ops H.mgr]; exact List.mem_map_of_mem hp)
  have hb : ∀ r ∈ T.cols.by_, q.2 r = p.2 r := fun r hr => H.fd.by_ q (H.sub hq) p (H.sub (List.mem_filter.mp hp).1) r hr
  rw [pBlock_rows H.mgrOK hl hb, pA_rows H.mgrOK hl hb, pB_rows H.mgrOK hl hb, pX_rows H.mgrOK hl hb]
  unfold blkTri
  rw [pABX_rows H.mgrOK hl hb]
  exact block_tri H hp hB hX

/-- the output of a block that gets the labels of another item: its triplets -/
theorem blockOut_rows {rs : List (DBFun Nat)} (R : RegHyp T rs) (hlab : ∀ f ∈ fs, Spec.readsLabels T.cols f = false) {N : Num} (ha : ArgsortLaw N.argsort)
    {src : List Val → List Val → Nat → Src} {byR : List Nat} {key : List Val}
    (hk : ∃ p ∈ L.frame, keyOf (T.on :: T.across) p.2 = key) {o : Option BlkOut}
    (h : blockOut e N 0 src T L byR key = .ok o) :
    ∃ S S' : List Tri, BlockTri T.cols T.on T.across fs fr0 key S ∧ tripsOf o = S'.map lab ∧ S'.Perm S := by
  obtain ⟨p, hp1, hp2⟩ := hk
  have hp : p ∈ aItems T.on T.across L.frame key := by simp [aItems, hp1, hp2]
  unfold blockOut at h
  cases hbt : blockTriplets e T L key with
  | error er => rw [hbt] at h; cases h
  | ok ob =>
    rw [hbt] at h
    unfold blockTriplets blockRow at hbt
    rw [groupLabels_ok ⟨p, hp1, hp2⟩] at hbt
    rw [show groupFrame L.frame (T.on :: T.across) key = aItems T.on T.across L.frame key from rfl] at hbt
    dsimp only at hbt
    cases hl0 : ((aItems T.on T.across L.frame key).map (·.1))[0]? with
    | none => rw [hl0] at hbt; cases hbt
    | some l =>
      rw [hl0] at hbt
      unfold iloc at hbt
      dsimp only at hbt
      cases hq : L.frame[l]? with
      | none => rw [hq] at hbt; cases hbt
      | some q =>
        rw [hq] at hbt
        have hqm := List.mem_of_getElem? hq
        dsimp only at hbt
        rw [onAcrossByFilter_ok H.mgrOK H.availM q.2 q.2 q.2 q.2, show ((T.filters.ops .onAcrossBy).all fun f => f.fn (stageEnv T.cols q.2 q.2 q.2 q.2)) = pBlock T.cols T.filters q.2 from rfl] at hbt
        obtain ⟨IB, IX, hB, hX, hot⟩ := onAcrossTriplets_ok H.lawful H.mgrOK H.availM H.distinctL H.cast H.across H.sizeL q.2 ⟨p, hp1, hp2⟩
        have htri := block_rows H hlab hp hqm hB hX
        cases hpb : pBlock T.cols T.filters q.2 with
        | false =>
          rw [hpb] at hbt htri
          simp only [Bool.false_eq_true, if_false] at htri
          cases hbt
          cases h
          exact ⟨[], [], htri, rfl, .refl _⟩
        | true =>
          rw [hpb] at hbt htri
          simp only [if_true] at htri
          dsimp only at hbt
          rw [hot] at hbt
          cases hbt
          dsimp only at h
          rw [onAcrossByRegs_ok R.mgrOK R.availM] at h
          simp only [] at h
          split at h
          · cases h
          rename_i out hout
          cases h
          obtain ⟨f1, w, f2, f3, f4⟩ := finishBlock_ok (A := (aItems T.on T.across L.frame key).filter (pA T.cols T.filters q.2)) R.mgrOK R.availM H.distinctL
            (fun q hq => (List.mem_filter.mp (List.mem_filter.mp hq).1).1)
            (fun q hq => (List.mem_filter.mp (hB.mem_iff.mp (List.mem_filter.mp hq).1)).1)
            (fun q hq => (List.mem_filter.mp (hX.mem_iff.mp (List.mem_filter.mp hq).1)).1) hout
          obtain ⟨S', s1, s2, _⟩ := sortBlock_zero ha f2
          exact ⟨_, S', htri, s2, s1⟩

theorem levelOut_rows {rs : List (DBFun Nat)} (R : RegHyp T rs) (hlab : ∀ f ∈ fs, Spec.readsLabels T.cols f = false) {N : Num} (ha : ArgsortLaw N.argsort)
    {src : List Val → List Val → Nat → Src} {os : List BlkOut} (h : levelOut e N 0 src T L = .ok os) :
    ∃ S' : List Tri, os.flatMap BlkOut.trips = S'.map lab ∧ S'.Perm (Spec.itemTriplets T.cols T.on (userAcross T.across) fs fr0) := by
  unfold levelOut at h
  split at h
  · cases h
  split at h
  · cases h
  rename_i byR _
  split at h
  · cases h
  rename_i outs houts
  cases h
  have hF := sequence_inv houts
  have key : ∀ (keys : List (List Val)) (outs : List (Option BlkOut)), (∀ k ∈ keys, ∃ p ∈ L.frame, keyOf (T.on :: T.across) p.2 = k) →
      List.Forall₂ (fun k o => blockOut e N 0 src T L byR k = .ok o) keys outs →
      ∃ Ss, ∃ S' : List Tri, List.Forall₂ (fun key S => BlockTri T.cols T.on T.across fs fr0 key S) keys Ss ∧ (outs.filterMap id).flatMap BlkOut.trips = S'.map lab ∧
        S'.Perm Ss.flatten := by
    intro keys outs hk hF
    induction hF with
    | nil => exact ⟨[], [], .nil, rfl, .refl _⟩
    | @cons k o ks os h0 _ ih =>
      obtain ⟨Ss, S2, i1, i2, i3⟩ := ih (fun k hk' => hk k (by simp [hk']))
      obtain ⟨S, S1, j1, j2, j3⟩ := blockOut_rows H R hlab ha (hk k (by simp)) h0
      refine ⟨S :: Ss, S1 ++ S2, .cons j1 i1, ?_, by rw [List.flatten_cons]; exact j3.append i3⟩
      rw [List.map_append, ← j2, ← i2]
      cases o with
      | none => rfl
      | some o => rfl
  obtain ⟨Ss, S', hS, ht, hp⟩ := key _ _ (fun k hk => (mem_groupKeys H.lawful).mp hk) hF
  exact ⟨S', ht, hp.trans (tri_perm H.distinct.nodup (nodup_groupKeys H.lawful) (fun _ _ _ hg => good_key H "gen" hg) hS)⟩

end
end ABX.Task
