import Verif.Proofs.TaskProp
/-!
Helper lemmas: the items of the triplets of a level are items of the level, whatever the filters; the levels that remain
after the deletion of the empty ones are those of the task file.
-/
namespace ABX.Task
open ExtSort SideOps Sampler

theorem groupLabels_mem {fr : Frame} {cols : List String} {key : List Val} {g : List Nat} (h : groupLabels fr cols key = .ok g) :
    ∀ l ∈ g, l ∈ fr.map (·.1) := by
  unfold groupLabels at h
  split at h
  · cases h
  rename_i g' hg
  cases h
  intro l hl
  obtain ⟨p, hp, rfl⟩ := List.mem_map.mp hl
  exact List.mem_map_of_mem (List.mem_filter.mp hp).1

theorem candidates_mem {e : Env} (he : e.Lawful) {T : Task ρ} {L : Level ρ} (ht : ∀ p ∈ L.frame, castNat L.type p.1 = p.1) {key : List Val} {block A B X : List Nat}
    (hb : ∀ l ∈ block, l ∈ L.frame.map (·.1)) (h : candidates e T L key block = .ok (A, B, X)) :
    (∀ l ∈ A, l ∈ L.frame.map (·.1)) ∧ (∀ l ∈ B, l ∈ L.frame.map (·.1)) ∧ (∀ l ∈ X, l ∈ L.frame.map (·.1)) := by
  have hc : ∀ {M : List Nat}, (∀ l ∈ M, l ∈ L.frame.map (·.1)) → ∀ l ∈ M.map (castNat L.type), l ∈ L.frame.map (·.1) := by
    intro M hM l hl
    obtain ⟨m, hm, rfl⟩ := List.mem_map.mp hl
    obtain ⟨p, hp, rfl⟩ := List.mem_map.mp (hM m hm)
    rw [ht p hp]
    exact List.mem_map_of_mem hp
  unfold candidates at h
  split at h
  · cases h
  rename_i on across
  dsimp only at h
  split at h
  · cases h
  rename_i onSet hon
  split at h
  · cases h
  rename_i B' hB
  simp only [Except.ok.injEq, Prod.mk.injEq] at h
  obtain ⟨rfl, rfl, rfl⟩ := h
  refine ⟨hc hb, hc ?_, hc ?_⟩
  · intro l hl
    split at hB
    · cases hB
      rw [(he.sets _ _ _).mem_iff] at hl
      exact List.mem_dedup.mp (List.mem_filter.mp hl).1
    · split at hB
      · cases hB
      rename_i g hg
      cases hB
      rw [(he.sets _ _ _).mem_iff] at hl
      exact groupLabels_mem hg l (List.mem_dedup.mp (List.mem_filter.mp hl).1)
  · intro l hl
    split at hl
    · rw [(he.sets _ _ _).mem_iff] at hl
      have := (List.mem_filter.mp hl).2
      exact groupLabels_mem hon l (by simpa using this)
    · rw [(he.sets _ _ _).mem_iff] at hl
      exact groupLabels_mem hon l (List.mem_dedup.mp (List.mem_filter.mp hl).1)

theorem singletonStage_mem {ops : List (DBFun Bool)} {f : List Row → Except Err (List Nat)} {fr : Frame} {items r : List Nat}
    (h : singletonStage ops f fr items = .ok r) : ∀ l ∈ r, l ∈ items := by
  unfold singletonStage at h
  split at h
  · cases h; exact fun l hl => hl
  split at h
  · cases h
  split at h
  · cases h
  exact mem_of_gather h

theorem combine_mem {m : Mgr Bool} {fr : Frame} {row : Row} {A B X : List Nat} {b : Blk} (h : combine m fr row A B X = .ok b) :
    ∀ t ∈ b.trips, t.1 ∈ A ∧ t.2.1 ∈ B ∧ t.2.2 ∈ X := by
  have hz : ∀ {iA iB iX a' b' x' : List Nat}, gather A iA = .ok a' → gather B iB = .ok b' → gather X iX = .ok x' →
      ∀ t ∈ a'.zip (b'.zip x'), t.1 ∈ A ∧ t.2.1 ∈ B ∧ t.2.2 ∈ X := by
    intro iA iB iX a' b' x' h1 h2 h3 t ht
    obtain ⟨t1, t2, t3⟩ := t
    have k1 := List.of_mem_zip ht
    have k2 := List.of_mem_zip k1.2
    exact ⟨mem_of_gather h1 _ k1.1, mem_of_gather h2 _ k2.1, mem_of_gather h3 _ k2.2⟩
  unfold combine at h
  dsimp only at h
  split at h
  · split at h
    · cases h
    split at h
    · cases h
    rename_i a' ha
    split at h
    · cases h
    rename_i b' hb
    split at h
    · cases h
    rename_i x' hx
    split at h
    · cases h; exact hz ha hb hx
    split at h
    · cases h
    split at h
    · cases h
    split at h
    · cases h
    split at h
    · cases h
    split at h
    · cases h
    rename_i trips hg
    cases h
    exact fun t ht => hz ha hb hx t (mem_of_gather hg t ht)
  · cases h
    intro t ht
    cases ht

theorem blockTriplets_mem {e : Env} (he : e.Lawful) {T : Task ρ} {L : Level ρ} (ht : ∀ p ∈ L.frame, castNat L.type p.1 = p.1) {key : List Val} {row : Row} {b : Blk}
    (h : blockTriplets e T L key = .ok (some (row, b))) :
    ∀ t ∈ b.trips, t.1 ∈ L.frame.map (·.1) ∧ t.2.1 ∈ L.frame.map (·.1) ∧ t.2.2 ∈ L.frame.map (·.1) := by
  unfold blockTriplets at h
  split at h
  · cases h
  rename_i block row' hbr
  split at h
  · cases h
  · cases h
  split at h
  · cases h
  rename_i b' hb
  cases h
  have hblock : ∀ l ∈ block, l ∈ L.frame.map (·.1) := by
    unfold blockRow at hbr
    split at hbr
    · cases hbr
    rename_i blk hg
    split at hbr
    · cases hbr
    split at hbr
    · cases hbr
    cases hbr
    exact groupLabels_mem hg
  unfold onAcrossTriplets at hb
  split at hb
  · cases hb
  rename_i A B X hc
  obtain ⟨c1, c2, c3⟩ := candidates_mem he ht hblock hc
  split at hb
  · cases hb
  rename_i A' hA
  split at hb
  · cases hb
  rename_i B' hB
  split at hb
  · cases hb
  rename_i X' hX
  intro t htt
  obtain ⟨k1, k2, k3⟩ := combine_mem hb t htt
  exact ⟨c1 _ (singletonStage_mem hA _ k1), c2 _ (singletonStage_mem hB _ k2), c3 _ (singletonStage_mem hX _ k3)⟩

theorem sortBlock_mem {N : Num} {threshold : Nat} {src : Nat → Src} {trips : List (Nat × Nat × Nat)} {cols : List (List Nat)} {trips' : List (Nat × Nat × Nat)}
    {p ix : List Nat} (h : sortBlock N threshold src trips cols = .ok (trips', p, ix)) : ∀ t ∈ trips', t ∈ trips := by
  unfold sortBlock at h
  split at h
  · cases h; exact fun t ht => ht
  split at h
  · cases h
  dsimp only at h
  split at h
  · cases h
  split at h
  · cases h
  rename_i hg
  cases h
  exact mem_of_gather hg

theorem finishBlock_mem {N : Num} {threshold : Nat} {src : Nat → Src} {m : Mgr Nat} {scalars : List Nat} {fr : Frame} {row : Row} {b : Blk} {o : BlkOut}
    (h : finishBlock N threshold src m scalars fr row b = .ok o) : ∀ t ∈ o.trips, t ∈ b.trips := by
  unfold finishBlock at h
  split at h
  · cases h
  split at h
  · cases h
  split at h
  · cases h
  split at h
  · cases h
  split at h
  · cases h
  rename_i trips p ix hs
  split at h
  · cases h
  split at h
  · cases h
  split at h
  · cases h; exact sortBlock_mem hs
  split at h
  · cases h; exact sortBlock_mem hs
  · cases h

/-- the triplets of a level are triples of items of the level -/
theorem levelOut_mem {e : Env} (he : e.Lawful) {N : Num} {threshold : Nat} {src : List Val → List Val → Nat → Src} {T : Task ρ} {L : Level ρ}
    (ht : ∀ p ∈ L.frame, castNat L.type p.1 = p.1) {os : List BlkOut} (h : levelOut e N threshold src T L = .ok os) :
    ∀ t ∈ os.flatMap BlkOut.trips, t.1 ∈ L.frame.map (·.1) ∧ t.2.1 ∈ L.frame.map (·.1) ∧ t.2.2 ∈ L.frame.map (·.1) := by
  unfold levelOut at h
  split at h
  · cases h
  split at h
  · cases h
  split at h
  · cases h
  rename_i os' hos
  cases h
  intro t htt
  obtain ⟨o, ho, hto⟩ := List.mem_flatMap.mp htt
  obtain ⟨key, hk, hb⟩ := forall₂_mem_right (sequence_inv hos) (some o) (filterMap_id_mem ho)
  unfold blockOut at hb
  split at hb
  · cases hb
  · cases hb
  rename_i row b hbt
  split at hb
  · cases hb
  split at hb
  · cases hb
  rename_i o' hf
  cases hb
  exact blockTriplets_mem he ht hbt t (finishBlock_mem hf t hto)

/-- the levels of a task have distinct keys -/
theorem init_keys_nodup {e : Env} (he : e.Lawful) {a : Args ρ} (ha : a.OK) {T : Task ρ} (h : init e a = .ok T) : (T.levels.map (·.key)).Nodup := by
  obtain ⟨hc, hon, hcols, hacr, hmf, hmr, ls, hls, hlev⟩ := init_ok h
  have hm := mgr_ok hmf
  have hav : ∀ p ∈ T.filters, Avail a.cols p.op := fun p hp => ha.availF _ (by rw [← mgr_ops hmf]; exact List.mem_map_of_mem hp)
  have hF := sequence_inv hls
  have hn := nodup_groupKeys he (site := "by") (cols := (prep a).1) (fr := (prep a).2.2)
  rw [hlev]
  clear hls hlev
  generalize groupKeys e "by" (prep a).1 (prep a).2.2 = ks at hF hn
  induction hF with
  | nil => simp
  | @cons k o ks ls hko hF ih =>
    rw [List.nodup_cons] at hn
    have ih := ih hn.2
    cases o with
    | none => rw [List.filterMap_cons_none rfl]; exact ih
    | some L =>
      rw [List.filterMap_cons_some (f := id) rfl, List.map_cons, List.nodup_cons]
      refine ⟨?_, ih⟩
      rw [(prepareLevel_ok hm hav hko).1]
      intro hmem
      obtain ⟨L', hL', hk'⟩ := List.mem_map.mp hmem
      obtain ⟨k', hk1, hk2⟩ := forall₂_mem_right hF _ (filterMap_id_mem hL')
      rw [(prepareLevel_ok hm hav hk2).1] at hk'
      subst hk'
      exact hn.1 hk1

theorem init_types {e : Env} {a : Args ρ} (ha : a.OK) {T : Task ρ} (h : init e a = .ok T) {L : Level ρ} (hL : L ∈ T.levels) :
    ∀ p ∈ L.frame, castNat L.type p.1 = p.1 := by
  obtain ⟨hc, hon, hcols, hacr, hmf, hmr, ls, hls, hlev⟩ := init_ok h
  have hm := mgr_ok hmf
  have hav : ∀ p ∈ T.filters, Avail a.cols p.op := fun p hp => ha.availF _ (by rw [← mgr_ops hmf]; exact List.mem_map_of_mem hp)
  rw [hlev] at hL
  obtain ⟨k, _, hk⟩ := forall₂_mem_right (sequence_inv hls) _ (filterMap_id_mem hL)
  exact levelType_ok (prepareLevel_ok hm hav hk).2.2.2.2

/-- the levels that remain are those with triplets -/
theorem remaining_kept {Ls : List (Level ρ)} {outs : List (List Val × List BlkOut)} {Q : Level ρ → List BlkOut → Prop}
    (h : List.Forall₂ (fun L p => p.1 = L.key ∧ Q L p.2) Ls outs) : (Ls.map (·.key)).Nodup → ∀ (bys : List (List Val)),
      (∀ p ∈ outs, p.1 ∈ bys ↔ p ∈ kept outs) →
    List.Forall₂ (fun L p => p.1 = L.key ∧ Q L p.2) (Ls.filter (fun L => bys.contains L.key)) (kept outs) := by
  induction h with
  | nil => intro _ _ _; exact .nil
  | @cons L p Ls outs hp hF ih =>
    intro hn bys hb
    rw [List.map_cons, List.nodup_cons] at hn
    have hne : ∀ q ∈ outs, q.1 ≠ p.1 := by
      intro q hq he
      obtain ⟨L', hL', h1⟩ := forall₂_mem_right hF q hq
      apply hn.1
      rw [← hp.1, ← he, h1.1]
      exact List.mem_map_of_mem hL'
    have ih := ih hn.2 bys (by
      intro q hq
      rw [hb q (by simp [hq])]
      unfold kept
      rw [List.mem_filter, List.mem_filter]
      simp [hq])
    have hbp := hb p (by simp)
    unfold kept at ih hbp ⊢
    rw [List.filter_cons, List.filter_cons]
    by_cases hk : (levelTrips p).isEmpty = true
    · have h1 : p ∉ (p :: outs).filter (fun p => !(levelTrips p).isEmpty) := by
        rw [List.mem_filter]; simp [hk]
      have h2 : p.1 ∉ bys := fun hm => h1 (hbp.mp hm)
      rw [if_neg (by rw [← hp.1]; simpa using h2), if_neg (by simp [hk])]
      exact ih
    · have h1 : p ∈ (p :: outs).filter (fun p => !(levelTrips p).isEmpty) := by
        rw [List.mem_filter]; simp [hk]
      have h2 := hbp.mpr h1
      rw [if_pos (by rw [← hp.1]; simpa using h2), if_pos (by simp [hk])]
      exact .cons hp ih

theorem forall₂_keys {Ls : List (Level ρ)} {outs : List (List Val × List BlkOut)} {Q : Level ρ → List BlkOut → Prop}
    (h : List.Forall₂ (fun L p => p.1 = L.key ∧ Q L p.2) Ls outs) : outs.map (·.1) = Ls.map (·.key) := by
  induction h with
  | nil => rfl
  | cons h _ ih => rw [List.map_cons, List.map_cons, ih, h.1]

theorem FileOK.kept_levels {e : Env} {N : Num} {threshold : Nat} {src : List Val → List Val → Nat → Src} {T : Task ρ} {F : File} {total : Int} {t tb : IntType}
    {outs : List (List Val × List BlkOut)} (K : FileOK e N threshold src T F total t tb outs) (hn : (T.levels.map (·.key)).Nodup) :
    List.Forall₂ (fun L p => p.1 = L.key ∧ levelOut e N threshold src T L = .ok p.2) (T.levels.filter (fun L => F.bys.contains L.key)) (kept outs) := by
  apply remaining_kept (Q := fun L os => levelOut e N threshold src T L = .ok os) K.outs_ok hn
  intro p hp
  rw [K.bys]
  constructor
  · intro h
    obtain ⟨q, hq, hqp⟩ := List.mem_map.mp h
    have hq' := (List.mem_filter.mp hq).1
    have hmap : (outs.map (·.1)) = T.levels.map (·.key) := by
      exact forall₂_keys (Q := fun L os => levelOut e N threshold src T L = .ok os) K.outs_ok
    have : q = p := List.inj_on_of_nodup_map (by rw [hmap]; exact hn) hq' hp hqp
    rw [← this]
    exact hq
  · exact fun h => List.mem_map_of_mem h

end ABX.Task
