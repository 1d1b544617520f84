import Verif.Proofs.TaskLines
import Verif.Properties.PairsWitness
/-!
C110: the triplets of a task file in terms of the lines of the item table, and relations between tasks on the same table.
-/
namespace ABX.Task
open ExtSort SideOps Sampler Spec Pairs
variable {ρ ρ' : Type}

/-- the outcome of generating the triplets of the task without threshold, in any order of groups and sets, with any sort and any buffers; the type of the dataset holds the numbers of items -/
def Written (a : Args ρ) (o : Option File) : Prop :=
  ∃ (e : Env) (T : Task ρ) (N : Num) (src : List Val → List Val → Nat → Src) (bl1 bl2 : Nat), e.Lawful ∧ a.OK ∧ Spec'.KeptFirst a ∧ init e a = .ok T ∧ ArgsortLaw N.argsort ∧ (∀ k k' j, (src k k' j).Lawful) ∧ 0 < bl1 ∧ 0 < bl2 ∧
    generate e N 0 src bl1 bl2 T = .ok o ∧ ∀ total t, nbTriplets e T = .ok total → fitIntegerType total = .ok t → ∀ L ∈ T.levels, ((itemsOf a L.key).length : Int) ≤ t.hi

theorem specKey_levelKey (a : Args ρ) (r : Row) : specKey a (levelKey a r) = a.by_.map r := by
  unfold specKey levelKey
  by_cases h : a.by_ = [] <;> simp [h]

/-- C110: the triplets of the file are, each once, the triplets of lines of the table that agree on 'by', are legal and satisfy the filters; no row of the file speaks of a line that does not exist.  Missing: a threshold (C79), filters without suffix
that do not keep the first items of the levels (C04), and numbers of items that the type of the dataset does not hold (C06). -/
theorem C110_lines_partial {a : Args ρ} {o : Option File} (h : Written a o) :
    (fileLines a.by_ (a.db.map (·.2)) o).Nodup ∧
    ∀ t, t ∈ fileLines a.by_ (a.db.map (·.2)) o ↔ ∃ u, t = lines u ∧ LineTriplet a.cols a.on a.across a.by_ a.filters (a.db.map (·.2)) u := by
  obtain ⟨e, T, N, src, bl1, bl2, he, ha, hf, hT, hN, hs, h1, h2, hg, hfit⟩ := h
  have hrow : ∀ {i : Nat} {r : Row}, (a.db.map (·.2))[i]? = some r → ∃ p ∈ a.db, p.2 = r := by
    intro i r hr
    rw [List.getElem?_map, Option.map_eq_some_iff] at hr
    obtain ⟨p, hp, rfl⟩ := hr
    exact ⟨p, List.mem_of_getElem? hp, rfl⟩
  have hne : ∀ u, LineTriplet a.cols a.on a.across a.by_ a.filters (a.db.map (·.2)) u → ∃ p ∈ a.db, tripsSpec a (levelKey a p.2) ≠ [] ∧ ∀ r, (a.db.map (·.2))[u.1]? = some r → p.2 = r := by
    intro u hu
    obtain ⟨rA, rB, rX, i1, -⟩ := id hu
    obtain ⟨p, hp, rfl⟩ := hrow i1
    refine ⟨p, hp, ?_, fun r hr => ?_⟩
    · obtain ⟨t, ht, -⟩ := lines_trips (key := levelKey a p.2) hu (by intro r hr; rw [i1] at hr; cases hr; exact (specKey_levelKey a _).symm)
      intro e
      unfold Spec.triplets at ht
      rw [show Spec.itemTriplets a.cols a.on a.across a.filters (itemsOf a (levelKey a p.2)) = [] from e] at ht
      cases ht
    · rw [i1] at hr
      cases hr
      rfl
  cases o with
  | none =>
    refine ⟨List.nodup_nil, fun t => ⟨fun h => (List.not_mem_nil h).elim, ?_⟩⟩
    rintro ⟨u, rfl, hu⟩
    obtain ⟨p, hp, hq, -⟩ := hne u hu
    obtain ⟨-, c2, c3⟩ := C78_outcome_partial he ha hf hT hN (src := src) h1 h2
    by_cases hm : ∃ f ∈ a.regressors, Spec.mixed a.cols f = true
    · rw [c2 ⟨p, hp, hq⟩ hm] at hg
      cases hg
    · push Not at hm
      obtain ⟨F, hF⟩ := c3 ⟨p, hp, hq⟩ (fun f hf => by simpa using hm f hf)
      rw [hF] at hg
      cases hg
  | some F =>
    have hC := C06_items_partial he ha hf hT hN hs h1 h2 hg hfit
    obtain ⟨total, t0, tb, outs, K⟩ := generate_ok h1 h2 hg
    have hbys := Pipeline.mem_bys he ha hf hT hN hs K
    have hnd : F.bys.Nodup := by
      rw [K.bys]
      refine List.Nodup.sublist (List.filter_sublist.map _) ?_
      have : outs.map (·.1) = T.levels.map (·.key) := forall₂_keys (Q := fun L p => levelOut e N 0 src T L = .ok p) K.outs_ok
      rw [this]
      exact init_keys_nodup he ha hT
    -- the lines of a level
    have hlev : ∀ p ∈ F.bys.zip F.byIndex, ∀ x, x ∈ ((F.data.take p.2.2.toNat).drop p.2.1.toNat) ↔
        ∃ t ∈ Spec.triplets a.cols a.on a.across a.filters (itemsOf a p.1), x = ((t.1 : Int), (t.2.1 : Int), (t.2.2 : Int)) := by
      intro p hp x
      have := (List.forall₂_iff_zip.mp hC).2 (show (p.1, p.2) ∈ _ from hp)
      rw [show (F.data.take p.2.2.toNat).drop p.2.1.toNat = npSlice F.data p.2.1.toNat p.2.2.toNat from rfl, this.mem_iff, List.mem_map]
      constructor
      · rintro ⟨t, h1, rfl⟩
        exact ⟨t, h1, rfl⟩
      · rintro ⟨t, h1, rfl⟩
        exact ⟨t, h1, rfl⟩
    have hsk : ∀ key, (if a.by_ = [] then [] else key) = specKey a key := fun key => rfl
    constructor
    · unfold fileLines
      rw [List.nodup_flatMap]
      constructor
      · intro p hp
        have := (List.forall₂_iff_zip.mp hC).2 (show (p.1, p.2) ∈ _ from hp)
        dsimp only
        rw [hsk]
        refine List.Nodup.map_on ?_ ?_
        · intro x hx y hy hxy
          obtain ⟨t, ht, rfl⟩ := (hlev p hp x).mp hx
          obtain ⟨s, hs, rfl⟩ := (hlev p hp y).mp hy
          obtain ⟨u, -, -, hu⟩ := trips_lines ht
          obtain ⟨v, -, -, hv⟩ := trips_lines hs
          rw [hu, hv] at hxy
          have huv : u = v := by
            unfold lines at hxy
            simp only [Prod.mk.injEq, Option.some.injEq] at hxy
            exact Prod.ext hxy.1 (Prod.ext hxy.2.1 hxy.2.2)
          subst huv
          unfold lines at hu hv
          simp only [Prod.mk.injEq] at hu hv
          rw [line_inj' hu.1 hv.1, line_inj' hu.2.1 hv.2.1, line_inj' hu.2.2 hv.2.2]
        · rw [show (F.data.take p.2.2.toNat).drop p.2.1.toNat = npSlice F.data p.2.1.toNat p.2.2.toNat from rfl, this.nodup_iff]
          refine List.Nodup.map (fun x y hxy => ?_) ?_
          · simp only [Prod.mk.injEq, Nat.cast_inj] at hxy
            exact Prod.ext hxy.1 (Prod.ext hxy.2.1 hxy.2.2)
          · exact (List.nodup_map_iff_inj_on (tripsSpec_nodup a p.1)).mpr (fun x hx y hy hxy => tripsSpec_lab hx hy hxy)
      · have hz : ((F.bys.zip F.byIndex).map (·.1)).Nodup := by
          rw [List.map_fst_zip hC.length_eq.le]
          exact hnd
        have hz' := List.pairwise_map.mp hz
        refine hz'.imp_of_mem ?_
        intro p q hp hq hpq
        show List.Disjoint _ _
        dsimp only
        rw [hsk, hsk]
        intro x hx hy
        obtain ⟨y, y1, rfl⟩ := List.mem_map.mp hx
        obtain ⟨z, z1, z2⟩ := List.mem_map.mp hy
        obtain ⟨t, ht, rfl⟩ := (hlev p hp y).mp y1
        obtain ⟨s, hs, rfl⟩ := (hlev q hq z).mp z1
        obtain ⟨u, ⟨rA, rB, rX, i1, -⟩, u1, hu⟩ := trips_lines ht
        obtain ⟨v, -, v1, hv⟩ := trips_lines hs
        dsimp only at z2
        rw [hu, hv] at z2
        have huv : v = u := by
          unfold lines at z2
          simp only [Prod.mk.injEq, Option.some.injEq] at z2
          exact Prod.ext z2.1 (Prod.ext z2.2.1 z2.2.2)
        subst huv
        have e1 := u1 _ i1
        have e2 := v1 _ i1
        obtain ⟨⟨p', -, k1⟩, -⟩ := (hbys p.1).mp (List.of_mem_zip hp).1
        obtain ⟨⟨q', -, k2⟩, -⟩ := (hbys q.1).mp (List.of_mem_zip hq).1
        apply hpq
        have e3 : specKey a p.1 = specKey a q.1 := e1.symm.trans e2
        rw [← k1, ← k2] at e3 ⊢
        rw [specKey_levelKey, specKey_levelKey] at e3
        unfold levelKey
        rw [e3]
    · intro x
      unfold fileLines
      rw [List.mem_flatMap]
      constructor
      · rintro ⟨p, hp, hx⟩
        dsimp only at hx
        rw [hsk] at hx
        obtain ⟨y, y1, rfl⟩ := List.mem_map.mp hx
        obtain ⟨t, ht, rfl⟩ := (hlev p hp y).mp y1
        obtain ⟨u, u1, -, hu⟩ := trips_lines ht
        exact ⟨u, hu, u1⟩
      · rintro ⟨u, rfl, hu⟩
        obtain ⟨p, hp, hq, hr⟩ := hne u hu
        have hk := (hbys (levelKey a p.2)).mpr ⟨⟨p, hp, rfl⟩, hq⟩
        obtain ⟨n, hn⟩ := List.getElem?_of_mem hk
        obtain ⟨iv, hiv, -⟩ := Distances.forall₂_getElem hC hn
        have hz : (levelKey a p.2, iv) ∈ F.bys.zip F.byIndex := by
          refine List.mem_of_getElem? (i := n) ?_
          rw [List.getElem?_zip_eq_some]
          exact ⟨hn, hiv⟩
        refine ⟨_, hz, ?_⟩
        dsimp only
        rw [hsk]
        obtain ⟨t, ht, e⟩ := lines_trips (key := levelKey a p.2) hu (by intro r hr'; rw [specKey_levelKey, hr r hr'])
        exact List.mem_map.mpr ⟨_, (hlev _ hz _).mpr ⟨t, ht, rfl⟩, e⟩

theorem mem_lines {a : Args ρ} {o : Option File} (h : Written a o) (u : Nat × Nat × Nat) : lines u ∈ fileLines a.by_ (a.db.map (·.2)) o ↔ LineTriplet a.cols a.on a.across a.by_ a.filters (a.db.map (·.2)) u := by
  rw [(C110_lines_partial h).2]
  constructor
  · rintro ⟨v, e, hv⟩
    unfold lines at e
    simp only [Prod.mk.injEq, Option.some.injEq] at e
    rw [show u = v from Prod.ext e.1 (Prod.ext e.2.1 e.2.2)]
    exact hv
  · intro hu
    exact ⟨u, rfl, hu⟩

/-- C110 with a threshold: whatever the threshold and the random numbers, every row of the file is a triplet of lines as above; and none appears twice if the groups fit (C08).  Hence the file with a threshold is a part of the file without. -/
theorem C110_threshold_partial {a : Args ρ} {e : Env} (he : e.Lawful) (ha : a.OK) (hf : Spec'.KeptFirst a) {T : Task ρ} (hT : init e a = .ok T) {N : Num} (hN : ArgsortLaw N.argsort) {threshold : Nat}
    {src : List Val → List Val → Nat → Src} (hs : ∀ k k' j, (src k k' j).Lawful) {bl1 bl2 : Nat} (h1 : 0 < bl1) (h2 : 0 < bl2) {F : File} (hg : generate e N threshold src bl1 bl2 T = .ok (some F))
    (hfit : ∀ total t, nbTriplets e T = .ok total → fitIntegerType total = .ok t → ∀ L ∈ T.levels, ((itemsOf a L.key).length : Int) ≤ t.hi) :
    (∀ t ∈ fileLines a.by_ (a.db.map (·.2)) (some F), ∃ u, t = lines u ∧ LineTriplet a.cols a.on a.across a.by_ a.filters (a.db.map (·.2)) u) ∧
    (N.Exact → (∀ L ∈ T.levels, GroupFit threshold a.cols a.on a.across (allRegs e a) (tripsSpec a L.key)) → (fileLines a.by_ (a.db.map (·.2)) (some F)).Nodup) ∧
    ∀ o, Written a o → ∀ t ∈ fileLines a.by_ (a.db.map (·.2)) (some F), t ∈ fileLines a.by_ (a.db.map (·.2)) o := by
  obtain ⟨total, t0, tb, outs, K⟩ := generate_ok h1 h2 hg
  have hfit := hfit total t0 K.total_ok K.t_ok
  obtain ⟨hsl, hlen⟩ := K.slices
  have hsk : ∀ key, (if a.by_ = [] then [] else key) = specKey a key := fun key => rfl
  -- the rows of a level
  have hlev : ∀ p ∈ F.bys.zip F.byIndex, ∃ S : List Tri, (F.data.take p.2.2.toNat).drop p.2.1.toNat = S.map (fun t => ((t.1.1 : Int), (t.2.1.1 : Int), (t.2.2.1 : Int))) ∧ (∀ t ∈ S, t ∈ tripsSpec a p.1) ∧
      (N.Exact → (∀ L ∈ T.levels, GroupFit threshold a.cols a.on a.across (allRegs e a) (tripsSpec a L.key)) → S.Nodup) ∧ ∃ L ∈ T.levels, L.key = p.1 := by
    intro p hp
    obtain ⟨n, hn⟩ := List.getElem?_of_mem hp
    rw [List.getElem?_zip_eq_some] at hn
    obtain ⟨n1, n2⟩ := hn
    rw [K.bys, List.getElem?_map, Option.map_eq_some_iff] at n1
    obtain ⟨q, q1, q2⟩ := n1
    obtain ⟨L, hL, hk, ho⟩ := forall₂_mem_right K.outs_ok q (List.mem_filter.mp (List.mem_of_getElem? q1)).1
    obtain ⟨S, M, -⟩ := level_main he ha hT hL (positional he ha hf hT hL) hN hs ho
    have e1 : (F.data.take p.2.2.toNat).drop p.2.1.toNat = (levelTrips q).map (castTrip t0) := by
      have := congrArg (fun l => l[n]?) hsl
      simp only [List.getElem?_map, n2, q1, Option.map_some] at this
      exact Option.some.inj this
    have hkey : p.1 = L.key := q2.symm.trans hk
    refine ⟨S, ?_, by rw [hkey]; exact M.sub, fun hE hG => M.nodup hE (hG L hL), L, hL, hkey.symm⟩
    rw [e1]
    unfold levelTrips
    rw [M.trips, List.map_map]
    apply List.map_congr_left
    intro x hx
    exact castTrip_items ha K.t_ok (hfit L hL) (M.sub x hx)
  have hsub : ∀ t ∈ fileLines a.by_ (a.db.map (·.2)) (some F), ∃ u, t = lines u ∧ LineTriplet a.cols a.on a.across a.by_ a.filters (a.db.map (·.2)) u := by
    intro x hx
    unfold fileLines at hx
    obtain ⟨p, hp, hx⟩ := List.mem_flatMap.mp hx
    dsimp only at hx
    obtain ⟨S, e1, e2, -⟩ := hlev p hp
    rw [hsk, e1] at hx
    obtain ⟨y, y1, rfl⟩ := List.mem_map.mp hx
    obtain ⟨t, ht, rfl⟩ := List.mem_map.mp y1
    obtain ⟨u, u1, -, hu⟩ := trips_lines (a := a) (key := p.1) (t := (t.1.1, t.2.1.1, t.2.2.1)) (List.mem_map.mpr ⟨t, e2 t ht, rfl⟩)
    exact ⟨u, hu, u1⟩
  refine ⟨hsub, ?_, ?_⟩
  · intro hE hG
    unfold fileLines
    rw [List.nodup_flatMap]
    constructor
    · intro p hp
      obtain ⟨S, e1, e2, e3, -⟩ := hlev p hp
      dsimp only
      rw [hsk, e1, List.map_map]
      refine List.Nodup.map_on ?_ (e3 hE hG)
      intro x hx y hy hxy
      obtain ⟨u, -, -, hu⟩ := trips_lines (a := a) (key := p.1) (t := (x.1.1, x.2.1.1, x.2.2.1)) (List.mem_map.mpr ⟨x, e2 x hx, rfl⟩)
      obtain ⟨v, -, -, hv⟩ := trips_lines (a := a) (key := p.1) (t := (y.1.1, y.2.1.1, y.2.2.1)) (List.mem_map.mpr ⟨y, e2 y hy, rfl⟩)
      have huv : lines u = lines v := hu.symm.trans ((show _ = _ from hxy).trans hv)
      rw [← huv] at hv
      unfold lines at hu hv
      simp only [Prod.mk.injEq] at hu hv
      refine tripsSpec_lab (e2 x hx) (e2 y hy) ?_
      show (x.1.1, x.2.1.1, x.2.2.1) = (y.1.1, y.2.1.1, y.2.2.1)
      rw [line_inj' hu.1 hv.1, line_inj' hu.2.1 hv.2.1, line_inj' hu.2.2 hv.2.2]
    · have hnd : F.bys.Nodup := by
        rw [K.bys]
        refine List.Nodup.sublist (List.filter_sublist.map _) ?_
        rw [forall₂_keys (Q := fun L p => levelOut e N threshold src T L = .ok p) K.outs_ok]
        exact init_keys_nodup he ha hT
      have hz : ((F.bys.zip F.byIndex).map (·.1)).Nodup := by
        rw [List.map_fst_zip hlen.le]
        exact hnd
      refine (List.pairwise_map.mp hz).imp_of_mem ?_
      intro p q hp hq hpq
      show List.Disjoint _ _
      dsimp only
      obtain ⟨S, e1, e2, -, L, hL, hLk⟩ := hlev p hp
      obtain ⟨S', e1', e2', -, L', hL', hLk'⟩ := hlev q hq
      rw [hsk, hsk, e1, e1', List.map_map, List.map_map]
      intro x hx hy
      obtain ⟨t, ht, rfl⟩ := List.mem_map.mp hx
      obtain ⟨s, hs, z2⟩ := List.mem_map.mp hy
      obtain ⟨u, ⟨rA, rB, rX, i1, -⟩, u1, hu⟩ := trips_lines (a := a) (key := p.1) (t := (t.1.1, t.2.1.1, t.2.2.1)) (List.mem_map.mpr ⟨t, e2 t ht, rfl⟩)
      obtain ⟨v, -, v1, hv⟩ := trips_lines (a := a) (key := q.1) (t := (s.1.1, s.2.1.1, s.2.2.1)) (List.mem_map.mpr ⟨s, e2' s hs, rfl⟩)
      have z3 : lines v = lines u := hv.symm.trans ((show _ = _ from z2).trans hu)
      have huv : v = u := by
        unfold lines at z3
        simp only [Prod.mk.injEq, Option.some.injEq] at z3
        exact Prod.ext z3.1 (Prod.ext z3.2.1 z3.2.2)
      subst huv
      have e3 : specKey a p.1 = specKey a q.1 := (u1 _ i1).symm.trans (v1 _ i1)
      obtain ⟨p', -, k1⟩ := level_of_db he ha hT hL
      obtain ⟨q', -, k2⟩ := level_of_db he ha hT hL'
      apply hpq
      rw [← hLk, ← hLk', ← k1, ← k2] at e3 ⊢
      rw [specKey_levelKey, specKey_levelKey] at e3
      unfold levelKey
      rw [e3]
  · intro o ho t ht
    obtain ⟨u, rfl, hu⟩ := hsub t ht
    exact (mem_lines ho u).mpr hu

section
variable {a : Args ρ} {a' : Args ρ'} {o o' : Option File} (h : Written a o) (h' : Written a' o')
include h h'

/-- C110: with more filters the file has exactly the triplets of which the additional filters hold. -/
theorem C110_filters_partial (hd : a'.db.map (·.2) = a.db.map (·.2)) (hc : a'.cols = a.cols) (hon : a'.on = a.on) (hac : a'.across = a.across) (hby : a'.by_ = a.by_) {fs : List (DBFun Bool)} (hfs : a'.filters = a.filters ++ fs) (u : Nat × Nat × Nat) :
    lines u ∈ fileLines a'.by_ (a'.db.map (·.2)) o' ↔ lines u ∈ fileLines a.by_ (a.db.map (·.2)) o ∧
      ∀ rA rB rX, (a.db.map (·.2))[u.1]? = some rA → (a.db.map (·.2))[u.2.1]? = some rB → (a.db.map (·.2))[u.2.2]? = some rX → ∀ f ∈ fs, Spec.holds a.cols f rA rB rX = true := by
  rw [mem_lines h, mem_lines h', hd, hc, hon, hac, hby, hfs]
  constructor
  · rintro ⟨rA, rB, rX, i1, i2, i3, e1, e2, l, hf⟩
    refine ⟨⟨rA, rB, rX, i1, i2, i3, e1, e2, l, fun f hf' => hf f (List.mem_append_left _ hf')⟩, ?_⟩
    intro sA sB sX j1 j2 j3 f hf'
    rw [i1] at j1
    rw [i2] at j2
    rw [i3] at j3
    cases j1
    cases j2
    cases j3
    exact hf f (List.mem_append_right _ hf')
  · rintro ⟨⟨rA, rB, rX, i1, i2, i3, e1, e2, l, hf⟩, hg⟩
    refine ⟨rA, rB, rX, i1, i2, i3, e1, e2, l, fun f hf' => ?_⟩
    rcases List.mem_append.mp hf' with hf' | hf'
    · exact hf f hf'
    · exact hg rA rB rX i1 i2 i3 f hf'

/-- C110: with more 'by' columns the file has exactly the triplets whose lines agree on them (filters that mean the same in both tasks). -/
theorem C110_by_partial (hd : a'.db.map (·.2) = a.db.map (·.2)) (hon : a'.on = a.on) (hac : a'.across = a.across) {bs : List String} (hby : a'.by_ = a.by_ ++ bs) (hfs : a'.filters = a.filters)
    (hsem : ∀ f ∈ a.filters, ∀ rA rB rX, Spec.holds a'.cols f rA rB rX = Spec.holds a.cols f rA rB rX) (u : Nat × Nat × Nat) :
    lines u ∈ fileLines a'.by_ (a'.db.map (·.2)) o' ↔ lines u ∈ fileLines a.by_ (a.db.map (·.2)) o ∧
      ∀ rA rB rX, (a.db.map (·.2))[u.1]? = some rA → (a.db.map (·.2))[u.2.1]? = some rB → (a.db.map (·.2))[u.2.2]? = some rX → ∀ c ∈ bs, rB c = rA c ∧ rX c = rA c := by
  rw [mem_lines h, mem_lines h', hd, hon, hac, hby, hfs]
  constructor
  · rintro ⟨rA, rB, rX, i1, i2, i3, e1, e2, l, hf⟩
    rw [List.map_append, List.map_append] at e1 e2
    obtain ⟨e1, e1'⟩ := List.append_inj e1 (by simp)
    obtain ⟨e2, e2'⟩ := List.append_inj e2 (by simp)
    refine ⟨⟨rA, rB, rX, i1, i2, i3, e1, e2, l, fun f hf' => by rw [← hsem f hf']; exact hf f hf'⟩, ?_⟩
    intro sA sB sX j1 j2 j3 c hc
    rw [i1] at j1
    rw [i2] at j2
    rw [i3] at j3
    cases j1
    cases j2
    cases j3
    exact ⟨List.map_inj_left.mp e1' c hc, List.map_inj_left.mp e2' c hc⟩
  · rintro ⟨⟨rA, rB, rX, i1, i2, i3, e1, e2, l, hf⟩, hg⟩
    have hg := hg rA rB rX i1 i2 i3
    refine ⟨rA, rB, rX, i1, i2, i3, ?_, ?_, l, fun f hf' => by rw [hsem f hf']; exact hf f hf'⟩
    · rw [List.map_append, List.map_append, e1, List.map_inj_left.mpr (fun c hc => (hg c hc).1)]
    · rw [List.map_append, List.map_append, e2, List.map_inj_left.mpr (fun c hc => (hg c hc).2)]

/-- C110: with more 'across' columns the file has exactly the triplets in which B agrees with A and X differs from A in each of them; if there were none before, X need no longer be asked to be another line than A. -/
theorem C110_across_partial (hd : a'.db.map (·.2) = a.db.map (·.2)) (hon : a'.on = a.on) (hby : a'.by_ = a.by_) {cs : List String} (hcs : cs ≠ []) (hac : a'.across = a.across ++ cs) (hfs : a'.filters = a.filters)
    (hsem : ∀ f ∈ a.filters, ∀ rA rB rX, Spec.holds a'.cols f rA rB rX = Spec.holds a.cols f rA rB rX) (u : Nat × Nat × Nat) :
    lines u ∈ fileLines a'.by_ (a'.db.map (·.2)) o' ↔ lines u ∈ fileLines a.by_ (a.db.map (·.2)) o ∧
      ∀ rA rB rX, (a.db.map (·.2))[u.1]? = some rA → (a.db.map (·.2))[u.2.1]? = some rB → (a.db.map (·.2))[u.2.2]? = some rX → ∀ c ∈ cs, rB c = rA c ∧ rX c ≠ rA c := by
  rw [mem_lines h, mem_lines h', hd, hon, hac, hby, hfs]
  have hne : (a.across ++ cs).isEmpty = false := by cases ha : a.across <;> simp [hcs]
  have key : ∀ rA rB rX, (a.db.map (·.2))[u.1]? = some rA → (a.db.map (·.2))[u.2.2]? = some rX → (Spec.legal a.on (a.across ++ cs) (u.1, rA) (u.2.1, rB) (u.2.2, rX) = true ↔
      Spec.legal a.on a.across (u.1, rA) (u.2.1, rB) (u.2.2, rX) = true ∧ ∀ c ∈ cs, rB c = rA c ∧ rX c ≠ rA c) := by
    intro rA rB rX i1 i3
    unfold Spec.legal
    rw [hne]
    simp only [Bool.and_eq_true, List.all_eq_true, beq_iff_eq, bne_iff_ne, ne_eq, List.mem_append, Bool.false_eq_true, if_false]
    by_cases he : a.across = []
    · simp only [he, List.not_mem_nil, false_or, List.isEmpty_nil, if_true, bne_iff_ne, ne_eq]
      constructor
      · rintro ⟨⟨⟨q1, q2⟩, q3⟩, q4⟩
        refine ⟨⟨⟨⟨q1, q2⟩, by simp⟩, ?_⟩, fun c hc => ⟨q3 c hc, q4 c hc⟩⟩
        intro e
        obtain ⟨c, hc⟩ := List.exists_mem_of_ne_nil _ hcs
        rw [e, i1] at i3
        cases i3
        exact q4 c hc rfl
      · rintro ⟨⟨⟨⟨q1, q2⟩, -⟩, -⟩, q5⟩
        exact ⟨⟨⟨q1, q2⟩, fun c hc => (q5 c hc).1⟩, fun c hc => (q5 c hc).2⟩
    · have : a.across.isEmpty = false := by cases ha : a.across <;> simp_all
      simp only [this, Bool.false_eq_true, if_false, List.all_eq_true, bne_iff_ne, ne_eq]
      constructor
      · rintro ⟨⟨⟨q1, q2⟩, q3⟩, q4⟩
        exact ⟨⟨⟨⟨q1, q2⟩, fun c hc => q3 c (.inl hc)⟩, fun c hc => q4 c (.inl hc)⟩, fun c hc => ⟨q3 c (.inr hc), q4 c (.inr hc)⟩⟩
      · rintro ⟨⟨⟨⟨q1, q2⟩, q3⟩, q4⟩, q5⟩
        exact ⟨⟨⟨q1, q2⟩, fun c hc => hc.elim (q3 c) (fun h => (q5 c h).1)⟩, fun c hc => hc.elim (q4 c) (fun h => (q5 c h).2)⟩
  constructor
  · rintro ⟨rA, rB, rX, i1, i2, i3, e1, e2, l, hf⟩
    obtain ⟨l1, l2⟩ := (key rA rB rX i1 i3).mp l
    refine ⟨⟨rA, rB, rX, i1, i2, i3, e1, e2, l1, fun f hf' => by rw [← hsem f hf']; exact hf f hf'⟩, ?_⟩
    intro sA sB sX j1 j2 j3
    rw [i1] at j1
    rw [i2] at j2
    rw [i3] at j3
    cases j1
    cases j2
    cases j3
    exact l2
  · rintro ⟨⟨rA, rB, rX, i1, i2, i3, e1, e2, l, hf⟩, hg⟩
    exact ⟨rA, rB, rX, i1, i2, i3, e1, e2, (key rA rB rX i1 i3).mpr ⟨l, hg rA rB rX i1 i2 i3⟩, fun f hf' => by rw [hsem f hf']; exact hf f hf'⟩

/-- C110: the lines of the table in another order, or a selection of them (`σ i` is the line of the first table at place `i` of the second, no line twice): the file has the triplets of the lines that are there, under their new numbers.  In
particular lines appended to a table, or removed from it, change nothing in the triplets of the other lines. -/
theorem C110_selection_partial (hc : a'.cols = a.cols) (hon : a'.on = a.on) (hac : a'.across = a.across) (hby : a'.by_ = a.by_) (hfs : a'.filters = a.filters)
    {σ : Nat → Nat} (hσ : ∀ i < a'.db.length, (a'.db.map (·.2))[i]? = (a.db.map (·.2))[σ i]?) (hinj : ∀ i < a'.db.length, ∀ j < a'.db.length, σ i = σ j → i = j)
    (u : Nat × Nat × Nat) (h1 : u.1 < a'.db.length) (h2 : u.2.1 < a'.db.length) (h3 : u.2.2 < a'.db.length) :
    lines u ∈ fileLines a'.by_ (a'.db.map (·.2)) o' ↔ lines (σ u.1, σ u.2.1, σ u.2.2) ∈ fileLines a.by_ (a.db.map (·.2)) o := by
  rw [mem_lines h, mem_lines h', hc, hon, hac, hby, hfs]
  unfold LineTriplet
  rw [hσ _ h1, hσ _ h2, hσ _ h3]
  refine exists_congr fun rA => exists_congr fun rB => exists_congr fun rX => ?_
  rw [legal_lines (A := u.1) (B := u.2.1) (X := u.2.2) (i := σ u.1) (j := σ u.2.1) (k := σ u.2.2) ⟨fun e => by rw [e], fun e => hinj _ h3 _ h1 e⟩]

end

/-- small tables: the outcome of `run` is one of `Written` -/
theorem Written.of_run {a : Args Nat} (ha : a.OK) (hk : Spec'.KeptFirst a) (hd : a.db.length ≤ 100) {F : File} (h : run 0 a = .ok (some F)) : Written a (some F) := by
  obtain ⟨T, h1, h2⟩ := run_ok h
  refine ⟨E0, T, N0, fun _ _ _ => src0, 1000, 1000, E0_lawful, ha, hk, h1, insArgsort_law, fun _ _ _ => src0_lawful, by omega, by omega, h2, ?_⟩
  intro total t _ ht L _
  obtain ⟨g1, g2⟩ := C43_family _ _ _ ht
  have g3 : (128 : Int) ≤ t.hi := by
    unfold IntType.hi
    rw [g2]
    simp only [if_true]
    simp only [List.mem_cons, List.not_mem_nil, or_false] at g1
    rcases g1 with g1 | g1 | g1 | g1 <;> rw [g1] <;> norm_num
  have g4 : (itemsOf a L.key).length ≤ a.db.length := by
    unfold itemsOf Spec.items
    rw [List.length_map, List.length_zipIdx]
    exact (List.length_filter_le _ _).trans (by simp)
  omega

/-- the table of `ex2` without 'by' columns -/
def ex2All : Args Nat := { ex2 with by_ := [], cols := ⟨["on"], ["ac"], []⟩ }

/-- C110, example: the table of `ex2` with and without the 'by' column "sp".  The item numbers of the first file are those of the levels; as lines of the table its triplets are those of the second file whose lines have the same value of "sp". -/
example : ∃ F F', Written ex2 (some F) ∧ Written ex2All (some F') ∧ F.data = [(0, 2, 4), (0, 3, 4), (1, 2, 4), (1, 3, 4), (0, 1, 2)] ∧ F'.data.length = 18 ∧
    fileLines ["sp"] (ex2.db.map (·.2)) (some F) = [(1, 3, 5), (1, 4, 5), (2, 3, 5), (2, 4, 5), (6, 7, 8)].map lines ∧
    ∀ u, lines u ∈ fileLines ["sp"] (ex2.db.map (·.2)) (some F) ↔ lines u ∈ fileLines [] (ex2.db.map (·.2)) (some F') ∧
      ∀ rA rB rX, (ex2.db.map (·.2))[u.1]? = some rA → (ex2.db.map (·.2))[u.2.1]? = some rB → (ex2.db.map (·.2))[u.2.2]? = some rX → ∀ c ∈ ["sp"], rB c = rA c ∧ rX c = rA c := by
  have w : (match run 0 ex2 with | .ok (some F) => (F.data, fileLines ["sp"] (ex2.db.map (·.2)) (some F)) | _ => ([], [])) =
      ([(0, 2, 4), (0, 3, 4), (1, 2, 4), (1, 3, 4), (0, 1, 2)], [(1, 3, 5), (1, 4, 5), (2, 3, 5), (2, 4, 5), (6, 7, 8)].map lines) := by decide +kernel
  have w' : (match run 0 ex2All with | .ok (some F) => F.data.length | _ => 0) = 18 := by decide +kernel
  split at w
  · rename_i F hF
    split at w'
    · rename_i F' hF'
      have a1 : Written ex2 (some F) := .of_run ex2_ok (.of_not_bare (by intro f hf; cases hf)) (by decide) hF
      have a2 : Written ex2All (some F') := .of_run (Args.OK.flat rfl (by decide +kernel) (by intro f hf; cases hf) (by intro f hf; cases hf) (by intro f hf; cases hf) (by intro f hf; cases hf) (by decide +kernel))
        (.of_not_bare (by intro f hf; cases hf)) (by decide) hF'
      simp only [Prod.mk.injEq] at w
      exact ⟨F, F', a1, a2, w.1, w', w.2, C110_by_partial a2 a1 rfl rfl rfl rfl rfl (by intro f hf; cases hf)⟩
    · omega
  · cases w

#print axioms C110_lines_partial
#print axioms C110_threshold_partial
#print axioms C110_filters_partial
#print axioms C110_by_partial
#print axioms C110_across_partial
#print axioms C110_selection_partial

end ABX.Task
