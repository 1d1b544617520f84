import Verif.Properties.Pipeline
/-! With a threshold: the groups of triplets are those with the same values of all regressors. -/
namespace ABX.Pipeline
open ExtSort ABX.Task Pairs SideOps Sampler Distances Score EndToEnd Analyze F64
variable {ρ φ δ : Type}

theorem items_db {a : Args ρ} {key : List Val} {p : Spec.Item} (h : p ∈ itemsOf a key) : (∃ q ∈ a.db, q.2 = p.2) ∧ keyOf a.by_ p.2 = specKey a key := by
  unfold itemsOf Spec.items at h
  obtain ⟨q, hq, rfl⟩ := List.mem_map.mp h
  obtain ⟨i, hi⟩ := List.getElem?_of_mem hq
  rw [List.getElem?_zipIdx, Option.map_eq_some_iff] at hi
  obtain ⟨r, hr, rfl⟩ := hi
  obtain ⟨h1, h2⟩ := List.mem_filter.mp (List.mem_of_getElem? hr)
  obtain ⟨q, hq, hqr⟩ := List.mem_map.mp h1
  exact ⟨⟨q, hq, hqr⟩, by simpa [keyOf] using h2⟩

theorem trips_legal {a : Args ρ} {key : List Val} {t : Tri} (h : t ∈ tripsSpec a key) :
    t.1 ∈ itemsOf a key ∧ t.2.1 ∈ itemsOf a key ∧ t.2.2 ∈ itemsOf a key ∧ t.1.2 a.on = t.2.2.2 a.on := by
  unfold tripsSpec Spec.itemTriplets at h
  obtain ⟨h1, h2⟩ := List.mem_filter.mp h
  unfold Spec.triples at h1
  simp only [List.mem_flatMap, List.mem_map] at h1
  obtain ⟨A, hA, B, hB, X, hX, rfl⟩ := h1
  refine ⟨hA, hB, hX, ?_⟩
  simp [Spec.legal] at h2
  exact h2.1.1.1.1

/-- a regressor that reads neither A nor B nor X, besides columns determined by on, across and by, has one value in a block -/
theorem regValue_block {e : Env} (he : e.Lawful) {a : Args ρ} (ha : a.OK) {T : Task.Task ρ} (h : init e a = .ok T) {L : Level ρ} (hL : L ∈ T.levels) {f : DBFun Nat} (hf : f ∈ allRegs e a)
    (hA : Spec.readsA a.cols f = false) (hBX : Spec.readsBX a.cols f = false) {t u : Tri} (ht : t ∈ tripsSpec a L.key) (hu : u ∈ tripsSpec a L.key)
    (hon : t.1.2 a.on = u.1.2 a.on) (hac : keyOf a.across t.1.2 = keyOf a.across u.1.2) : Spec.regValue a.cols f t = Spec.regValue a.cols f u := by
  obtain ⟨fr0, I⟩ := init_level he ha h hL
  have hav := I.reg.avail f hf
  have hm := I.reg.mgr
  have hok := I.reg.mgrOK
  rw [I.cols] at hav hm hok
  obtain ⟨q, hq, rfl⟩ : ∃ q ∈ T.regressors, q.op = f := by
    have : f ∈ T.regressors.map Placed.op := by rw [mgr_ops hm]; exact hf
    simpa using this
  have P := hok q hq
  obtain ⟨t1, t2, t3, t4⟩ := trips_legal ht
  obtain ⟨u1, u2, u3, u4⟩ := trips_legal hu
  have both : ∀ {p p' : Spec.Item}, p ∈ itemsOf a L.key → p' ∈ itemsOf a L.key → ∀ r ∈ a.cols.by_, p.2 r = p'.2 r := by
    intro p p' hp hp' r hr
    obtain ⟨⟨x, hx, hxp⟩, hk⟩ := items_db hp
    obtain ⟨⟨y, hy, hyp⟩, hk'⟩ := items_db hp'
    rw [← hxp, ← hyp]
    exact ha.detBy x hx y hy (by rw [hxp, hyp, hk, hk']) r hr
  have on' : ∀ {p p' : Spec.Item}, p ∈ itemsOf a L.key → p' ∈ itemsOf a L.key → p.2 a.on = p'.2 a.on → ∀ r ∈ a.cols.on, p.2 r = p'.2 r := by
    intro p p' hp hp' hpp r hr
    obtain ⟨⟨x, hx, hxp⟩, hk⟩ := items_db hp
    obtain ⟨⟨y, hy, hyp⟩, hk'⟩ := items_db hp'
    rw [← hxp, ← hyp]
    exact ha.detOn x hx y hy (by rw [hxp, hyp, hpp]) r hr
  have ac' : ∀ r ∈ a.cols.across, t.1.2 r = u.1.2 r := by
    intro r hr
    obtain ⟨⟨x, hx, hxp⟩, hk⟩ := items_db t1
    obtain ⟨⟨y, hy, hyp⟩, hk'⟩ := items_db u1
    rw [← hxp, ← hyp]
    exact ha.detAcross x hx y hy (by rw [hxp, hyp, hac]) r hr
  unfold Spec.regValue
  apply q.op.ext
  rintro ⟨r, x⟩ hv
  by_cases hb : r ∈ a.cols.by_
  · unfold Spec.sem
    cases x <;> dsimp only
    case two =>
      split
      · exact both t2 u2 _ hb
      · exact both t3 u3 _ hb
    all_goals first
      | exact both t1 u1 _ hb
      | exact both t2 u2 _ hb
      | exact both t3 u3 _ hb
  · have hBX' : (x == Ext.B || x == .two || (x == .X && !a.cols.on.contains r)) = false := by
      unfold Spec.readsBX at hBX
      have := List.any_eq_false.mp hBX _ hv
      simp only [List.contains_iff_mem, hb, Bool.not_eq_true] at this
      simpa [hb] using this
    have hA' : x = .A → r ∈ a.cols.on := by
      intro hx
      subst hx
      unfold Spec.readsA at hA
      have := List.any_eq_false.mp hA _ hv
      simpa [hb] using this
    have hst : q.stage ≠ .by := fun h0 => hb (P.hby' h0 _ hv)
    have hsg : q.stage ≠ .generic := fun h0 => by simpa using P.hgen' h0
    have onac : r ∈ a.cols.on ∨ r ∈ a.cols.across → t.1.2 r = u.1.2 r := by
      rintro (h0 | h0)
      · exact on' t1 u1 hon r h0
      · exact ac' r h0
    cases x with
    | none => exact absurd rfl (P.hnone hst hsg _ hv hb)
    | A => exact onac (.inl (hA' rfl))
    | B => simp at hBX'
    | two => simp at hBX'
    | X =>
      have hr : r ∈ a.cols.on := by
        by_contra h0
        simp [h0] at hBX'
      show t.2.2.2 r = u.2.2.2 r
      exact on' t3 u3 (by rw [← t4, ← u4, hon]) r hr
    | AB =>
      rcases hav.1 _ hv rfl with h0 | h0 | h0
      · exact onac (.inl h0)
      · exact onac (.inr h0)
      · exact absurd h0 hb
    | AX => exact onac (.inr (P.hax _ hv rfl))
    | one => exact onac (P.h12 _ hv (.inl rfl))

theorem findIdx_inj {l : List Val} {v w : Val} (hv : v ∈ l) (h : l.findIdx (· == v) = l.findIdx (· == w)) : v = w := by
  have h1 : l.findIdx (· == v) < l.length := List.findIdx_lt_length.mpr ⟨v, hv, by simp⟩
  have h2 := List.findIdx_getElem (w := h1)
  have h3 : l.findIdx (· == w) < l.length := by rw [← h]; exact h1
  have h4 := List.findIdx_getElem (w := h3)
  simp only [beq_iff_eq] at h2 h4
  rw [← h2, ← h4]
  congr 1

/-- a default regressor of A gives the value of the column -/
theorem columnReg_inj {e : Env} (he : e.Lawful) {a : Args ρ} {key : List Val} {c : String} {t u : Tri} (ht : t ∈ tripsSpec a key)
    (h : Spec.regValue a.cols (columnReg e a.db (c, .one)) t = Spec.regValue a.cols (columnReg e a.db (c, .one)) u) : t.1.2 c = u.1.2 c := by
  refine findIdx_inj ?_ h
  unfold columnIndex
  rw [(he.sort _).mem_iff, List.mem_dedup, List.mem_map]
  obtain ⟨⟨q, hq, hqt⟩, -⟩ := items_db (trips_legal ht).1
  exact ⟨q, hq, by rw [hqt]⟩

/-- in a level, the triplets of a group are those with the same values of all regressors, when there is an across column and the on and across columns have default regressors -/
theorem sameGroup_iff {e : Env} (he : e.Lawful) {a : Args ρ} (ha : a.OK) {T : Task.Task ρ} (h : init e a = .ok T) {L : Level ρ} (hL : L ∈ T.levels)
    (hA : ∀ f ∈ a.regressors, Spec.readsA a.cols f = false) (hac : a.across ≠ []) (hsub : ∀ c ∈ a.across, c ∈ a.cols.across) {rs : List (DBFun Nat)} (hrs : rs.Perm (allRegs e a))
    {t u : Tri} (ht : t ∈ tripsSpec a L.key) (hu : u ∈ tripsSpec a L.key) :
    Spec.sameGroup a.cols a.on a.across (allRegs e a) t u = true ↔ rs.map (fun f => Spec.regValue a.cols f u) = rs.map (fun f => Spec.regValue a.cols f t) := by
  rw [List.map_inj_left]
  unfold Spec.sameGroup Spec.sameBlock
  have hne : a.across.isEmpty = false := by simpa using hac
  simp only [hne, Bool.false_eq_true, if_false, Bool.and_eq_true, beq_iff_eq, List.all_eq_true, Bool.or_eq_true, Bool.not_eq_true']
  constructor
  · rintro ⟨⟨h1, h2⟩, h3⟩ f hf
    have hf := hrs.mem_iff.mp hf
    rcases h3 f hf with h4 | h4
    · refine (regValue_block he ha h hL hf ?_ h4 ht hu h1 ?_).symm
      · rcases List.mem_append.mp hf with hf | hf
        · exact hA f hf
        · exact defaultRegs_readsA f hf
      · exact List.map_congr_left h2
    · exact h4.symm
  · intro h1
    have hd : ∀ f ∈ defaultRegs e a a.db, Spec.regValue a.cols f t = Spec.regValue a.cols f u := fun f hf => (h1 f (hrs.mem_iff.mpr (List.mem_append.mpr (.inr hf)))).symm
    refine ⟨⟨?_, fun c hc => ?_⟩, fun f hf => .inr (h1 f (hrs.mem_iff.mpr hf)).symm⟩
    · exact columnReg_inj he ht (hd _ (by simp [defaultRegs]))
    · refine columnReg_inj he ht (hd _ ?_)
      unfold defaultRegs
      refine List.mem_append.mpr (.inr (List.mem_flatMap.mpr ⟨c, (he.names _).mem_iff.mpr (hsub c hc), by simp⟩))

/-- the levels of the file are those with triplets -/
theorem mem_bysT {e : Env} (he : e.Lawful) {a : Args ρ} (ha : a.OK) (hf : Spec'.KeptFirst a) {T : Task.Task ρ} (h : init e a = .ok T)
    {N : Num} (hN : ArgsortLaw N.argsort) (hE : N.Exact) {threshold : Nat} (hG : ∀ L ∈ T.levels, GroupFit threshold a.cols a.on a.across (allRegs e a) (tripsSpec a L.key))
    {src : List Val → List Val → Nat → Src} (hsrc : ∀ k k' j, (src k k' j).Lawful) {F : File} {total : Int} {t tb : IntType} {outs : List (List Val × List BlkOut)}
    (K : FileOK e N threshold src T F total t tb outs) (key : List Val) : key ∈ F.bys ↔ (∃ p ∈ a.db, levelKey a p.2 = key) ∧ tripsSpec a key ≠ [] := by
  refine mem_bys_of he ha h (fun p L hL hp ho => ?_) K key
  obtain ⟨S, M, -⟩ := level_main he ha h hL (positional he ha hf h hL) hN hsrc ho
  unfold levelTrips
  rw [M.trips, Ne, List.map_eq_nil_iff]
  constructor
  · intro h0 h1
    apply h0
    rw [List.eq_nil_iff_forall_not_mem]
    intro u hu
    have := M.sub u hu
    rw [h1] at this
    cases this
  · intro h0 h1
    obtain ⟨u, hu⟩ := List.exists_mem_of_ne_nil _ h0
    have := M.count hE (hG L hL) u hu
    rw [h1] at this
    have h2 : 0 < ((tripsSpec a L.key).filter (Spec.sameGroup a.cols a.on a.across (allRegs e a) u)).length :=
      List.length_pos_of_mem (List.mem_filter.mpr ⟨hu, by simp [Spec.sameGroup, Spec.sameBlock]⟩)
    unfold keepCount at this
    split at this
    · simp at this; omega
    · simp at this; omega

/-- with a threshold there are at most as many rows of triplets/data as triplets -/
theorem data_le {e : Env} (he : e.Lawful) {a : Args ρ} (ha : a.OK) (hf : Spec'.KeptFirst a) {T : Task.Task ρ} (h : init e a = .ok T)
    {N : Num} (hN : ArgsortLaw N.argsort) (hE : N.Exact) {threshold : Nat} (hG : ∀ L ∈ T.levels, GroupFit threshold a.cols a.on a.across (allRegs e a) (tripsSpec a L.key))
    {src : List Val → List Val → Nat → Src} (hsrc : ∀ k k' j, (src k k' j).Lawful) {F : File} {total : Int} {t tb : IntType} {outs : List (List Val × List BlkOut)}
    (K : FileOK e N threshold src T F total t tb outs) : F.data.length ≤ (T.levels.map (fun L => (tripsSpec a L.key).length)).sum := by
  have h4 : F.data.length ≤ (outs.map (fun p => (levelTrips p).length)).sum := by
    rw [K.data, List.length_map, List.length_flatMap]
    have : ∀ l : List (List Val × List BlkOut), ((kept l).map (fun p => (levelTrips p).length)).sum ≤ (l.map (fun p => (levelTrips p).length)).sum := by
      intro l
      induction l with
      | nil => exact Nat.le_refl _
      | cons p l ih =>
        unfold kept at ih ⊢
        rw [List.map_cons, List.sum_cons, List.filter_cons]
        split
        · rw [List.map_cons, List.sum_cons]; omega
        · omega
    exact this outs
  refine h4.trans ?_
  have key : ∀ (Ls : List (Level ρ)) (os : List (List Val × List BlkOut)), (∀ L ∈ Ls, L ∈ T.levels) → List.Forall₂ (fun L p => p.1 = L.key ∧ levelOut e N threshold src T L = .ok p.2) Ls os →
      (os.map (fun p => (levelTrips p).length)).sum ≤ (Ls.map (fun L => (tripsSpec a L.key).length)).sum := by
    intro Ls os hLs hF
    induction hF with
    | nil => exact Nat.le_refl _
    | @cons L p Ls os h1 _ ih =>
      rw [List.map_cons, List.map_cons, List.sum_cons, List.sum_cons]
      refine Nat.add_le_add ?_ (ih (fun L hL => hLs L (by simp [hL])))
      have hL := hLs L (by simp)
      obtain ⟨S, M, -⟩ := level_main he ha h hL (positional he ha hf h hL) hN hsrc h1.2
      unfold levelTrips
      rw [M.trips, List.length_map]
      exact (List.subperm_of_subset (M.nodup hE (hG L hL)) M.sub).length_le
  exact key _ _ (fun L hL => hL) K.outs_ok

theorem small_ofT {e : Env} (he : e.Lawful) {a : Args ρ} (ha : a.OK) (hf : Spec'.KeptFirst a) {T : Task.Task ρ} (h : init e a = .ok T) (hz : Sizes a T)
    {N : Num} (hN : ArgsortLaw N.argsort) (hE : N.Exact) {threshold : Nat} (hG : ∀ L ∈ T.levels, GroupFit threshold a.cols a.on a.across (allRegs e a) (tripsSpec a L.key))
    {src : List Val → List Val → Nat → Src} (hsrc : ∀ k k' j, (src k k' j).Lawful) {bl1 bl2 : Nat} (h1 : 0 < bl1) (h2 : 0 < bl2) {F : File}
    (hF : generate e N threshold src bl1 bl2 T = .ok (some F)) : Small e T F := by
  refine small_items he ha hf h hz ?_
  obtain ⟨total, t, tb, outs, K⟩ := generate_ok h1 h2 hF
  exact (data_le he ha hf h hN hE hG hsrc K).trans hz.trips

end ABX.Pipeline
