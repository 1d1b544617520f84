import Verif.Proofs.TaskInit
/-! Groups, order and regressors of the triplets of a level. -/
namespace ABX.Task
open ExtSort SideOps Sampler
variable {α β γ ρ : Type}

theorem contig_congr {f : α → β} {g : α → γ} {l : List α} (h : ∀ t ∈ l, ∀ u ∈ l, f t = f u ↔ g t = g u) (hc : Contig (l.map f)) : Contig (l.map g) := by
  intro i j k x y hij hjk hi hj hk
  rw [List.getElem?_map] at hi hj hk
  obtain ⟨t, ht, rfl⟩ := Option.map_eq_some_iff.mp hi
  obtain ⟨u, hu, rfl⟩ := Option.map_eq_some_iff.mp hj
  obtain ⟨v, hv, e⟩ := Option.map_eq_some_iff.mp hk
  have mt := List.mem_of_getElem? ht
  have mu := List.mem_of_getElem? hu
  have mv := List.mem_of_getElem? hv
  refine (h u mu t mt).mp ?_
  refine hc i j k (f t) (f u) hij hjk (by rw [List.getElem?_map, ht]; rfl) (by rw [List.getElem?_map, hu]; rfl) ?_
  rw [List.getElem?_map, hv, (h t mt v mv).mpr e.symm]; rfl

theorem gather_nodup {l : List γ} (hl : l.Nodup) {p : List Nat} (hp : p.Nodup) {r : List γ} (h : gather l p = .ok r) : r.Nodup := by
  cases r with
  | nil => exact List.nodup_nil
  | cons d r =>
    obtain ⟨h1, h2⟩ := gather_inv d h
    rw [h2]
    refine List.Nodup.map_on ?_ hp
    intro x hx y hy e
    have lx := h1 x hx
    have ly := h1 y hy
    simp only [List.getD_eq_getElem?_getD, List.getElem?_eq_getElem lx, List.getElem?_eq_getElem ly, Option.getD_some] at e
    exact (List.Nodup.getElem_inj_iff hl).mp e

/-- the group of a triplet -/
def gk (T : Task ρ) (rs : List (DBFun Nat)) (t : Tri) : List Val × List Nat :=
  (keyOf (T.on :: T.across) t.1.2, (rs.filter (Spec.readsBX T.cols)).map (fun f => Spec.regValue T.cols f t))

section
variable {e : Env} {T : Task ρ} {L : Level ρ} {fs : List (DBFun Bool)} {fr0 : Frame} (H : LevelHyp e T L fs fr0)
include H

theorem mem_itemTriplets {u : Tri} : u ∈ Spec.itemTriplets T.cols T.on (userAcross T.across) fs fr0 ↔ Good T.cols T.on T.across fs fr0 u.1 u.2.1 u.2.2 := by
  obtain ⟨a, b, x⟩ := u
  have hm : (a, b, x) ∈ Spec.triples fr0 ↔ a ∈ fr0 ∧ b ∈ fr0 ∧ x ∈ fr0 := mem_prod3
  simp only [Spec.itemTriplets, List.mem_filter, hm, Bool.and_eq_true, Good, and_assoc]

theorem gk_iff (rs : List (DBFun Nat)) {t u : Tri} (ht : t.1 ∈ fr0) (hu : u.1 ∈ fr0) :
    Spec.sameGroup T.cols T.on (userAcross T.across) rs t u = true ↔ gk T rs t = gk T rs u := by
  unfold Spec.sameGroup gk
  rw [Bool.and_eq_true, sameBlock_iff H ht hu, Prod.mk.injEq]
  refine and_congr Iff.rfl ?_
  rw [List.all_eq_true, List.map_inj_left]
  simp only [Bool.or_eq_true, Bool.not_eq_true', beq_iff_eq, List.mem_filter]
  constructor
  · rintro h f ⟨hf, hr⟩
    rcases h f hf with h' | h'
    · rw [hr] at h'; simp at h'
    · exact h'
  · intro h f hf
    by_cases hr : Spec.readsBX T.cols f = true
    · exact Or.inr (h f ⟨hf, hr⟩)
    · left; simpa using hr

theorem block_groups {rs : List (DBFun Nat)} (R : RegHyp T rs) (h2 : ∃ f ∈ rs, f.inputs = [(T.on, .two)]) {N : Num} (hN : N.Exact) {threshold : Nat}
    (fit : GroupFit threshold T.cols T.on (userAcross T.across) rs (Spec.itemTriplets T.cols T.on (userAcross T.across) fs fr0))
    {key : List Val} {o S S'} (h : KeySpec N threshold T L fs fr0 key o S S') :
    (∀ t ∈ Spec.itemTriplets T.cols T.on (userAcross T.across) fs fr0,
      (S'.filter (Spec.sameGroup T.cols T.on (userAcross T.across) rs t)).length =
        keepCount threshold (S.filter (Spec.sameGroup T.cols T.on (userAcross T.across) rs t)).length) ∧
    S'.Nodup ∧ Contig (S'.map (gk T rs)) := by
  have triv : S = [] → S' = [] → (∀ t ∈ Spec.itemTriplets T.cols T.on (userAcross T.across) fs fr0,
      (S'.filter (Spec.sameGroup T.cols T.on (userAcross T.across) rs t)).length =
        keepCount threshold (S.filter (Spec.sameGroup T.cols T.on (userAcross T.across) rs t)).length) ∧
      S'.Nodup ∧ Contig (S'.map (gk T rs)) := by
    rintro rfl rfl
    exact ⟨fun t _ => by simp [keepCount_zero], List.nodup_nil, by intro i j k x y _ _ hi; simp at hi⟩
  obtain ⟨hS, h⟩ := h
  rcases h with ⟨_, h1, h3⟩ | ⟨out, rfl, p, hp, ho⟩
  · exact triv h1 h3
  by_cases hS0 : S = []
  · refine triv hS0 ?_
    have := ho.sub
    rw [hS0] at this
    exact List.eq_nil_iff_forall_not_mem.mpr (fun t ht => by simpa using this t ht)
  obtain ⟨t0, ht0⟩ := List.exists_mem_of_ne_nil S hS0
  have g0 := (hS.mem t0).mp ht0
  have hK := sortFns_ne H R h2 p.2 g0.1
  have hperm := block_eq H hS (.refl _) ht0
  have hcomb := combinations_eq R ho.noABX hperm
  rw [← sortFns_value H R hp hS] at hcomb
  obtain ⟨f1, f2⟩ := fit t0 ((mem_itemTriplets H).mpr g0.1)
  have sel : Sel threshold (sortFns T.cols T.regressors p.2) S S' := by
    refine ho.sel hN hK (by rw [hcomb]; exact f1) ?_
    rw [hcomb, hperm.length_eq]
    exact f2
  have good' : ∀ u ∈ S', _ := fun u hu => (hS.mem u).mp (ho.sub u hu)
  refine ⟨?_, ?_, ?_⟩
  · intro t ht
    have gt := (mem_itemTriplets H).mp ht
    by_cases hk : keyOf (T.on :: T.across) t.1.2 = key
    · have ff : ∀ (l : List Tri), (∀ u ∈ l, Good T.cols T.on T.across fs fr0 u.1 u.2.1 u.2.2 ∧ keyOf (T.on :: T.across) u.1.2 = key) →
          l.filter (Spec.sameGroup T.cols T.on (userAcross T.across) rs t) =
            l.filter (fun u => keyRow (sortFns T.cols T.regressors p.2) u == keyRow (sortFns T.cols T.regressors p.2) t) := by
        intro l hl
        apply List.filter_congr
        intro u hu
        rw [Bool.eq_iff_iff, ← keyRow_iff H R ho.noABX hp gt hk (hl u hu).1 (hl u hu).2, beq_iff_eq]
        exact eq_comm
      rw [ff S' good', ff S (fun u hu => (hS.mem u).mp hu)]
      exact sel.count _
    · have ff : ∀ (l : List Tri), (∀ u ∈ l, Good T.cols T.on T.across fs fr0 u.1 u.2.1 u.2.2 ∧ keyOf (T.on :: T.across) u.1.2 = key) →
          l.filter (Spec.sameGroup T.cols T.on (userAcross T.across) rs t) = [] := by
        intro l hl
        rw [List.filter_eq_nil_iff]
        intro u hu hs
        have := (gk_iff H rs gt.1 (hl u hu).1.1).mp hs
        exact hk ((congrArg Prod.fst this).trans (hl u hu).2)
      rw [ff S' good', ff S (fun u hu => (hS.mem u).mp hu)]
      simp [keepCount_zero]
  · obtain ⟨q, hq, hg⟩ := sel.select
    exact gather_nodup hS.nodup hq hg
  · refine contig_congr ?_ sel.contig
    intro t ht u hu
    rw [← gk_iff H rs (good' t ht).1.1 (good' u hu).1.1]
    exact keyRow_iff H R ho.noABX hp (good' t ht).1 (good' t ht).2 (good' u hu).1 (good' u hu).2

/-- the block index -/
theorem block_index {rs : List (DBFun Nat)} (R : RegHyp T rs) (h2 : ∃ f ∈ rs, f.inputs = [(T.on, .two)]) {N : Num} (hN : N.Exact)
    (fit : GroupFit 0 T.cols T.on (userAcross T.across) rs (Spec.itemTriplets T.cols T.on (userAcross T.across) fs fr0))
    {key : List Val} {out S S'} (h : KeySpec N 0 T L fs fr0 key (some out) S S') :
    out.index = Spec.runBounds (Spec.sameGroup T.cols T.on (userAcross T.across) rs) S' := by
  obtain ⟨hS, h⟩ := h
  rcases h with ⟨h0, _, _⟩ | ⟨out', he, p, hp, ho⟩
  · cases h0
  cases he
  have good' : ∀ u ∈ S', _ := fun u hu => (hS.mem u).mp (ho.sub u hu)
  have cong : Spec.runBounds (Spec.sameGroup T.cols T.on (userAcross T.across) rs) S' =
      Spec.runBounds (fun t u => keyRow (sortFns T.cols T.regressors p.2) t == keyRow (sortFns T.cols T.regressors p.2) u) S' := by
    apply runBounds_congr
    intro t ht u hu
    rw [Bool.eq_iff_iff, beq_iff_eq, keyRow_iff H R ho.noABX hp (good' t ht).1 (good' t ht).2 (good' u hu).1 (good' u hu).2]
  rw [cong]
  by_cases hS0 : S = []
  · refine ho.index rfl hN ?_ (fun _ => hS0)
    rw [hS0]
    have : (nRegs ((sortFns T.cols T.regressors p.2).map (fun k => ([] : List Tri).map k))).prod = 1 := by
      unfold nRegs
      rw [List.map_map]
      generalize sortFns T.cols T.regressors p.2 = K
      induction K with
      | nil => rfl
      | cons k K ih => rw [List.map_cons, List.prod_cons, ih]; rfl
    rw [this]; decide
  obtain ⟨t0, ht0⟩ := List.exists_mem_of_ne_nil S hS0
  have g0 := (hS.mem t0).mp ht0
  have hK := sortFns_ne H R h2 p.2 g0.1
  have hperm := block_eq H hS (.refl _) ht0
  have hcomb := combinations_eq R ho.noABX hperm
  rw [← sortFns_value H R hp hS] at hcomb
  obtain ⟨f1, f2⟩ := fit t0 ((mem_itemTriplets H).mpr g0.1)
  exact ho.index rfl hN (by rw [hcomb]; exact f1) (fun h => absurd h hK)

theorem keys_mem {N : Num} {threshold : Nat} {keys os Ss Ss'} (h : KeySpecs N threshold T L fs fr0 keys os Ss Ss') :
    ∀ t ∈ Ss.flatten, Good T.cols T.on T.across fs fr0 t.1 t.2.1 t.2.2 ∧ keyOf (T.on :: T.across) t.1.2 ∈ keys := by
  induction h with
  | nil => simp
  | cons h _ ih =>
    intro t ht
    rw [List.flatten_cons, List.mem_append] at ht
    rcases ht with ht | ht
    · obtain ⟨h1, h2⟩ := (h.1.mem t).mp ht
      exact ⟨h1, by rw [h2]; simp⟩
    · exact ⟨(ih t ht).1, List.mem_cons_of_mem _ (ih t ht).2⟩

/-- the block of a triplet, and what is written of it -/
theorem keys_find {N : Num} {threshold : Nat} {keys os Ss Ss'} (h : KeySpecs N threshold T L fs fr0 keys os Ss Ss') (hn : keys.Nodup) {t : Tri} (ht : t ∈ Ss.flatten) :
    ∃ o S S', KeySpec N threshold T L fs fr0 (keyOf (T.on :: T.across) t.1.2) o S S' ∧ t ∈ S ∧
      (∀ u ∈ Ss'.flatten, keyOf (T.on :: T.across) u.1.2 = keyOf (T.on :: T.across) t.1.2 → u ∈ S') ∧ ∀ u ∈ S', u ∈ Ss'.flatten := by
  induction h with
  | nil => simp at ht
  | @cons k o S S' ks os Ss Ss' h hks ih =>
    rw [List.nodup_cons] at hn
    rw [List.flatten_cons, List.mem_append] at ht
    rcases ht with ht | ht
    · have hk := ((h.1.mem t).mp ht).2
      refine ⟨o, S, S', by rw [hk]; exact h, ht, ?_, fun u hu => by rw [List.flatten_cons]; exact List.mem_append_left _ hu⟩
      intro u hu huk
      rw [List.flatten_cons, List.mem_append] at hu
      rcases hu with hu | hu
      · exact hu
      · have := (keys_mem H hks u (hks.sub u hu)).2
        rw [huk, hk] at this
        exact absurd this hn.1
    · obtain ⟨o1, S1, S1', i1, i2, i3, i4⟩ := ih hn.2 ht
      refine ⟨o1, S1, S1', i1, i2, ?_, fun u hu => by rw [List.flatten_cons]; exact List.mem_append_right _ (i4 u hu)⟩
      intro u hu huk
      rw [List.flatten_cons, List.mem_append] at hu
      rcases hu with hu | hu
      · have h1 := ((h.1.mem u).mp (h.sub u hu)).2
        have h2 := (keys_mem H hks t ht).2
        rw [← huk, h1] at h2
        exact absurd h2 hn.1
      · exact i3 u hu huk

/-- what is written of a block, whatever the type of the positions -/
theorem keys_cut {rs : List (DBFun Nat)} (R : RegHyp T rs) (h2 : ∃ f ∈ rs, f.inputs = [(T.on, .two)]) {N : Num} (hN : N.Exact) {threshold : Nat} (h0 : threshold ≠ 0)
    {keys os Ss Ss'} (h : KeySpecs N threshold T L fs fr0 keys os Ss Ss') (hn : keys.Nodup)
    (hperm : Ss.flatten.Perm (Spec.itemTriplets T.cols T.on (userAcross T.across) fs fr0)) {t : Tri} (ht : t ∈ Spec.itemTriplets T.cols T.on (userAcross T.across) fs fr0)
    (hc : Spec.combinations T.cols rs ((Spec.itemTriplets T.cols T.on (userAcross T.across) fs fr0).filter (Spec.sameBlock T.on (userAcross T.across) t)) ≤ 2 ^ 53) {ty : IntType}
    (hty : fitIntegerType (Spec.combinations T.cols rs ((Spec.itemTriplets T.cols T.on (userAcross T.across) fs fr0).filter (Spec.sameBlock T.on (userAcross T.across) t)) : Nat) false = .ok ty) :
    ((∃ O : List Tri, O.Perm ((Spec.itemTriplets T.cols T.on (userAcross T.across) fs fr0).filter (Spec.sameBlock T.on (userAcross T.across) t)) ∧ Contig (O.map (gk T rs)) ∧
      ∀ u ∈ Ss'.flatten, Spec.sameBlock T.on (userAcross T.across) t u = true →
        threshold < ((Spec.itemTriplets T.cols T.on (userAcross T.across) fs fr0).filter (Spec.sameGroup T.cols T.on (userAcross T.across) rs u)).length → u ∈ O.take ty.hi.toNat) ∧
    ∀ u ∈ Spec.itemTriplets T.cols T.on (userAcross T.across) fs fr0, Spec.sameBlock T.on (userAcross T.across) t u = true →
      threshold < ((Spec.itemTriplets T.cols T.on (userAcross T.across) fs fr0).filter (Spec.sameGroup T.cols T.on (userAcross T.across) rs u)).length →
      ∃ src sm, sampleT ty threshold ((Spec.itemTriplets T.cols T.on (userAcross T.across) fs fr0).filter (Spec.sameGroup T.cols T.on (userAcross T.across) rs u)).length src = .ok sm) ∧ ∃ u ∈ Ss'.flatten, Spec.sameBlock T.on (userAcross T.across) t u = true := by
  have gt := (mem_itemTriplets H).mp ht
  obtain ⟨o, S, S', hk, htS, hin, hout⟩ := keys_find H h hn (hperm.mem_iff.mpr ht)
  obtain ⟨hS, hk⟩ := hk
  rcases hk with ⟨_, h1, -⟩ | ⟨out, rfl, p, hp, ho⟩
  · rw [h1] at htS; simp at htS
  have hK := sortFns_ne H R h2 p.2 gt
  have hbl := block_eq H hS (.refl _) htS
  have hcomb := combinations_eq R ho.noABX hbl
  rw [← sortFns_value H R hp hS] at hcomb
  have cut := ho.cut hN h0 hK (by rw [hcomb]; exact hc) ty (by rw [hcomb]; exact hty)
  have good : ∀ u ∈ S, _ := fun u hu => (hS.mem u).mp hu
  have len : ∀ u ∈ S, (S.filter (fun w => keyRow (sortFns T.cols T.regressors p.2) w == keyRow (sortFns T.cols T.regressors p.2) u)).length =
      ((Spec.itemTriplets T.cols T.on (userAcross T.across) fs fr0).filter (Spec.sameGroup T.cols T.on (userAcross T.across) rs u)).length := by
    intro u hu
    rw [(hbl.filter _).length_eq, List.filter_filter]
    refine congrArg List.length ?_
    apply List.filter_congr
    intro w hw
    have gw := (mem_itemTriplets H).mp hw
    have gu := good u hu
    rw [Bool.eq_iff_iff, Bool.and_eq_true, beq_iff_eq, sameBlock_iff H gt.1 gw.1]
    constructor
    · rintro ⟨e1, e2⟩
      exact (keyRow_iff H R ho.noABX hp gu.1 gu.2 gw e2.symm).mp e1.symm
    · intro e
      have e2 : keyOf (T.on :: T.across) w.1.2 = keyOf (T.on :: T.across) t.1.2 := (congrArg Prod.fst ((gk_iff H rs gu.1.1 gw.1).mp e)).symm.trans gu.2
      exact ⟨((keyRow_iff H R ho.noABX hp gu.1 gu.2 gw e2).mpr e).symm, e2.symm⟩
  refine ⟨⟨?_, ?_⟩, ?_⟩
  · obtain ⟨O, o1, o2, o3⟩ := cut.order
    refine ⟨O, o1.trans hbl, ?_, ?_⟩
    · refine contig_congr ?_ o2
      intro v hv w hw
      have gv := good v (o1.mem_iff.mp hv)
      have gw := good w (o1.mem_iff.mp hw)
      rw [← gk_iff H rs gv.1.1 gw.1.1]
      exact keyRow_iff H R ho.noABX hp gv.1 gv.2 gw.1 gw.2
    · intro u hu hb hbig
      have gu := keys_mem H h u (h.sub u hu)
      rw [sameBlock_iff H gt.1 gu.1.1] at hb
      have hu' := hin u hu hb.symm
      exact o3 u hu' (by rw [len u (ho.sub u hu')]; exact hbig)
  · intro u hu hb hbig
    have huS := hbl.mem_iff.mpr (List.mem_filter.mpr ⟨hu, hb⟩)
    rw [← len u huS] at hbig ⊢
    exact cut.ends u huS hbig
  · obtain ⟨u, hu⟩ := List.exists_mem_of_ne_nil _ (cut.keeps (List.ne_nil_of_mem htS))
    have gu := good u (ho.sub u hu)
    refine ⟨u, hout u hu, ?_⟩
    rw [sameBlock_iff H gt.1 gu.1.1]
    exact gu.2.symm

theorem keys_groups {rs : List (DBFun Nat)} (R : RegHyp T rs) (h2 : ∃ f ∈ rs, f.inputs = [(T.on, .two)]) {N : Num} (hN : N.Exact) {threshold : Nat}
    (fit : GroupFit threshold T.cols T.on (userAcross T.across) rs (Spec.itemTriplets T.cols T.on (userAcross T.across) fs fr0))
    {keys os Ss Ss'} (h : KeySpecs N threshold T L fs fr0 keys os Ss Ss') (hn : keys.Nodup) :
    (∀ t ∈ Spec.itemTriplets T.cols T.on (userAcross T.across) fs fr0,
      (Ss'.flatten.filter (Spec.sameGroup T.cols T.on (userAcross T.across) rs t)).length =
        keepCount threshold (Ss.flatten.filter (Spec.sameGroup T.cols T.on (userAcross T.across) rs t)).length) ∧
    Ss'.flatten.Nodup ∧ Contig (Ss'.flatten.map (gk T rs)) := by
  induction h with
  | nil => exact ⟨fun t _ => by simp [keepCount_zero], List.nodup_nil, by intro i j k x y _ _ hi; simp at hi⟩
  | @cons k o S S' ks os Ss Ss' h hks ih =>
    rw [List.nodup_cons] at hn
    obtain ⟨i1, i2, i3⟩ := ih hn.2
    obtain ⟨b1, b2, b3⟩ := block_groups H R h2 hN fit h
    have hk1 : ∀ u ∈ S', Good T.cols T.on T.across fs fr0 u.1 u.2.1 u.2.2 ∧ keyOf (T.on :: T.across) u.1.2 = k := fun u hu => (h.1.mem u).mp (h.sub u hu)
    have hk2 : ∀ u ∈ Ss'.flatten, Good T.cols T.on T.across fs fr0 u.1 u.2.1 u.2.2 ∧ keyOf (T.on :: T.across) u.1.2 ∈ ks := fun u hu => keys_mem H hks u (hks.sub u hu)
    refine ⟨?_, ?_, ?_⟩
    · intro t ht
      have gt := (mem_itemTriplets H).mp ht
      rw [List.flatten_cons, List.flatten_cons, List.filter_append, List.filter_append, List.length_append, List.length_append, b1 t ht, i1 t ht]
      by_cases hk : keyOf (T.on :: T.across) t.1.2 = k
      · have : Ss.flatten.filter (Spec.sameGroup T.cols T.on (userAcross T.across) rs t) = [] := by
          rw [List.filter_eq_nil_iff]
          intro u hu hs
          obtain ⟨g1, g2⟩ := keys_mem H hks u hu
          have := congrArg Prod.fst ((gk_iff H rs gt.1 g1.1).mp hs)
          have e : k = keyOf (T.on :: T.across) u.1.2 := hk.symm.trans this
          rw [← e] at g2
          exact hn.1 g2
        rw [this]; simp [keepCount_zero]
      · have : S.filter (Spec.sameGroup T.cols T.on (userAcross T.across) rs t) = [] := by
          rw [List.filter_eq_nil_iff]
          intro u hu hs
          obtain ⟨g1, g2⟩ := (h.1.mem u).mp hu
          have := congrArg Prod.fst ((gk_iff H rs gt.1 g1.1).mp hs)
          exact hk (this.trans g2)
        rw [this]; simp [keepCount_zero]
    · rw [List.flatten_cons, List.nodup_append]
      refine ⟨b2, i2, ?_⟩
      rintro t ht u hu rfl
      have h3 := (hk2 t hu).2
      rw [(hk1 t ht).2] at h3
      exact hn.1 h3
    · rw [List.flatten_cons, List.map_append]
      refine contig_append b3 i3 ?_
      intro x hx hx'
      obtain ⟨t, ht, rfl⟩ := List.mem_map.mp hx
      obtain ⟨u, hu, e⟩ := List.mem_map.mp hx'
      have h3 := (hk2 u hu).2
      have : keyOf (T.on :: T.across) u.1.2 = keyOf (T.on :: T.across) t.1.2 := congrArg Prod.fst e
      rw [this, (hk1 t ht).2] at h3
      exact hn.1 h3

end

theorem keys_blocks {N : Num} {threshold : Nat} {T : Task ρ} {L : Level ρ} {fs fr0 keys os Ss Ss'} (h : KeySpecs N threshold T L fs fr0 keys os Ss Ss') :
    ∃ parts : List (List Tri), parts.flatten = Ss'.flatten ∧
      List.Forall₂ (fun o part => ∃ k S, KeySpec N threshold T L fs fr0 k (some o) S part) (os.filterMap id) parts := by
  induction h with
  | nil => exact ⟨[], rfl, .nil⟩
  | @cons k o S S' ks os Ss Ss' h _ ih =>
    obtain ⟨parts, h1, h2⟩ := ih
    cases o with
    | none =>
      rcases h.2 with ⟨_, _, rfl⟩ | ⟨out, h3, _⟩
      · exact ⟨parts, by simpa using h1, by rw [List.filterMap_cons_none rfl]; exact h2⟩
      · cases h3
    | some o =>
      refine ⟨S' :: parts, by simp [h1], ?_⟩
      rw [List.filterMap_cons_some (f := id) (a := some o) (b := o) rfl]
      exact .cons ⟨k, S, h⟩ h2

theorem appendCols_map (F : List α) (f g : α → List Nat) : appendCols (F.map f) (F.map g) = F.map (fun x => f x ++ g x) := by
  cases F with
  | nil => rfl
  | cons x F =>
    simp only [appendCols, List.map_cons, List.zipWith_cons_cons]
    congr 1
    induction F with
    | nil => rfl
    | cons y F ih => simp [ih]

/-- regressors of a level -/
theorem keys_regs {N : Num} {threshold : Nat} {T : Task ρ} {L : Level ρ} {fs fr0 keys os Ss Ss'} (h : KeySpecs N threshold T L fs fr0 keys os Ss Ss')
    (hc : T.regressors.ops .A = [] ∨ (T.filters.ops .ABX ≠ [] ∧ T.regressors.ops .B ++ T.regressors.ops .X ≠ [])) :
    ((os.filterMap id).map BlkOut.regs).foldl appendCols [] =
      if os.filterMap id = [] then [] else (colRegs T.regressors).map (fun f => Ss'.flatten.map (Spec.regValue T.cols f)) := by
  have acc : ∀ {keys os Ss Ss'}, KeySpecs N threshold T L fs fr0 keys os Ss Ss' → ∀ A : List Tri,
      ((os.filterMap id).map BlkOut.regs).foldl appendCols ((colRegs T.regressors).map (fun f => A.map (Spec.regValue T.cols f))) =
        (colRegs T.regressors).map (fun f => (A ++ Ss'.flatten).map (Spec.regValue T.cols f)) := by
    intro keys os Ss Ss' h
    induction h with
    | nil => intro A; simp
    | @cons k o S S' ks os Ss Ss' h _ ih =>
      intro A
      rcases h.2 with ⟨rfl, rfl, rfl⟩ | ⟨out, rfl, p, hp, ho⟩
      · rw [List.filterMap_cons_none rfl, ih A]; simp
      · rw [List.filterMap_cons_some (f := id) (a := some out) (b := out) rfl, List.map_cons, List.foldl_cons]
        have hr := ho.regs (by
          rcases hc with hc | hc
          · exact Or.inl hc
          · refine Or.inr (Or.inl ⟨hc.1, ?_⟩)
            intro hs
            apply hc.2
            simp only [sortFns, List.append_eq_nil_iff, List.map_eq_nil_iff] at hs
            simp [hs.1, hs.2])
        rw [hr, appendCols_map]
        have := ih (A ++ S')
        simp only [List.map_append] at this ⊢
        rw [this]
        simp [List.append_assoc]
  induction h with
  | nil => simp
  | @cons k o S S' ks os Ss Ss' h hks ih =>
    rcases h.2 with ⟨rfl, rfl, rfl⟩ | ⟨out, rfl, p, hp, ho⟩
    · rw [List.filterMap_cons_none rfl, ih]; rfl
    · rw [List.filterMap_cons_some (f := id) (a := some out) (b := out) rfl, List.map_cons, List.foldl_cons, if_neg (by simp)]
      have hr := ho.regs (by
          rcases hc with hc | hc
          · exact Or.inl hc
          · refine Or.inr (Or.inl ⟨hc.1, ?_⟩)
            intro hs
            apply hc.2
            simp only [sortFns, List.append_eq_nil_iff, List.map_eq_nil_iff] at hs
            simp [hs.1, hs.2])
      have e : appendCols [] out.regs = out.regs := by cases out.regs <;> rfl
      rw [e, hr]
      have := acc hks S'
      rw [this]
      rfl

end ABX.Task
