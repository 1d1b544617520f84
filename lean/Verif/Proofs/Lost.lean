import Verif.Properties.ItemsThreshold
/-!
Lemmas for C95 and C96: experiments with a threshold whatever the size of the blocks.
-/
namespace ABX.Task
open ExtSort SideOps Sampler
variable {α β ρ : Type}

theorem sum_count_le [BEq β] [LawfulBEq β] : ∀ {ks : List β}, ks.Nodup → ∀ l : List β, (ks.map (fun k => l.count k)).sum ≤ l.length
  | [], _, _ => by simp
  | k :: ks, h, l => by
    rw [List.nodup_cons] at h
    have ih := sum_count_le h.2 (l.filter (fun x => !(x == k)))
    have h1 : ∀ x ∈ ks, (l.filter (fun x => !(x == k))).count x = l.count x := by
      intro x hx
      rw [List.count_filter]
      have : x ≠ k := fun h0 => h.1 (h0 ▸ hx)
      simpa using this
    rw [List.map_congr_left h1] at ih
    have h2 := List.length_eq_length_filter_add (l := l) (fun x => x == k)
    have h3 : l.count k = (l.filter (fun x => x == k)).length := by rw [List.count_eq_countP, List.countP_eq_length_filter]
    rw [List.map_cons, List.sum_cons]
    omega

/-- the first elements of a list where equal values are together have few values, when each value occurs often -/
theorem few_values [BEq β] [LawfulBEq β] {P R : List β} {z : β} (hc : Contig (P ++ z :: R)) {g : Nat} (hg : ∀ x ∈ P, g ≤ (P ++ z :: R).count x) {D : List β} (hD : D.Nodup) (hm : ∀ x ∈ D, x ∈ P ++ [z]) :
    (D.length - 1) * g ≤ P.length := by
  have h1 : ∀ x ∈ D.erase z, g ≤ P.count x := by
    intro x hx
    obtain ⟨hne, hx⟩ := (List.Nodup.mem_erase_iff hD).mp hx
    have hxP : x ∈ P := by simpa [hne] using hm x hx
    refine (hg x hxP).trans ?_
    suffices hz : (z :: R).count x = 0 by rw [List.count_append, hz, Nat.add_zero]
    rw [List.count_eq_zero]
    intro h0
    rcases List.mem_cons.mp h0 with h0 | h0
    · exact hne h0
    · obtain ⟨i, hi, hix⟩ := List.mem_iff_getElem.mp hxP
      obtain ⟨k, hk, hkx⟩ := List.mem_iff_getElem.mp h0
      refine hne (hc i P.length (P.length + 1 + k) x z (by omega) (by omega) ?_ ?_ ?_).symm
      · rw [List.getElem?_append_left hi, List.getElem?_eq_getElem hi, hix]
      · rw [List.getElem?_append_right (le_refl _)]; simp
      · rw [List.getElem?_append_right (by omega), show P.length + 1 + k - P.length = k + 1 by omega, List.getElem?_cons_succ, List.getElem?_eq_getElem hk, hkx]
  have h2 := sum_count_le (hD.erase z) P
  have h3 : (D.erase z).length * g ≤ ((D.erase z).map (fun k => P.count k)).sum := by
    generalize D.erase z = E at h1
    clear h2
    induction E with
    | nil => simp
    | cons x E ih =>
      rw [List.length_cons, List.map_cons, List.sum_cons, Nat.succ_mul]
      have := ih (fun y hy => h1 y (by simp [hy]))
      have := h1 x (by simp)
      omega
  have h4 : D.length - 1 ≤ (D.erase z).length := by
    rw [List.length_erase]
    split <;> omega
  calc (D.length - 1) * g ≤ (D.erase z).length * g := Nat.mul_le_mul_right _ h4
    _ ≤ _ := h3.trans h2

theorem few_take [BEq β] [LawfulBEq β] {O : List β} (hc : Contig O) {g m : Nat} (hg0 : 0 < g) (hg : ∀ x ∈ O, g ≤ O.count x) {D : List β} (hD : D.Nodup) (hm : ∀ x ∈ D, x ∈ O.take m) : D.length ≤ (m - 1) / g + 1 := by
  by_cases h0 : O.take m = []
  · have : D = [] := List.eq_nil_iff_forall_not_mem.mpr fun x hx => by have := hm x hx; rw [h0] at this; cases this
    rw [this]; simp
  · have h1 : (O.take m).dropLast ++ (O.take m).getLast h0 :: O.drop m = O := by
      rw [← List.singleton_append, ← List.append_assoc, List.dropLast_append_getLast, List.take_append_drop]
    have := few_values (P := (O.take m).dropLast) (z := (O.take m).getLast h0) (R := O.drop m) (by rw [h1]; exact hc) (g := g)
      (by rw [h1]; exact fun x hx => hg x (List.mem_of_mem_take (List.mem_of_mem_dropLast hx))) hD (by rw [List.dropLast_append_getLast]; exact hm)
    rw [List.length_dropLast, List.length_take] at this
    have h2 : (D.length - 1) * g ≤ m - 1 := by omega
    have := (Nat.le_div_iff_mul_le hg0).mpr h2
    omega

/-- the combinations of the values of the regressors in the blocks are numbered exactly -/
def CombosFit (e : Env) (a : Args ρ) (T : Task ρ) : Prop :=
  ∀ L ∈ T.levels, ∀ t ∈ tripsSpec a L.key, Spec.combinations a.cols (allRegs e a) ((tripsSpec a L.key).filter (Spec.sameBlock a.on a.across t)) ≤ 2 ^ 53

theorem fit_ok {n : Nat} (h : n ≤ 2 ^ 53) : ∃ ty, fitIntegerType (n : Nat) false = .ok ty := by
  unfold fitIntegerType
  simp only [Bool.false_eq_true, if_false]
  split
  · exact ⟨_, rfl⟩
  split
  · exact ⟨_, rfl⟩
  split
  · exact ⟨_, rfl⟩
  rw [if_pos (by norm_num; omega)]
  exact ⟨_, rfl⟩

/-- with samplings that end, all samplings of a level succeed -/
theorem sampleOr_any {e : Env} (he : e.Lawful) {a : Args ρ} (ha : a.OK) {T : Task ρ} (h : init e a = .ok T) {L : Level ρ} (hL : L ∈ T.levels) {fr0 : Frame} (I : InitLevel e a T L fr0) (hABX : T.regressors.ops .ABX = [])
    {threshold : Nat} (hG : CombosFit e a T) {src : List Val → List Val → Nat → Src} (hl : ∀ k k' j, (src k k' j).Lawful)
    (hend : ∀ t ∈ tripsSpec a L.key, ∀ ty k j n, fitIntegerType (Spec.combinations a.cols (allRegs e a) ((tripsSpec a L.key).filter (Spec.sameBlock a.on a.across t)) : Nat) false = .ok ty →
      threshold < n → n ≤ ((tripsSpec a L.key).filter (Spec.sameBlock a.on a.across t)).length → ∃ s, sampleT ty threshold n (src L.key k j) = .ok s) :
    SampleOr (fun _ => False) threshold src T L a.filters fr0 := by
  obtain ⟨h1, h2, h3, h4⟩ := checkDatabase_ok (init_ok h).1
  have sim : List.Forall₂ (Sim3 a.columns) (Spec.itemTriplets T.cols T.on (userAcross T.across) a.filters fr0) (tripsSpec a L.key) := by
    rw [I.cols, I.on, I.across]
    exact itemTriplets_sim h1 h2 ha.inF I.sim
  have inR : ∀ f ∈ allRegs e a, ∀ v ∈ f.inputs, v.1 ∈ a.columns := by
    intro f hf
    rcases List.mem_append.mp hf with hf | hf
    · exact ha.inR f hf
    · exact defaultRegs_in he (init_ok h).1 ha f hf
  intro key S hS p hp ty htf j n hn hnS
  obtain ⟨t0, ht0⟩ := List.exists_mem_of_length_pos (l := S) (by omega)
  have g0 := (hS.mem t0).mp ht0
  have hperm := block_eq I.hyp hS (.refl _) ht0
  have hcomb := combinations_eq I.reg hABX hperm
  rw [← sortFns_value I.hyp I.reg hp hS] at hcomb
  obtain ⟨t1, ht1, hs1⟩ := forall₂_mem_left sim t0 ((mem_itemTriplets I.hyp).mpr g0.1)
  have hb : List.Forall₂ (Sim3 a.columns) ((Spec.itemTriplets T.cols T.on (userAcross T.across) a.filters fr0).filter (Spec.sameBlock T.on (userAcross T.across) t0))
      ((tripsSpec a L.key).filter (Spec.sameBlock a.on a.across t1)) := by
    rw [I.on, I.across]
    rw [I.on, I.across] at sim
    exact forall₂_filter (fun u u' hu => sameBlock_sim h1 h2 hs1 hu) sim
  have hcs : _ = _ := combinations_sim (c := T.cols) inR hb
  replace hcomb := hcomb.trans hcs
  have f1 := hG L hL t1 ht1
  rw [hcomb] at htf
  have hcast : (⟨64, true⟩ : IntType).cast ((Spec.combinations T.cols (allRegs e a) ((tripsSpec a L.key).filter (Spec.sameBlock a.on a.across t1)) : Nat) : Int) =
      ((Spec.combinations T.cols (allRegs e a) ((tripsSpec a L.key).filter (Spec.sameBlock a.on a.across t1)) : Nat) : Int) := by
    rw [← I.cols] at f1
    clear htf hcomb hcs
    generalize Spec.combinations T.cols (allRegs e a) ((tripsSpec a L.key).filter (Spec.sameBlock a.on a.across t1)) = m at f1
    simp only [IntType.cast, IntType.lo, if_true]
    norm_num
    omega
  have hsg := fit_signed htf
  rw [hcast, I.cols] at htf
  have hlen := hperm.length_eq
  have hle := hb.length_eq
  obtain ⟨s, hs⟩ := hend t1 ht1 ty key j n htf hn (by omega)
  have hok := sampleT_okOr hsg hn (hl L.key key j)
  rw [hs] at hok ⊢
  exact hok

theorem sameBlock_trans {on : String} {across : List String} {t u w : Tri} (h1 : Spec.sameBlock on across t u = true) (h2 : Spec.sameBlock on across u w = true) : Spec.sameBlock on across t w = true := by
  unfold Spec.sameBlock at *
  rw [Bool.and_eq_true, beq_iff_eq] at *
  refine ⟨h1.1.trans h2.1, ?_⟩
  have g1 := h1.2
  have g2 := h2.2
  split_ifs at * with h0
  · rw [beq_iff_eq] at *; exact g1.trans g2
  · simp only [List.all_eq_true, beq_iff_eq] at *
    exact fun c hc => (g1 c hc).trans (g2 c hc)

/-- the rows of a block that is cut -/
theorem rows_cut {threshold : Nat} {cs : Cols} {on : String} {across : List String} {rs : List (DBFun Nat)} {IT Q : List Tri} {label : Tri → List Val} {key : List Val} {abx : Tri → ℚ} {out : List Analyze.OutRow}
    (hsub : ∀ t ∈ Q, t ∈ IT) (hgrp : ∀ u ∈ IT, ∀ w ∈ IT, Spec.sameGroup cs on across rs u w = (label w == label u)) (R : Spec.LabelResults label key abx Q out)
    (cut : LevelCut threshold cs on across rs IT Q) {t : Tri} (ht : t ∈ IT) (hG : Spec.combinations cs rs (IT.filter (Spec.sameBlock on across t)) ≤ 2 ^ 53) :
    (∃ o ∈ out, ∃ u ∈ IT.filter (Spec.sameBlock on across t), o.labels = label u) ∧
      ∀ ty, fitIntegerType (Spec.combinations cs rs (IT.filter (Spec.sameBlock on across t)) : Nat) false = .ok ty → ∀ g, threshold < g →
        (∀ u ∈ IT.filter (Spec.sameBlock on across t), g ≤ (IT.filter (fun w => label w == label u)).length) →
        (out.filter (fun o => (IT.filter (Spec.sameBlock on across t)).any (fun u => label u == o.labels))).length ≤ (ty.hi.toNat - 1) / g + 1 := by
  refine ⟨?_, ?_⟩
  · obtain ⟨ty, hty⟩ := fit_ok hG
    obtain ⟨u, hu, hs⟩ := (cut t ht hG ty hty).2
    obtain ⟨o, ho, h1⟩ := (R.all (label u)).mpr ⟨u, hu, rfl⟩
    exact ⟨o, ho, u, List.mem_filter.mpr ⟨hsub u hu, hs⟩, h1⟩
  · intro ty hty g hg hmany
    obtain ⟨⟨⟨O, o1, o2, o3⟩, -⟩, -⟩ := cut t ht hG ty hty
    have hO : ∀ u ∈ O, u ∈ IT ∧ Spec.sameBlock on across t u = true := fun u hu => List.mem_filter.mp (o1.mem_iff.mp hu)
    have hblk : ∀ u ∈ IT, ∀ w ∈ IT, Spec.sameBlock on across t u = true → label w = label u → Spec.sameBlock on across t w = true := by
      intro u hu w hw h1 h2
      have h3 : Spec.sameGroup cs on across rs u w = true := by rw [hgrp u hu w hw, h2, beq_self_eq_true]
      unfold Spec.sameGroup at h3
      rw [Bool.and_eq_true] at h3
      exact sameBlock_trans h1 h3.1
    have hcount : ∀ u ∈ IT, Spec.sameBlock on across t u = true → (O.map label).count (label u) = (IT.filter (fun w => label w == label u)).length := by
      intro u hu hs
      rw [List.count_eq_countP, List.countP_map, List.countP_eq_length_filter, (o1.filter _).length_eq, List.filter_filter]
      refine congrArg List.length (List.filter_congr fun w hw => ?_)
      simp only [Function.comp_apply]
      by_cases h1 : label w = label u
      · simp [h1, hblk u hu w hw hs h1]
      · simp [h1]
    have hD : ((out.filter (fun o => (IT.filter (Spec.sameBlock on across t)).any (fun u => label u == o.labels))).map Analyze.OutRow.labels).Nodup :=
      R.once.sublist (List.filter_sublist.map _)
    have := few_take (O := O.map label) (g := g) (m := ty.hi.toNat) ?_ (by omega) ?_ hD ?_
    · rwa [List.length_map] at this
    · intro i j k x y hij hjk hi hj hk
      rw [List.getElem?_map, Option.map_eq_some_iff] at hi hj hk
      obtain ⟨u, hu, rfl⟩ := hi
      obtain ⟨w, hw, rfl⟩ := hj
      obtain ⟨v, hv, hvu⟩ := hk
      have iu := (hO u (List.mem_of_getElem? hu)).1
      have iw := (hO w (List.mem_of_getElem? hw)).1
      have iv := (hO v (List.mem_of_getElem? hv)).1
      have h1 := o2 i j k u w v hij hjk hu hw hv (by rw [hgrp u iu v iv, hvu, beq_self_eq_true])
      rw [hgrp u iu w iw, beq_iff_eq] at h1
      exact h1
    · intro x hx
      obtain ⟨u, hu, rfl⟩ := List.mem_map.mp hx
      rw [hcount u (hO u hu).1 (hO u hu).2]
      exact hmany u (o1.mem_iff.mp hu)
    · intro x hx
      obtain ⟨o, ho, rfl⟩ := List.mem_map.mp hx
      obtain ⟨ho, hu⟩ := List.mem_filter.mp ho
      obtain ⟨u, hu, h1⟩ := List.any_eq_true.mp hu
      obtain ⟨hu1, hu2⟩ := List.mem_filter.mp hu
      obtain ⟨q, hq, h2⟩ := (R.all o.labels).mp ⟨o, ho, rfl⟩
      have h3 : label q = label u := by rw [h2]; exact (beq_iff_eq.mp h1).symm
      have h4 := hblk u hu1 q (hsub q hq) hu2 h3
      have h5 := o3 q hq h4 (by
        rw [List.filter_congr (hgrp q (hsub q hq)), h3]
        have := hmany u hu
        omega)
      rw [← h2, ← List.map_take]
      exact List.mem_map_of_mem h5

end ABX.Task

namespace ABX.Pipeline
open ExtSort ABX.Task Pairs SideOps Sampler Distances Score EndToEnd Analyze F64
variable {ρ φ δ : Type}

/-- with a threshold there are at most as many rows of triplets/data as triplets, whatever the size of the blocks -/
theorem data_leC {e : Env} (he : e.Lawful) {a : Args ρ} (ha : a.OK) (hf : Spec'.KeptFirst a) {T : Task.Task ρ} (h : init e a = .ok T) (hA : ∀ f ∈ a.regressors, Spec.readsA a.cols f = false)
    {N : Num} (hN : ArgsortLaw N.argsort) {threshold : Nat}
    {src : List Val → List Val → Nat → Src} (hsrc : ∀ k k' j, (src k k' j).Lawful) {F : File} {total : Int} {t tb : IntType} {outs : List (List Val × List BlkOut)}
    (K : FileOK e N threshold src T F total t tb outs) : F.data.length ≤ (T.levels.map (fun L => (tripsSpec a L.key).length)).sum := by
  have h4 : F.data.length ≤ (outs.map (fun p => (levelTrips p).length)).sum := by
    rw [K.data, List.length_map, List.length_flatMap]
    have : ∀ l : List (List Val × List BlkOut), ((kept l).map (fun p => (levelTrips p).length)).sum ≤ (l.map (fun p => (levelTrips p).length)).sum := by
      intro l
      induction l with
      | nil => exact Nat.le_refl _
      | cons p l ih =>
        unfold kept at ih ⊢
        rw [List.map_cons, List.sum_cons, List.filter_cons]
        split
        · rw [List.map_cons, List.sum_cons]; omega
        · omega
    exact this outs
  refine h4.trans ?_
  have key : ∀ (Ls : List (Level ρ)) (os : List (List Val × List BlkOut)), (∀ L ∈ Ls, L ∈ T.levels) → List.Forall₂ (fun L p => p.1 = L.key ∧ levelOut e N threshold src T L = .ok p.2) Ls os →
      (os.map (fun p => (levelTrips p).length)).sum ≤ (Ls.map (fun L => (tripsSpec a L.key).length)).sum := by
    intro Ls os hLs hF
    induction hF with
    | nil => exact Nat.le_refl _
    | @cons L p Ls os h1 _ ih =>
      rw [List.map_cons, List.map_cons, List.sum_cons, List.sum_cons]
      refine Nat.add_le_add ?_ (ih (fun L hL => hLs L (by simp [hL])))
      have hL := hLs L (by simp)
      by_cases hne : levelTrips p = []
      · rw [hne]; exact Nat.zero_le _
      · obtain ⟨S, M, -⟩ := level_main he ha h hL (positional he ha hf h hL) hN hsrc h1.2
        have hne' : tripsSpec a L.key ≠ [] := by
          intro h0
          apply hne
          unfold levelTrips
          rw [M.trips, List.map_eq_nil_iff, List.eq_nil_iff_forall_not_mem]
          intro u hu
          have := M.sub u hu
          rw [h0] at this
          cases this
        have hab := levelOut_abx h1.2 (by rintro h0; apply hne; unfold levelTrips; rw [h0]; rfl)
        obtain ⟨fr0, I⟩ := init_level he ha h hL
        have := (levelOut_okOr I.hyp I.reg (positional he ha hf h hL) I.nonempty hN (threshold := threshold) (src := src) (Q := (· = .diverge)) (sampleOr_diverge hsrc)).2.1 hab
          (fun row => sort_some he ha h hL hne' row) (.inl (ops_A h hA))
        rw [h1.2, level_length he ha h I] at this
        exact this
  exact key _ _ (fun L hL => hL) K.outs_ok

theorem small_ofC {e : Env} (he : e.Lawful) {a : Args ρ} (ha : a.OK) (hf : Spec'.KeptFirst a) {T : Task.Task ρ} (h : init e a = .ok T) (hA : ∀ f ∈ a.regressors, Spec.readsA a.cols f = false) (hz : Sizes a T)
    {N : Num} (hN : ArgsortLaw N.argsort) {threshold : Nat} {src : List Val → List Val → Nat → Src} (hsrc : ∀ k k' j, (src k k' j).Lawful) {bl1 bl2 : Nat} (h1 : 0 < bl1) (h2 : 0 < bl2) {F : File}
    (hF : generate e N threshold src bl1 bl2 T = .ok (some F)) : Small e T F := by
  refine small_items he ha hf h hz ?_
  obtain ⟨total, t, tb, outs, K⟩ := generate_ok h1 h2 hF
  exact (data_leC he ha hf h hA hN hsrc K).trans hz.trips

/-- the levels of the file are those with triplets -/
theorem mem_bysC {e : Env} (he : e.Lawful) {a : Args ρ} (ha : a.OK) (hf : Spec'.KeptFirst a) {T : Task.Task ρ} (h : init e a = .ok T)
    {N : Num} (hN : ArgsortLaw N.argsort) (hE : N.Exact) {threshold : Nat} (hthr : 0 < threshold) (hG : CombosFit e a T)
    {src : List Val → List Val → Nat → Src} (hsrc : ∀ k k' j, (src k k' j).Lawful) {F : File} {total : Int} {t tb : IntType} {outs : List (List Val × List BlkOut)}
    (K : FileOK e N threshold src T F total t tb outs) (key : List Val) : key ∈ F.bys ↔ (∃ p ∈ a.db, levelKey a p.2 = key) ∧ tripsSpec a key ≠ [] := by
  refine mem_bys_of he ha h (fun p L hL hp ho => ?_) K key
  obtain ⟨S, M, -⟩ := level_main he ha h hL (positional he ha hf h hL) hN hsrc ho
  unfold levelTrips
  rw [M.trips, Ne, List.map_eq_nil_iff]
  constructor
  · intro h0 h1
    apply h0
    rw [List.eq_nil_iff_forall_not_mem]
    intro u hu
    have := M.sub u hu
    rw [h1] at this
    cases this
  · intro h0 h1
    obtain ⟨u, hu⟩ := List.exists_mem_of_ne_nil _ h0
    obtain ⟨ty, hty⟩ := fit_ok (hG L hL u hu)
    obtain ⟨w, hw, -⟩ := (M.cut hE (by omega) u hu (hG L hL u hu) ty hty).2
    rw [h1] at hw
    cases hw

/-- the experiment ends when the samplings do -/
theorem completesC {e : Env} (he : e.Lawful) {a : Args ρ} (ha : a.OK) (hf : Spec'.KeptFirst a) {T : Task.Task ρ} (h : init e a = .ok T)
    (hne : ∃ p ∈ a.db, tripsSpec a (levelKey a p.2) ≠ []) (hmix : ∀ f ∈ a.regressors, Spec.mixed a.cols f = false) (hA : ∀ f ∈ a.regressors, Spec.readsA a.cols f = false)
    (hz : Sizes a T) {threshold : Nat} (hthr : 0 < threshold) (hG : CombosFit e a T)
    (hp : (T.levels.map (fun L => (tripsSpec a L.key).length)).sum ≤ 6250000 ∨ ∀ L ∈ T.levels, (itemsOf a L.key).length ≤ 3535) {c : Choices} (hl : c.Lawful) (hE : c.num.Exact) (hc : 0 < c.nCpu)
    (hend : ∀ L ∈ T.levels, ∀ t ∈ tripsSpec a L.key, ∀ ty k j n, fitIntegerType (Spec.combinations a.cols (allRegs e a) ((tripsSpec a L.key).filter (Spec.sameBlock a.on a.across t)) : Nat) false = .ok ty →
      threshold < n → n ≤ ((tripsSpec a L.key).filter (Spec.sameBlock a.on a.across t)).length → ∃ s, sampleT ty threshold n (c.src L.key k j) = .ok s)
    {getFeat : ρ → Except Err φ} {distance : φ → φ → Except Err δ} (hg : ∀ r ∈ a.feat, ∃ f, getFeat r = .ok f) (hd : ∀ r ∈ a.feat, ∀ r' ∈ a.feat, ∀ f g, getFeat r = .ok f → getFeat r' = .ok g → ∃ d, distance f g = .ok d) (zero : δ)
    {lt : δ → δ → Bool} (hlt : ∀ x y, lt x y = true → lt y x = false) : ∃ F S, RanT threshold c e T getFeat distance lt F S := by
  have hgen := (generate_okOr he ha hf h hl.num (threshold := threshold) (src := c.src) (Q := fun _ => False)
    (fun L hL fr0 I => sampleOr_any he ha h hL I ((abx_iff h).mpr hmix) hG hl.src (hend L hL)) hl.bl1 hl.bl2).2.1 hne hmix (.inl hA)
  cases hgo : generate e c.num threshold c.src c.bl1 c.bl2 T with
  | error er => rw [hgo] at hgen; exact hgen.elim
  | ok r =>
    rw [hgo] at hgen
    obtain ⟨F, rfl⟩ := hgen.ok
    have hS := small_ofC he ha hf h hA hz hl.num hl.src hl.bl1 hl.bl2 hgo
    obtain ⟨total, t, tb, outs, K⟩ := generate_ok hl.bl1 hl.bl2 hgo
    have hbne : F.bys ≠ [] := by
      obtain ⟨p, hp', hne⟩ := hne
      intro h0
      have := (mem_bysC he ha hf h hl.num hE hthr hG hl.src K (levelKey a p.2)).mpr ⟨⟨p, hp', rfl⟩, hne⟩
      rw [h0] at this
      cases this
    obtain ⟨S, hS'⟩ := ran_of_file he ha h hz hl hc hgo hS hbne (hp.imp (fun h0 => (data_leC he ha hf h hA hl.num hl.src K).trans h0) id) hg hd zero hlt
    exact ⟨F, S, hS'⟩

/-- the combinations of the labels of B and X -/
theorem combinations_two {e : Env} (he : e.Lawful) {a : Args ρ} (hp : Plain a) {key : List Val} {t : Tri} (ht : t ∈ tripsSpec a key) (p : Tri → Bool) :
    Spec.combinations a.cols (allRegs e a) ((tripsSpec a key).filter p) ≤ ((a.on :: a.across).map (fun c => (a.db.map (fun p => p.2 c)).dedup.length)).prod := by
  unfold Spec.combinations
  rw [(((allRegs_perm he hp).filter (Spec.readsBX a.cols)).map _).prod_eq]
  have hpos : ∀ v ∈ Spec.plainVars a.on a.across, ∀ u ∈ tripsSpec a key, Spec.regValue a.cols (columnReg e a.db v) u < (a.db.map (fun p => p.2 v.1)).dedup.length := by
    intro v hv u hu
    rw [regValue_plain hp e u hv]
    refine lt_of_lt_of_eq (List.findIdx_lt_length.mpr ⟨_, at_mem hp he hu hv, by simp⟩) ?_
    exact (he.sort _).length_eq
  have hle : ∀ v ∈ Spec.plainVars a.on a.across, (((tripsSpec a key).filter p).map (Spec.regValue a.cols (columnReg e a.db v))).foldl max 0 + 1 ≤ (a.db.map (fun p => p.2 v.1)).dedup.length := by
    intro v hv
    have h0 := hpos v hv t ht
    rcases foldl_max_mem (((tripsSpec a key).filter p).map (Spec.regValue a.cols (columnReg e a.db v))) 0 with h | h
    · rw [h]; omega
    · obtain ⟨u, hu, h'⟩ := List.mem_map.mp h
      rw [← h']
      exact hpos v hv u (List.mem_filter.mp hu).1
  unfold Spec.plainVars at hle ⊢
  generalize a.on :: a.across = cs at hle
  induction cs with
  | nil => simp
  | cons c cs ih =>
    have h2 := ih (fun v hv => by
      rw [List.flatMap_cons] at *
      exact hle v (List.mem_append_right _ hv))
    have h1 := hle (c, .two) (by simp)
    have h0 : Spec.readsBX a.cols (columnReg e a.db (c, .one)) = false := by simp [Spec.readsBX, columnReg]
    rw [List.flatMap_cons, List.map_append, List.filter_append, List.map_append, List.prod_append]
    refine le_of_le_of_eq (Nat.mul_le_mul (n₂ := (a.db.map (fun p => p.2 c)).dedup.length) ?_ h2) (by rw [List.map_cons, List.prod_cons])
    rw [List.map_cons, List.map_cons, List.map_nil, List.filter_cons, h0, if_neg (by simp), List.filter_cons, List.filter_nil]
    split
    · simpa using h1
    · simp only [List.map_nil, List.prod_nil]; exact le_trans (Nat.succ_le_succ (Nat.zero_le _)) h1

end ABX.Pipeline
