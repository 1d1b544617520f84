import Verif.Proofs.ThresholdMean
import Verif.Properties.Threshold
/-! The triplets of a block that a threshold keeps, among the triplets written for a level. -/
namespace ABX.Task
open ExtSort SideOps Sampler
variable {ρ : Type}

section
variable {e : Env} {T : Task ρ} {L : Level ρ} {fs : List (DBFun Bool)} {fr0 : Frame} (H : LevelHyp e T L fs fr0)
include H

/-- the triplets and the regressors of a block do not depend on the random numbers -/
theorem block_src {rs : List (DBFun Nat)} (R : RegHyp T rs) (hpos : Positional L.frame) {key : List Val} (hk : ∃ p ∈ L.frame, keyOf (T.on :: T.across) p.2 = key) :
    ∃ p ∈ aItems T.on T.across L.frame key, ∃ S : List Tri, BlockTri T.cols T.on T.across fs fr0 key S ∧
      ∀ {N : Num} {threshold : Nat} {src : List Val → List Val → Nat → Src} {byR : List Nat} {o : Option BlkOut}, blockOut e N threshold src T L byR key = .ok o →
        (o = none ∧ S = []) ∨ ∃ out q, o = some out ∧ sortBlock N threshold (src L.key key) (S.map lab) ((sortFns T.cols T.regressors p.2).map (fun k => S.map k)) = .ok (out.trips, q, out.index) := by
  obtain ⟨ob, hbt, p, hp, IB, IX, hB, hX, hob⟩ := blockTriplets_ok H hpos hk
  have htri := block_tri H hp hB hX
  refine ⟨p, hp, _, htri, fun {N threshold src byR o} h => ?_⟩
  unfold blockOut at h
  rw [hbt] at h
  cases hpb : pBlock T.cols T.filters p.2
  · rw [hpb] at hob
    simp only [Bool.false_eq_true, if_false] at hob ⊢
    subst hob
    simp only [Except.ok.injEq] at h
    exact Or.inl ⟨h.symm, by simp⟩
  · right
    rw [hpb] at hob
    simp only [if_true] at hob ⊢
    subst hob
    simp only [] at h
    rw [onAcrossByRegs_ok R.mgrOK R.availM] at h
    simp only [] at h
    split at h
    · cases h
    rename_i out hout
    injection h with h
    have sub : ∀ (P Q : Nat × Row → Bool) q, q ∈ (L.frame.filter P).filter Q → q ∈ L.frame := fun P Q q hq =>
      (List.mem_filter.mp (List.mem_filter.mp hq).1).1
    obtain ⟨-, q, f2, -⟩ := finishBlock_ok (A := (aItems T.on T.across L.frame key).filter (pA T.cols T.filters p.2)) R.mgrOK R.availM H.distinctL (sub _ _)
      (fun q hq => (List.mem_filter.mp (hB.mem_iff.mp (List.mem_filter.mp hq).1)).1)
      (fun q hq => (List.mem_filter.mp (hX.mem_iff.mp (List.mem_filter.mp hq).1)).1) hout
    exact ⟨out, q, h.symm, f2⟩

/-- of the triplets of a level, those of a block are those that `sort_and_threshold` keeps of it -/
theorem level_src {rs : List (DBFun Nat)} (R : RegHyp T rs) (hpos : Positional L.frame) {t : Tri} (ht : Good T.cols T.on T.across fs fr0 t.1 t.2.1 t.2.2) :
    ∃ p ∈ aItems T.on T.across L.frame (keyOf (T.on :: T.across) t.1.2), ∃ S : List Tri, BlockTri T.cols T.on T.across fs fr0 (keyOf (T.on :: T.across) t.1.2) S ∧
      ∀ {N : Num} {threshold : Nat} {src : List Val → List Val → Nat → Src} {os : List BlkOut}, levelOut e N threshold src T L = .ok os →
        ∃ trips q ix, sortBlock N threshold (src L.key (keyOf (T.on :: T.across) t.1.2)) (S.map lab) ((sortFns T.cols T.regressors p.2).map (fun k => S.map k)) = .ok (trips, q, ix) ∧
          ∀ u ∈ S, lab u ∈ os.flatMap BlkOut.trips ↔ lab u ∈ trips := by
  have hkey := good_key H "gen" ht
  have hk := (mem_groupKeys H.lawful).mp hkey
  obtain ⟨p, hp, S, hS, hb⟩ := block_src H R hpos hk
  refine ⟨p, hp, S, hS, fun {N threshold src os} h => ?_⟩
  unfold levelOut at h
  split at h
  · cases h
  split at h
  · cases h
  rename_i byR _
  split at h
  · cases h
  rename_i outs houts
  injection h with h
  have hF := sequence_inv houts
  obtain ⟨o, hom, ho⟩ := forall₂_mem_left hF _ hkey
  have htS : t ∈ S := (hS.mem t).mpr ⟨ht, rfl⟩
  rcases hb ho with ⟨-, h0⟩ | ⟨out, q, rfl, hsb⟩
  · rw [h0] at htS; simp at htS
  refine ⟨out.trips, q, out.index, hsb, fun u hu => ⟨fun hm => ?_, fun hm => ?_⟩⟩
  · rw [← h, List.mem_flatMap] at hm
    obtain ⟨o', ho', hm⟩ := hm
    obtain ⟨k', hk', hbo⟩ := forall₂_mem_right hF _ (filterMap_id_mem ho')
    obtain ⟨p', hp', S', hS', hb'⟩ := block_src H R hpos ((mem_groupKeys H.lawful).mp hk')
    rcases hb' hbo with ⟨h0, -⟩ | ⟨out', q', h1, hsb'⟩
    · cases h0
    cases h1
    obtain ⟨S'', e1, e2⟩ := sortBlock_sub hsb'
    have hsub : ∀ w ∈ S'', w ∈ S' := by
      rcases e2 with ⟨-, rfl, -⟩ | ⟨-, e2⟩
      · exact fun w hw => hw
      · exact mem_of_gather e2
    rw [e1] at hm
    obtain ⟨w, hw, hlw⟩ := List.mem_map.mp hm
    obtain ⟨gw, kw⟩ := (hS'.mem w).mp (hsub w hw)
    obtain ⟨gu, ku⟩ := (hS.mem u).mp hu
    have hwu : w = u := lab_inj H ⟨gw.1, gw.2.1, gw.2.2.1⟩ ⟨gu.1, gu.2.1, gu.2.2.1⟩ hlw
    subst hwu
    rw [← kw, ku, ho] at hbo
    cases hbo
    rw [e1]
    exact List.mem_map_of_mem hw
  · rw [← h, List.mem_flatMap]
    exact ⟨out, by simpa using hom, hm⟩

end

/-- a block of a level of a task: its key `k`, its triplets `M` with the sorting regressors `K`, and the values `row` of these by triplet -/
structure TaskBlock (e : Env) (a : Args ρ) (T : Task ρ) (L : Level ρ) (t : Tri) (k : List Val) (M : List Tri) (K : List (Tri → Nat)) (row : Nat × Nat × Nat → List Nat) : Prop where
  nodup : (M.map lab).Nodup
  ne : K ≠ []
  rows : ∀ u ∈ M, row (lab u) = keyRow K u
  mem : ∀ x, x ∈ M.map lab ↔ ∃ u ∈ tripsSpec a L.key, Spec.sameBlock a.on a.across t u = true ∧ lab u = x
  length : M.length = ((tripsSpec a L.key).filter (Spec.sameBlock a.on a.across t)).length
  comb : (nRegs (K.map (fun k => M.map k))).prod = Spec.combinations a.cols (allRegs e a) ((tripsSpec a L.key).filter (Spec.sameBlock a.on a.across t))
  group : ∀ u ∈ tripsSpec a L.key, (lab u ∈ M.map lab ∧ row (lab u) = row (lab t)) ↔ Spec.sameGroup a.cols a.on a.across (allRegs e a) t u = true
  out : ∀ {N : Num} {threshold : Nat} {src : List Val → List Val → Nat → Src} {os : List BlkOut}, levelOut e N threshold src T L = .ok os →
    ∃ trips q ix, sortBlock N threshold (src L.key k) (M.map lab) (K.map (fun k => M.map k)) = .ok (trips, q, ix) ∧ ∀ x ∈ M.map lab, x ∈ os.flatMap BlkOut.trips ↔ x ∈ trips

theorem sim_lab {cols : List String} {u0 u : Tri} (h : Sim3 cols u0 u) : lab u0 = lab u := by
  obtain ⟨⟨a1, _⟩, ⟨b1, _⟩, ⟨x1, _⟩⟩ := h
  simp only [lab, a1, b1, x1]

theorem task_block {e : Env} (he : e.Lawful) {a : Args ρ} (ha : a.OK) {T : Task ρ} (h : init e a = .ok T) {L : Level ρ} (hL : L ∈ T.levels)
    (hpos : Positional L.frame) (hABX : T.regressors.ops .ABX = []) {t : Tri} (ht : t ∈ tripsSpec a L.key) :
    ∃ k M K row, TaskBlock e a T L t k M K row ∧ (a.across ≠ [] → k = keyOf (a.on :: a.across) t.1.2) := by
  obtain ⟨fr0, I⟩ := init_level he ha h hL
  have hc := (init_ok h).1
  obtain ⟨h1, h2, h3, h4⟩ := checkDatabase_ok hc
  have H := I.hyp
  have R := I.reg
  have inR : ∀ f ∈ allRegs e a, ∀ v ∈ f.inputs, v.1 ∈ a.columns := by
    intro f hf
    rcases List.mem_append.mp hf with hf | hf
    · exact ha.inR f hf
    · exact defaultRegs_in he hc ha f hf
  have sim : List.Forall₂ (Sim3 a.columns) (Spec.itemTriplets T.cols T.on (userAcross T.across) a.filters fr0) (tripsSpec a L.key) := by
    rw [I.cols, I.on, I.across]
    exact itemTriplets_sim h1 h2 ha.inF I.sim
  have h2' : ∃ f ∈ allRegs e a, f.inputs = [(T.on, Ext.two)] := by
    refine ⟨columnReg e a.db (a.on, .two), ?_, by rw [I.on]; rfl⟩
    simp [allRegs, defaultRegs]
  obtain ⟨t0, ht0, st⟩ := forall₂_mem_right sim t ht
  have gt := (mem_itemTriplets H).mp ht0
  obtain ⟨p, hp, S, hS, hout⟩ := level_src H R hpos gt
  have htS : t0 ∈ S := (hS.mem t0).mpr ⟨gt, rfl⟩
  have hbl := block_eq H hS (.refl _) htS
  have inj : ∀ u ∈ S, ∀ w ∈ S, lab u = lab w → u = w := by
    intro u hu w hw hl
    have g1 := ((hS.mem u).mp hu).1
    have g2 := ((hS.mem w).mp hw).1
    exact lab_inj H ⟨g1.1, g1.2.1, g1.2.2.1⟩ ⟨g2.1, g2.2.1, g2.2.2.1⟩ hl
  have hb : List.Forall₂ (Sim3 a.columns) ((Spec.itemTriplets T.cols T.on (userAcross T.across) a.filters fr0).filter (Spec.sameBlock T.on (userAcross T.across) t0))
      ((tripsSpec a L.key).filter (Spec.sameBlock a.on a.across t)) := by
    rw [I.on, I.across] at sim ⊢
    exact forall₂_filter (fun u u' hu => sameBlock_sim h1 h2 st hu) sim
  have hlab : (S.map lab).Perm (((tripsSpec a L.key).filter (Spec.sameBlock a.on a.across t)).map lab) := by
    rw [← forall₂_map_eq hb (fun x y hxy => sim_lab hxy)]
    exact hbl.map lab
  have hrow : ∀ u ∈ S, (match S.find? (fun w => lab w == lab u) with | some w => keyRow (sortFns T.cols T.regressors p.2) w | none => []) = keyRow (sortFns T.cols T.regressors p.2) u := by
    intro u hu
    cases hf : S.find? (fun w => lab w == lab u) with
    | none =>
      have := List.find?_eq_none.mp hf u hu
      simp at this
    | some w =>
      have := List.find?_some hf
      rw [beq_iff_eq] at this
      rw [inj w (List.mem_of_find?_eq_some hf) u hu this]
  refine ⟨keyOf (T.on :: T.across) t0.1.2, S, sortFns T.cols T.regressors p.2, fun x => match S.find? (fun w => lab w == x) with | some w => keyRow (sortFns T.cols T.regressors p.2) w | none => [],
    ⟨List.Nodup.map_on inj hS.nodup, sortFns_ne H R h2' p.2 gt, hrow, ?_, ?_, ?_, ?_, ?_⟩, ?_⟩
  · intro x
    rw [hlab.mem_iff, List.mem_map]
    simp only [List.mem_filter, and_assoc]
  · rw [← List.length_map lab, hlab.length_eq, List.length_map]
  · have hcomb := combinations_eq R hABX hbl
    rw [← sortFns_value H R hp hS] at hcomb
    exact hcomb.trans ((congrArg (fun c => Spec.combinations c (allRegs e a) _) I.cols).trans (combinations_sim inR hb))
  · intro u hu
    obtain ⟨u0, hu0, su⟩ := forall₂_mem_right sim u hu
    have gu := (mem_itemTriplets H).mp hu0
    rw [← sim_lab su, ← sim_lab st, ← sameGroup_sim h1 h2 inR st su, ← I.cols, ← I.on, ← I.across]
    rw [hrow t0 htS]
    constructor
    · rintro ⟨m1, m2⟩
      obtain ⟨w, hw, e1⟩ := List.mem_map.mp m1
      have gw := (hS.mem w).mp hw
      have : w = u0 := lab_inj H ⟨gw.1.1, gw.1.2.1, gw.1.2.2.1⟩ ⟨gu.1, gu.2.1, gu.2.2.1⟩ e1
      subst this
      rw [hrow w hw] at m2
      exact (keyRow_iff H R hABX hp gt rfl gw.1 gw.2).mp m2.symm
    · intro hg
      have e2 : keyOf (T.on :: T.across) u0.1.2 = keyOf (T.on :: T.across) t0.1.2 := (congrArg Prod.fst ((gk_iff H _ gt.1 gu.1).mp hg)).symm
      have huS := (hS.mem u0).mpr ⟨gu, e2⟩
      refine ⟨List.mem_map_of_mem huS, ?_⟩
      rw [hrow u0 huS]
      exact ((keyRow_iff H R hABX hp gt rfl gu e2).mpr hg).symm
  · intro N threshold src os ho
    obtain ⟨trips, q, ix, e1, e2⟩ := hout ho
    refine ⟨trips, q, ix, e1, fun x hx => ?_⟩
    obtain ⟨u, hu, rfl⟩ := List.mem_map.mp hx
    exact e2 u hu
  · intro hac
    have hT : T.across = a.across := by
      have := I.across
      unfold userAcross at this
      split at this
      · exact absurd this.symm hac
      · exact this
    rw [hT, I.on]
    unfold keyOf
    apply List.map_congr_left
    intro c hc'
    rcases List.mem_cons.mp hc' with rfl | hc'
    · exact st.1.2 _ h1
    · exact st.1.2 _ (h2 c hc')

/-- the mean of a group from its triplets -/
theorem groupMean_of {f : Nat × Nat × Nat → ℝ} {row : Nat × Nat × Nat → List Nat} {v : List Nat} {trips : List (Nat × Nat × Nat)} (hn : trips.Nodup) {A : List Tri} (hA : (A.map lab).Nodup)
    (hmem : ∀ x, (x ∈ trips ∧ row x = v) ↔ x ∈ A.map lab) {abx : Tri → ℚ} (hf : ∀ t ∈ A, f (lab t) = (abx t : ℝ)) :
    groupMean f row v trips = (((A.map abx).sum / A.length : ℚ) : ℝ) := by
  have hp : (trips.filter (fun t => row t = v)).Perm (A.map lab) := by
    rw [List.perm_ext_iff_of_nodup (hn.filter _) hA]
    intro x
    rw [← hmem, List.mem_filter, decide_eq_true_eq]
  unfold groupMean
  rw [(hp.map f).sum_eq, hp.length_eq, List.length_map, List.map_map]
  push_cast
  congr 1
  rw [List.map_map]
  exact congrArg List.sum (List.map_congr_left hf)

end ABX.Task

namespace ABX.Pipeline
open ExtSort ABX.Task Pairs SideOps Sampler Distances Score EndToEnd Analyze F64
variable {ρ φ δ : Type}

/-- labels determine the combination of values when the values of a regressor are different -/
theorem isLabels_inj {rs : List (DBFun Nat)} {idx : DBFun Nat → List Val} (hn : ∀ f ∈ rs, (idx f).Nodup) {v w : DBFun Nat → Nat} (hv : ∀ f ∈ rs, v f < (idx f).length) (hw : ∀ f ∈ rs, w f < (idx f).length) {labels : List Val}
    (h : Spec.IsLabels (rs.map idx) (rs.map v) labels) (h' : Spec.IsLabels (rs.map idx) (rs.map w) labels) : rs.map v = rs.map w := by
  apply List.ext_getElem?
  intro j
  by_cases hj : j < rs.length
  · have hf := List.getElem_mem hj
    have e1 := h.2 j (idx rs[j]) (v rs[j]) (by simp [hj]) (by simp [hj])
    have e2 := h'.2 j (idx rs[j]) (w rs[j]) (by simp [hj]) (by simp [hj])
    rw [e1, List.getElem?_eq_getElem (hv _ hf), List.getElem?_eq_getElem (hw _ hf), Option.some.injEq, List.Nodup.getElem_inj_iff (hn _ hf)] at e2
    simp [hj, e2]
  · rw [List.getElem?_eq_none (by simpa using hj), List.getElem?_eq_none (by simpa using hj)]

/-- a row of the results of a run, in terms of the triplets `Q` written for its level -/
theorem row_written {e : Env} (he : e.Lawful) {a : Args ρ} (ha : a.OK) (hf : Spec'.KeptFirst a) {T : Task.Task ρ} (h : init e a = .ok T)
    (hpos : ∀ (i : Nat) (p : Nat × Row), a.db[i]? = some p → p.1 = i) (hfeat : a.feat.length = a.db.length)
    (hA : ∀ f ∈ a.regressors, Spec.readsA a.cols f = false) {idx : DBFun Nat → List Val}
    (hidx : ∀ f ∈ allRegs e a, 0 < (idx f).length ∧ ∀ L ∈ T.levels, ∀ t ∈ tripsSpec a L.key, Spec.regValue a.cols f t < (idx f).length)
    (hc : ((allRegs e a).map (fun f => (idx f).length)).prod ≤ 2 ^ 53) (hz : Sizes a T) {threshold : Nat} {c : Choices} (hl : c.Lawful)
    {getFeat : ρ → Except Err φ} {distance : φ → φ → Except Err δ} {lt : δ → δ → Bool} (hlt : ∀ x y, lt x y = true → lt y x = false) {F : File} {S : List Int}
    (hr : RanT threshold c e T getFeat distance lt F S) (hS : Small e T F) {rows : List OutRow} (hrows : collapse c.sortRows ((colRegs T.regressors).map idx) F S = .ok rows) {o : OutRow} (ho : o ∈ rows) :
    (colRegs T.regressors).Perm (allRegs e a) ∧ ∃ L ∈ T.levels, L.key = o.by_ ∧ ∃ (Q : List Tri) (abx : Tri → ℚ) (os : List BlkOut) (t : Tri), t ∈ Q ∧ (∀ u ∈ Q, u ∈ tripsSpec a L.key) ∧ (threshold = 0 → Q.Perm (tripsSpec a L.key)) ∧
      Task.Sampled e c.num threshold a L.key Q ∧
      (∀ u ∈ Q, Spec.IsAbx lt (Spec.recDist getFeat distance) (Spec.records a.by_ (a.db.map (·.2)) a.feat (specKey a L.key)) u (abx u)) ∧
      levelOut e c.num threshold c.src T L = .ok os ∧ os.flatMap BlkOut.trips = Q.map lab ∧
      Spec.IsLabels ((colRegs T.regressors).map idx) ((colRegs T.regressors).map (fun f => Spec.regValue a.cols f t)) o.labels ∧
      ∀ Q' : List Tri, Q'.Perm (Q.filter (fun u => (colRegs T.regressors).map (fun f => Spec.regValue a.cols f u) == (colRegs T.regressors).map (fun f => Spec.regValue a.cols f t))) →
        o.n = Q'.length ∧ |o.score - (Q'.map abx).sum / Q'.length| ≤ 2 ^ (-52 : ℤ) ∧ o.score = rnd (rnd ((Q'.map (fun u => 2 * abx u - 1)).sum / Q'.length) + 1) / 2 := by
  obtain ⟨outs, h1, h2, h3, h4⟩ := level_scores he ha hf h hpos hfeat (.inl hA) hidx hc hz hl hlt hr hS
  rw [h1] at hrows
  cases hrows
  obtain ⟨out, hout, ho⟩ := List.mem_flatten.mp ho
  obtain ⟨key, hkey, Q, abx, d1, d2, d3, d4, d5, -, -, -, -, -, -, -, -, -, -, -, L, hL, hLk, os, hos, htr⟩ := forall₂_mem_right h4 _ hout
  obtain ⟨combos, c1, c2, c3⟩ := d5 Q (.refl _)
  obtain ⟨v, hv, r1, r2, r3, r4, r5, -⟩ := forall₂_mem_right c3 _ ho
  obtain ⟨t, ht, rfl⟩ := (c2 v).mp hv
  subst hLk
  refine ⟨h2, L, hL, r2.symm, Q, abx, os, t, ht, d1, d2, d3, d4, hos, htr, r1, fun Q' hQ' => ?_⟩
  rw [(hQ'.map abx).sum_eq, (hQ'.map (fun u => 2 * abx u - 1)).sum_eq, hQ'.length_eq, ← r3]
  exact ⟨rfl, r5, r4⟩

end ABX.Pipeline
