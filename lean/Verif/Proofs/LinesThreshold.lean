import Verif.Spec.LinesThreshold
import Verif.Properties.ResultFile
/-!
Lemmas for C93: the results of a plain experiment with a threshold.
-/
namespace ABX.Pipeline
open ExtSort ABX.Task Pairs SideOps Sampler Distances Score EndToEnd Analyze F64
variable {ρ φ δ : Type}

theorem plainVars_nodup {on : String} {across : List String} (hn : (on :: across).Nodup) : (Spec.plainVars on across).Nodup := by
  unfold Spec.plainVars
  rw [List.nodup_flatMap]
  refine ⟨by intro c _; simp, hn.imp ?_⟩
  intro c d hcd v h1 h2
  simp only [List.mem_cons, List.not_mem_nil, or_false] at h1 h2
  rcases h1 with rfl | rfl <;> rcases h2 with h2 | h2 <;> exact hcd (congrArg Prod.fst h2)

theorem columnReg_inputs {e : Env} {fr : Frame} {u w : Var} (h : columnReg e fr u = columnReg e fr w) : u = w := by
  have := congrArg DBFun.inputs h
  simpa [columnReg] using this

theorem allRegs_perm {e : Env} (he : e.Lawful) {a : Args ρ} (hp : Plain a) : (allRegs e a).Perm ((Spec.plainVars a.on a.across).map (columnReg e a.db)) := by
  obtain ⟨h1, h2⟩ := regs_plain he hp (List.Perm.refl (allRegs e a))
  rw [h1]
  exact h2.map _

/-- the columns that the file is read with are those of a plain experiment -/
theorem vars_plain {e : Env} (he : e.Lawful) {a : Args ρ} (hp : Plain a) (hn : (a.on :: a.across).Nodup) {vars : List Var} (hv : vars.Nodup) (hm : ∀ v, v ∈ vars ↔ columnReg e a.db v ∈ allRegs e a) :
    vars.Perm (Spec.plainVars a.on a.across) := by
  rw [List.perm_ext_iff_of_nodup hv (plainVars_nodup hn)]
  intro v
  rw [hm, (allRegs_perm he hp).mem_iff, List.mem_map]
  constructor
  · rintro ⟨u, hu, h⟩
    rw [← columnReg_inputs h]
    exact hu
  · exact fun h => ⟨v, h, rfl⟩

/-- the sample of the triplets and their scores, by labels -/
theorem sampled_plain {e : Env} (he : e.Lawful) {a : Args ρ} (hp : Plain a) {vars : List Var} (hv : vars.Perm (Spec.plainVars a.on a.across)) {threshold : Nat} (hthr : 0 < threshold) {key : List Val}
    {Q : List Tri} {abx : Tri → ℚ} {isAbx : Tri → ℚ → Prop} {out : List OutRow}
    (hS : Spec.LabelSampled threshold (fun t => vars.map (fun v => Spec.sem a.cols t.1.2 t.2.1.2 t.2.2.2 v)) (tripsSpec a key) Q) (hA : ∀ t ∈ Q, isAbx t (abx t))
    (hR : Spec.LabelResults (fun t => vars.map (fun v => Spec.sem a.cols t.1.2 t.2.1.2 t.2.2.2 v)) key abx Q out) :
    Spec.SampledResults threshold a.on a.across vars key (Spec.group a.on a.across (itemsOf a key)) isAbx out := by
  have hrs : (vars.map (columnReg e a.db)).Perm (allRegs e a) := (hv.map _).trans (allRegs_perm he hp).symm
  have hlab : ∀ t : Tri, vars.map (fun v => Spec.sem a.cols t.1.2 t.2.1.2 t.2.2.2 v) = vars.map ((labelsOfTrip a.on t).at a.on) := by
    intro t
    exact List.map_congr_left fun v hm => sem_at hp t (hv.mem_iff.mp hm)
  simp only [hlab] at hS hR
  have hgrp : ∀ t ∈ tripsSpec a key, (tripsSpec a key).filter (fun u => vars.map ((labelsOfTrip a.on u).at a.on) == vars.map ((labelsOfTrip a.on t).at a.on)) =
      Spec.group a.on a.across (itemsOf a key) (labelsOfTrip a.on t) := by
    intro t ht
    rw [← filter_group hp he hrs ht]
    refine List.filter_congr fun u hu => ?_
    rw [Bool.eq_iff_iff, beq_iff_eq, beq_iff_eq, value_iff hp he hrs hu, varsOf_columnRegs]
  have row : ∀ t ∈ tripsSpec a key, ∀ o ∈ out, o.labels = vars.map ((labelsOfTrip a.on t).at a.on) →
      Spec.SampledRow threshold a.on vars key (Spec.group a.on a.across (itemsOf a key)) isAbx (labelsOfTrip a.on t) o := by
    intro t ht o ho hl
    have hn := hR.n o ho
    have hc := hS.counts o.labels
    rw [hl, hgrp t ht] at hc
    rw [hl] at hn
    refine ⟨hl, hR.by_ o ho, hn.trans hc, ⟨(Q.filter (fun u => vars.map ((labelsOfTrip a.on u).at a.on) == o.labels)).map (fun u => (u, abx u)), ?_, ?_, ?_, ?_⟩, hR.range o ho⟩
    · rw [List.map_map]
      have : ((·.1 : Tri × ℚ → Tri) ∘ fun u => (u, abx u)) = id := rfl
      rw [this, List.map_id]
      exact hS.once.filter _
    · intro q hq
      obtain ⟨u, hu, rfl⟩ := List.mem_map.mp hq
      obtain ⟨h1, h2⟩ := List.mem_filter.mp hu
      refine ⟨?_, hA u h1⟩
      rw [← hgrp t ht, List.mem_filter, ← hl]
      exact ⟨hS.among u h1, h2⟩
    · rw [List.length_map, hl]; exact hn.symm
    · have := hR.score o ho
      rw [List.map_map]
      exact this
  refine ⟨hR.once, ?_, ?_⟩
  · intro o ho
    obtain ⟨t, ht, h1⟩ := (hR.all o.labels).mp ⟨o, ho, rfl⟩
    have ht' := hS.among t ht
    exact ⟨_, (trip_possible hp ht').1, List.ne_nil_of_mem (trip_possible hp ht').2, row t ht' o ho h1.symm⟩
  · intro l hl hne
    obtain ⟨t, htg⟩ := List.exists_mem_of_ne_nil _ hne
    have ht := group_trips hp hl htg
    obtain ⟨-, -, -, g1, g2, g3, g4, g5, g6, -⟩ := mem_group.mp htg
    have hag : (labelsOfTrip a.on t).on1 = l.on1 ∧ (labelsOfTrip a.on t).on2 = l.on2 ∧ (∀ c ∈ a.across, (labelsOfTrip a.on t).across1 c = l.across1 c) ∧
        ∀ c ∈ a.across, (labelsOfTrip a.on t).across2 c = l.across2 c := ⟨g1, g3, g2, g6⟩
    have hc := hS.counts (vars.map ((labelsOfTrip a.on t).at a.on))
    rw [hgrp t ht] at hc
    have hpos : 0 < (Q.filter (fun u => vars.map ((labelsOfTrip a.on u).at a.on) == vars.map ((labelsOfTrip a.on t).at a.on))).length := by
      rw [hc]
      exact lt_min hthr (List.length_pos_of_mem (trip_possible hp ht).2)
    obtain ⟨u, hu⟩ := List.exists_mem_of_length_pos hpos
    obtain ⟨hu1, hu2⟩ := List.mem_filter.mp hu
    obtain ⟨o, ho, h1⟩ := (hR.all (vars.map ((labelsOfTrip a.on t).at a.on))).mpr ⟨u, hu1, by simpa using hu2⟩
    obtain ⟨r1, r2, r3, r4, r5⟩ := row t ht o ho h1
    refine ⟨o, ho, ?_, r2, ?_, ?_, r5⟩
    · rw [r1, (at_iff hv (on_across hp ht)).mpr hag]
    · rw [r3, group_congr _ hag]
    · rw [← group_congr _ hag]; exact r4

theorem tripsSpec_nodup (a : Args ρ) (key : List Val) : (tripsSpec a key).Nodup := by
  have h : (itemsOf a key).Nodup := List.Nodup.of_map _ (items_nodup a key)
  unfold tripsSpec Spec.itemTriplets
  exact (prod3_nodup h h h).filter _

/-- the block of a triplet is made of the triplets of three kinds of items -/
theorem block_length {a : Args ρ} (hp : Plain a) (hac : a.across ≠ []) {key : List Val} {t : Tri} :
    ((tripsSpec a key).filter (Spec.sameBlock a.on a.across t)).length ≤
      (Spec.cell a.on a.across (itemsOf a key) (t.1.2 a.on) t.1.2).length *
        ((itemsOf a key).filter (fun p => p.2 a.on != t.1.2 a.on && a.across.all (fun c => p.2 c == t.1.2 c))).length *
        ((itemsOf a key).filter (fun p => p.2 a.on == t.1.2 a.on && a.across.all (fun c => p.2 c != t.1.2 c))).length := by
  rw [← prod3_length]
  refine (List.subperm_of_subset ((tripsSpec_nodup a key).filter _) ?_).length_le
  intro u hu
  obtain ⟨h1, h2⟩ := List.mem_filter.mp hu
  obtain ⟨hA, hB, hX, g1, g2, g3, g4, -⟩ := (mem_trips hp).mp h1
  have he : a.across.isEmpty = false := by simpa using hac
  unfold Spec.sameBlock at h2
  simp only [he, Bool.false_eq_true, if_false, Bool.and_eq_true, beq_iff_eq, List.all_eq_true] at h2
  rw [mem_prod3]
  unfold Spec.cell
  simp only [List.mem_filter, Bool.and_eq_true, beq_iff_eq, bne_iff_ne, List.all_eq_true]
  refine ⟨⟨hA, h2.1.symm, fun c hc => (h2.2 c hc).symm⟩, ⟨hB, ?_, fun c hc => ?_⟩, hX, ?_, fun c hc => ?_⟩
  · rw [h2.1]; exact g2
  · rw [h2.2 c hc]; exact g3 c hc
  · rw [h2.1]; exact g1.symm
  · rw [h2.2 c hc]; exact g4 c hc

/-- there are at most as many combinations of regressors as combinations of labels -/
theorem combinations_le {e : Env} (he : e.Lawful) {a : Args ρ} (hp : Plain a) (hfew : FewLabels a) {key : List Val} {t : Tri} (ht : t ∈ tripsSpec a key) (p : Tri → Bool) :
    Spec.combinations a.cols (allRegs e a) ((tripsSpec a key).filter p) ≤ 2 ^ 53 := by
  have hfew' := prod_perm_labels he hp
  unfold FewLabels at hfew
  rw [← hfew'] at hfew
  refine le_trans ?_ hfew
  unfold Spec.combinations
  have hpos : ∀ f ∈ allRegs e a, ∀ u ∈ tripsSpec a key, Spec.regValue a.cols f u < (idxOf e a f).length := by
    intro f hf u hu
    obtain ⟨v, hv, rfl⟩ := List.mem_map.mp ((allRegs_perm he hp).mem_iff.mp hf)
    rw [regValue_plain hp e u hv]
    exact List.findIdx_lt_length.mpr ⟨_, at_mem hp he hu hv, by simp⟩
  have hle : ∀ f ∈ allRegs e a, (((tripsSpec a key).filter p).map (Spec.regValue a.cols f)).foldl max 0 + 1 ≤ (idxOf e a f).length := by
    intro f hf
    have h0 := hpos f hf t ht
    rcases foldl_max_mem (((tripsSpec a key).filter p).map (Spec.regValue a.cols f)) 0 with h | h
    · rw [h]; omega
    · obtain ⟨u, hu, h'⟩ := List.mem_map.mp h
      rw [← h']
      exact hpos f hf u (List.mem_filter.mp hu).1
  generalize allRegs e a = rs at hle hpos
  induction rs with
  | nil => simp
  | cons f rs ih =>
    have h1 := hle f (by simp)
    have h2 := ih (fun g hg => hle g (by simp [hg])) (fun g hg => hpos g (by simp [hg]))
    rw [List.filter_cons, List.map_cons, List.prod_cons]
    split
    · rw [List.map_cons, List.prod_cons]
      exact Nat.mul_le_mul h1 h2
    · exact h2.trans (Nat.le_mul_of_pos_left _ (by omega))

end ABX.Pipeline

namespace ABX.Database
open ABX.Spec Spec SideOps ABX.Task ABX.Pipeline Analyze ExtSort
variable {φ δ : Type}

theorem lineTri_inj {lines : List Line} {g : Line → Row} (hn : (lines.map (·.2)).Nodup) {t u : Item × Item × Item}
    (ht : ∀ i, i = t.1 ∨ i = t.2.1 ∨ i = t.2.2 → i ∈ lines.zipIdx.map (fun q => (q.2, g q.1))) (hu : ∀ i, i = u.1 ∨ i = u.2.1 ∨ i = u.2.2 → i ∈ lines.zipIdx.map (fun q => (q.2, g q.1)))
    (h : lineTri lines t = lineTri lines u) : t = u := by
  have key : ∀ p ∈ lines.zipIdx.map (fun q => (q.2, g q.1)), ∀ q ∈ lines.zipIdx.map (fun q => (q.2, g q.1)), lineAt lines p.1 = lineAt lines q.1 → p = q := by
    intro p hp q hq he
    obtain ⟨h1, h2⟩ := item_line hp
    obtain ⟨h3, h4⟩ := item_line hq
    have := (lineAt_inj hn h1 h3).mp (by rw [he])
    exact Prod.ext this (by rw [h2, h4, he])
  unfold lineTri at h
  obtain ⟨A, B, X⟩ := t
  obtain ⟨A', B', X'⟩ := u
  simp only [Prod.mk.injEq] at h
  rw [key A (ht A (.inl rfl)) A' (hu A' (.inl rfl)) h.1, key B (ht B (.inr (.inl rfl))) B' (hu B' (.inr (.inl rfl))) h.2.1, key X (ht X (.inr (.inr rfl))) X' (hu X' (.inr (.inr rfl))) h.2.2]

/-- rows in terms of other triplets -/
theorem SampledResults.transfer {τ τ' : Type} {threshold : Nat} {on : String} {across : List String} {vars : List Var} {key : List Val} {grp : Labels → List τ} {grp' : Labels → List τ'} {isAbx : τ → ℚ → Prop} {isAbx' : τ' → ℚ → Prop}
    {out : List OutRow} (g : τ → τ') (hg : ∀ l : Labels, grp' l = (grp l).map g) (hi : ∀ l, ∀ t ∈ grp l, ∀ u ∈ grp l, g t = g u → t = u) (ha : ∀ t q, isAbx t q → isAbx' (g t) q)
    (h : SampledResults threshold on across vars key grp isAbx out) : SampledResults threshold on across vars key grp' isAbx' out := by
  have hne : ∀ l, grp' l ≠ [] ↔ grp l ≠ [] := fun l => by rw [hg]; simp
  have row : ∀ l o, SampledRow threshold on vars key grp isAbx l o → SampledRow threshold on vars key grp' isAbx' l o := by
    rintro l o ⟨h1, h2, h3, ⟨Q, q1, q2, q3, q4⟩, h5⟩
    refine ⟨h1, h2, by rw [h3, hg, List.length_map], ⟨Q.map (fun q => (g q.1, q.2)), ?_, ?_, by rw [List.length_map, q3], ?_⟩, h5⟩
    · rw [List.map_map]
      have : ((·.1 : τ' × ℚ → τ') ∘ fun q : τ × ℚ => (g q.1, q.2)) = g ∘ (·.1) := rfl
      rw [this, ← List.map_map]
      refine q1.map_on ?_
      intro x hx y hy
      obtain ⟨p, hp, rfl⟩ := List.mem_map.mp hx
      obtain ⟨q, hq, rfl⟩ := List.mem_map.mp hy
      exact hi l _ (q2 p hp).1 _ (q2 q hq).1
    · intro q hq
      obtain ⟨p, hp, rfl⟩ := List.mem_map.mp hq
      rw [hg]
      exact ⟨List.mem_map_of_mem (q2 p hp).1, ha _ _ (q2 p hp).2⟩
    · rw [List.map_map]
      exact q4
  refine ⟨h.once, ?_, ?_⟩
  · intro o ho
    obtain ⟨l, h1, h2, h3⟩ := h.rows o ho
    exact ⟨l, h1, (hne l).mpr h2, row l o h3⟩
  · intro l h1 h2
    obtain ⟨o, ho, h3⟩ := h.all l h1 ((hne l).mp h2)
    exact ⟨o, ho, row l o h3⟩

section
variable {fs : Text → Option (Raw Val)} {f : Text} {r : Raw Val} {loc : List Text} {x : Text} {lab : List Text} {on : String} {across by_ : List String}

/-- in every level, at most `B` triplets for each combination of labels of A -/
def SmallBlocks (B : Nat) (r : Raw Val) (loc : List Text) (x : Text) (lab : List Text) (on : String) (across by_ : List String) : Prop :=
  ∀ key v s, lineBlock (lineLabel loc x lab) on across (levelLines r (3 + loc.length) (x :: lab) by_ key) v s ≤ B

theorem block_lines (hI : ItemFile fs f r loc x lab) (hC : Columns (x :: lab) on across by_) (hac : across ≠ []) {B : Nat}
    (hb : SmallBlocks B r loc x lab on across by_) (key : List Val) (t : Tri) :
    ((tripsSpec (plainArgs r (3 + loc.length) (x :: lab) on across by_) key).filter (sameBlock on across t)).length ≤ B := by
  have hpl : Plain (plainArgs r (3 + loc.length) (x :: lab) on across by_) := ⟨rfl, rfl, rfl⟩
  refine (block_length hpl hac).trans (le_trans (le_of_eq ?_) (hb key (t.1.2 on) t.1.2))
  have hval : ∀ i ∈ (levelLines r (3 + loc.length) (x :: lab) by_ key).zipIdx.map (fun q => (q.2, rowOfLine (3 + loc.length) (x :: lab) q.1)), ∀ c, c = on ∨ c ∈ across →
      lineLabel loc x lab (lineAt (levelLines r (3 + loc.length) (x :: lab) by_ key) i.1) c = some (i.2 c) := by
    intro i hi c hc
    obtain ⟨h1, h2⟩ := item_line hi
    have hc' : c.toList ∈ x :: lab := by
      rcases hc with rfl | hc
      · exact hC.on
      · exact hC.across c hc
    rw [h2]
    exact label_toRow (hlen hI) (List.mem_filter.mp (List.mem_of_getElem? h1)).1 (mem_ofList.mpr hc')
  rw [items_lines hI hC]
  unfold lineBlock
  congr 1
  · congr 1
    · unfold lineCell ABX.Spec.cell
      rw [← filter_lineAt (levelLines r (3 + loc.length) (x :: lab) by_ key) (rowOfLine (3 + loc.length) (x :: lab)) _ _ ?_, List.length_map]
      intro i hi
      rw [hval i hi on (.inl rfl), Bool.eq_iff_iff]
      simp only [Bool.and_eq_true, beq_iff_eq, List.all_eq_true, Option.some.injEq]
      refine and_congr_right fun _ => forall₂_congr fun c hc => ?_
      rw [hval i hi c (.inr hc), Option.some.injEq]
    · rw [← filter_lineAt (levelLines r (3 + loc.length) (x :: lab) by_ key) (rowOfLine (3 + loc.length) (x :: lab)) _ _ ?_, List.length_map]
      intro i hi
      rw [hval i hi on (.inl rfl), Bool.eq_iff_iff]
      simp only [Bool.and_eq_true, beq_iff_eq, bne_iff_ne, ne_eq, List.all_eq_true, Option.some.injEq]
      refine and_congr_right fun _ => forall₂_congr fun c hc => ?_
      rw [hval i hi c (.inr hc), Option.some.injEq]
  · rw [← filter_lineAt (levelLines r (3 + loc.length) (x :: lab) by_ key) (rowOfLine (3 + loc.length) (x :: lab)) _ _ ?_, List.length_map]
    intro i hi
    rw [hval i hi on (.inl rfl), Bool.eq_iff_iff]
    simp only [Bool.and_eq_true, beq_iff_eq, bne_iff_ne, ne_eq, List.all_eq_true, Option.some.injEq]
    refine and_congr_right fun _ => forall₂_congr fun c hc => ?_
    rw [hval i hi c (.inr hc), Option.some.injEq]

theorem fit_lines {e : Env} (he : e.Lawful) (hI : ItemFile fs f r loc x lab) (hC : Columns (x :: lab) on across by_) (hfew : FewLineLabels r loc x lab on across) (hac : across ≠ []) {B : Nat} (hB : B ≤ 256)
    (hb : SmallBlocks B r loc x lab on across by_) (threshold : Nat) (key : List Val) :
    GroupFit threshold (plainArgs r (3 + loc.length) (x :: lab) on across by_).cols on across (allRegs e (plainArgs r (3 + loc.length) (x :: lab) on across by_)) (tripsSpec (plainArgs r (3 + loc.length) (x :: lab) on across by_) key) := by
  apply GroupFit.small
  intro t ht
  exact ⟨combinations_le he ⟨rfl, rfl, rfl⟩ (few_lines hI hC hfew) ht _, (block_lines hI hC hac hb key t).trans hB⟩

end

end ABX.Database
