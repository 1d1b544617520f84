import Verif.Spec.ItemsThreshold
import Verif.Proofs.LinesThreshold
/-!
Lemmas for C94: the results of a plain experiment with a threshold and without across columns.
-/
namespace ABX.Pipeline
open ExtSort ABX.Task Pairs SideOps Sampler Distances Score EndToEnd Analyze F64
variable {ρ φ δ : Type}

/-- without across columns the groups are those of an item A and values of the regressors -/
theorem sameGroup_item {e : Env} (he : e.Lawful) {a : Args ρ} (ha : a.OK) {T : Task.Task ρ} (h : init e a = .ok T) {L : Level ρ} (hL : L ∈ T.levels)
    (hA : ∀ f ∈ a.regressors, Spec.readsA a.cols f = false) (hac : a.across = []) {rs : List (DBFun Nat)} (hrs : rs.Perm (allRegs e a))
    {t u : Tri} (ht : t ∈ tripsSpec a L.key) (hu : u ∈ tripsSpec a L.key) :
    Spec.sameGroup a.cols a.on a.across (allRegs e a) t u = true ↔ u.1.1 = t.1.1 ∧ rs.map (fun f => Spec.regValue a.cols f u) = rs.map (fun f => Spec.regValue a.cols f t) := by
  rw [List.map_inj_left]
  unfold Spec.sameGroup Spec.sameBlock
  simp only [hac, List.isEmpty_nil, if_true, Bool.and_eq_true, beq_iff_eq, List.all_eq_true, Bool.or_eq_true, Bool.not_eq_true']
  constructor
  · rintro ⟨⟨h1, h2⟩, h3⟩
    refine ⟨h2.symm, fun f hf => ?_⟩
    have hf := hrs.mem_iff.mp hf
    rcases h3 f hf with h4 | h4
    · refine (regValue_block he ha h hL hf ?_ h4 ht hu h1 ?_).symm
      · rcases List.mem_append.mp hf with hf | hf
        · exact hA f hf
        · exact defaultRegs_readsA f hf
      · rw [hac]; rfl
    · exact h4.symm
  · rintro ⟨h0, h1⟩
    have hd : ∀ f ∈ defaultRegs e a a.db, Spec.regValue a.cols f t = Spec.regValue a.cols f u := fun f hf => (h1 f (hrs.mem_iff.mpr (List.mem_append.mpr (.inr hf)))).symm
    exact ⟨⟨columnReg_inj he ht (hd _ (by simp [defaultRegs])), h0.symm⟩, fun f hf => .inr (h1 f (hrs.mem_iff.mpr hf)).symm⟩

/-- the sample of the triplets of each item and their scores, by labels -/
theorem each_plain {e : Env} (he : e.Lawful) {a : Args ρ} (hp : Plain a) (hac : a.across = []) {vars : List Var} (hv : vars.Perm (Spec.plainVars a.on a.across)) {threshold : Nat} (hthr : 0 < threshold) {key : List Val}
    {Q : List Tri} {abx : Tri → ℚ} {isAbx : Tri → ℚ → Prop} {out : List OutRow}
    (hS : Spec.LabelSampled threshold (fun t => Val.int t.1.1 :: vars.map (fun v => Spec.sem a.cols t.1.2 t.2.1.2 t.2.2.2 v)) (tripsSpec a key) Q) (hA : ∀ t ∈ Q, isAbx t (abx t))
    (hR : Spec.LabelResults (fun t => vars.map (fun v => Spec.sem a.cols t.1.2 t.2.1.2 t.2.2.2 v)) key abx Q out) :
    Spec.EachResults threshold a.on vars key (Spec.group a.on a.across (itemsOf a key)) (fun t => t.1.1) isAbx out := by
  have hrs : (vars.map (columnReg e a.db)).Perm (allRegs e a) := (hv.map _).trans (allRegs_perm he hp).symm
  have hlab : ∀ t : Tri, vars.map (fun v => Spec.sem a.cols t.1.2 t.2.1.2 t.2.2.2 v) = vars.map ((labelsOfTrip a.on t).at a.on) := by
    intro t
    exact List.map_congr_left fun v hm => sem_at hp t (hv.mem_iff.mp hm)
  simp only [hlab] at hS hR
  have hgrp : ∀ t ∈ tripsSpec a key, (tripsSpec a key).filter (fun u => vars.map ((labelsOfTrip a.on u).at a.on) == vars.map ((labelsOfTrip a.on t).at a.on)) =
      Spec.group a.on a.across (itemsOf a key) (labelsOfTrip a.on t) := by
    intro t ht
    rw [← filter_group hp he hrs ht]
    refine List.filter_congr fun u hu => ?_
    rw [Bool.eq_iff_iff, beq_iff_eq, beq_iff_eq, value_iff hp he hrs hu, varsOf_columnRegs]
  have hcount : ∀ t ∈ tripsSpec a key, ∀ i, ((Q.filter (fun u => vars.map ((labelsOfTrip a.on u).at a.on) == vars.map ((labelsOfTrip a.on t).at a.on))).filter (fun u => u.1.1 == i)).length =
      min threshold ((Spec.group a.on a.across (itemsOf a key) (labelsOfTrip a.on t)).filter (fun u => u.1.1 == i)).length := by
    intro t ht i
    have hc := hS.counts (Val.int i :: vars.map ((labelsOfTrip a.on t).at a.on))
    rw [← hgrp t ht, List.filter_filter, List.filter_filter]
    have e1 : ∀ u : Tri, (Val.int u.1.1 :: vars.map ((labelsOfTrip a.on u).at a.on) == Val.int i :: vars.map ((labelsOfTrip a.on t).at a.on)) =
        (u.1.1 == i && (vars.map ((labelsOfTrip a.on u).at a.on) == vars.map ((labelsOfTrip a.on t).at a.on))) := by
      intro u
      rw [Bool.eq_iff_iff, Bool.and_eq_true, beq_iff_eq, beq_iff_eq, beq_iff_eq, List.cons.injEq, Val.int.injEq]
      exact and_congr_left fun _ => Int.natCast_inj
    simp only [e1] at hc
    exact hc
  have row : ∀ t ∈ tripsSpec a key, ∀ o ∈ out, o.labels = vars.map ((labelsOfTrip a.on t).at a.on) →
      Spec.EachRow threshold a.on vars key (Spec.group a.on a.across (itemsOf a key)) (fun t => t.1.1) isAbx (labelsOfTrip a.on t) o := by
    intro t ht o ho hl
    have hn := hR.n o ho
    refine ⟨hl, hR.by_ o ho, ⟨(Q.filter (fun u => vars.map ((labelsOfTrip a.on u).at a.on) == o.labels)).map (fun u => (u, abx u)), ?_, ?_, ?_, ?_, ?_⟩, hR.range o ho⟩
    · rw [List.map_map]
      have : ((·.1 : Tri × ℚ → Tri) ∘ fun u => (u, abx u)) = id := rfl
      rw [this, List.map_id]
      exact hS.once.filter _
    · intro q hq
      obtain ⟨u, hu, rfl⟩ := List.mem_map.mp hq
      obtain ⟨h1, h2⟩ := List.mem_filter.mp hu
      refine ⟨?_, hA u h1⟩
      rw [← hgrp t ht, List.mem_filter, ← hl]
      exact ⟨hS.among u h1, h2⟩
    · intro i
      rw [List.filter_map, List.length_map, hl]
      exact hcount t ht i
    · rw [List.length_map]; exact hn.symm
    · have := hR.score o ho
      rw [List.map_map]
      exact this
  refine ⟨hR.once, ?_, ?_⟩
  · intro o ho
    obtain ⟨t, ht, h1⟩ := (hR.all o.labels).mp ⟨o, ho, rfl⟩
    have ht' := hS.among t ht
    exact ⟨_, hac ▸ (trip_possible hp ht').1, List.ne_nil_of_mem (trip_possible hp ht').2, row t ht' o ho h1.symm⟩
  · intro l hl hne
    obtain ⟨t, htg⟩ := List.exists_mem_of_ne_nil _ hne
    have ht := group_trips hp (hac ▸ hl) htg
    obtain ⟨-, -, -, g1, g2, g3, g4, g5, g6, -⟩ := mem_group.mp htg
    have hag : (labelsOfTrip a.on t).on1 = l.on1 ∧ (labelsOfTrip a.on t).on2 = l.on2 ∧ (∀ c ∈ a.across, (labelsOfTrip a.on t).across1 c = l.across1 c) ∧
        ∀ c ∈ a.across, (labelsOfTrip a.on t).across2 c = l.across2 c := ⟨g1, g3, g2, g6⟩
    have hpos : 0 < ((Q.filter (fun u => vars.map ((labelsOfTrip a.on u).at a.on) == vars.map ((labelsOfTrip a.on t).at a.on))).filter (fun u => u.1.1 == t.1.1)).length := by
      rw [hcount t ht]
      exact lt_min hthr (List.length_pos_of_mem (List.mem_filter.mpr ⟨(trip_possible hp ht).2, by simp⟩))
    obtain ⟨u, hu⟩ := List.exists_mem_of_length_pos hpos
    obtain ⟨hu1, hu2⟩ := List.mem_filter.mp (List.mem_filter.mp hu).1
    obtain ⟨o, ho, h1⟩ := (hR.all (vars.map ((labelsOfTrip a.on t).at a.on))).mpr ⟨u, hu1, by simpa using hu2⟩
    obtain ⟨r1, r2, r4, r5⟩ := row t ht o ho h1
    refine ⟨o, ho, ?_, r2, ?_, r5⟩
    · rw [r1, (at_iff hv (on_across hp ht)).mpr hag]
    · rw [← group_congr _ hag]; exact r4

/-- the block of a triplet is made of those of its item A -/
theorem item_block {a : Args ρ} (hp : Plain a) (hac : a.across = []) {key : List Val} {t : Tri} (ht : t ∈ tripsSpec a key) :
    ((tripsSpec a key).filter (Spec.sameBlock a.on a.across t)).length ≤
      ((itemsOf a key).filter (fun p => p.2 a.on != t.1.2 a.on)).length * (((itemsOf a key).filter (fun p => p.2 a.on == t.1.2 a.on)).length - 1) := by
  obtain ⟨tA, -, -, t1, -⟩ := (mem_trips hp).mp ht
  have hnd : (itemsOf a key).Nodup := List.Nodup.of_map _ (items_nodup a key)
  classical
  have hX : (((itemsOf a key).filter (fun p => p.2 a.on == t.1.2 a.on)).erase t.1).length = ((itemsOf a key).filter (fun p => p.2 a.on == t.1.2 a.on)).length - 1 :=
    List.length_erase_of_mem (List.mem_filter.mpr ⟨tA, by simp⟩)
  rw [← hX, ← Nat.one_mul (_ * _), ← Nat.mul_assoc, ← List.length_singleton (a := t.1), ← prod3_length]
  refine (List.subperm_of_subset ((tripsSpec_nodup a key).filter _) ?_).length_le
  intro u hu
  obtain ⟨h1, h2⟩ := List.mem_filter.mp hu
  obtain ⟨hA, hB, hX, g1, g2, g3, -, g5⟩ := (mem_trips hp).mp h1
  unfold Spec.sameBlock at h2
  simp only [hac, List.isEmpty_nil, if_true, Bool.and_eq_true, beq_iff_eq] at h2
  have hu1 : u.1 = t.1 := by
    have := items_nodup a key
    exact (List.inj_on_of_nodup_map this) hA tA h2.2.symm
  rw [mem_prod3]
  refine ⟨by simp [hu1], List.mem_filter.mpr ⟨hB, ?_⟩, ?_⟩
  · rw [bne_iff_ne, h2.1]; exact g2
  · rw [List.Nodup.mem_erase_iff (hnd.filter _), List.mem_filter, beq_iff_eq, h2.1]
    refine ⟨fun h0 => g5 hac ?_, hX, g1.symm⟩
    rw [h0, hu1]

end ABX.Pipeline

namespace ABX.Database
open ABX.Spec Spec SideOps ABX.Task ABX.Pipeline Analyze ExtSort
variable {φ δ : Type}

/-- rows in terms of other triplets -/
theorem EachResults.transfer {τ τ' : Type} {threshold : Nat} {on : String} {vars : List Var} {key : List Val} {grp : Labels → List τ} {grp' : Labels → List τ'} {first : τ → Nat} {first' : τ' → Nat}
    {isAbx : τ → ℚ → Prop} {isAbx' : τ' → ℚ → Prop}
    {out : List OutRow} (g : τ → τ') (hg : ∀ l : Labels, grp' l = (grp l).map g) (hi : ∀ l, ∀ t ∈ grp l, ∀ u ∈ grp l, g t = g u → t = u)
    (hfst : ∀ l, ∀ t ∈ grp l, ∀ u ∈ grp l, first' (g t) = first' (g u) ↔ first t = first u) (ha : ∀ t q, isAbx t q → isAbx' (g t) q)
    (h : EachResults threshold on vars key grp first isAbx out) : EachResults threshold on vars key grp' first' isAbx' out := by
  have hne : ∀ l, grp' l ≠ [] ↔ grp l ≠ [] := fun l => by rw [hg]; simp
  have row : ∀ l o, EachRow threshold on vars key grp first isAbx l o → EachRow threshold on vars key grp' first' isAbx' l o := by
    rintro l o ⟨h1, h2, ⟨Q, q1, q2, q5, q3, q4⟩, h5⟩
    refine ⟨h1, h2, ⟨Q.map (fun q => (g q.1, q.2)), ?_, ?_, ?_, by rw [List.length_map, q3], ?_⟩, h5⟩
    · rw [List.map_map]
      have : ((·.1 : τ' × ℚ → τ') ∘ fun q : τ × ℚ => (g q.1, q.2)) = g ∘ (·.1) := rfl
      rw [this, ← List.map_map]
      refine q1.map_on ?_
      intro x hx y hy
      obtain ⟨p, hp, rfl⟩ := List.mem_map.mp hx
      obtain ⟨q, hq, rfl⟩ := List.mem_map.mp hy
      exact hi l _ (q2 p hp).1 _ (q2 q hq).1
    · intro q hq
      obtain ⟨p, hp, rfl⟩ := List.mem_map.mp hq
      rw [hg]
      exact ⟨List.mem_map_of_mem (q2 p hp).1, ha _ _ (q2 p hp).2⟩
    · intro i
      rw [hg, List.filter_map, List.filter_map, List.length_map, List.length_map]
      by_cases h0 : ∃ t ∈ grp l, first' (g t) = i
      · obtain ⟨t, ht, rfl⟩ := h0
        have := q5 (first t)
        rw [List.filter_congr (q := fun q : τ × ℚ => first q.1 == first t), List.filter_congr (q := fun u => first u == first t)]
        · exact this
        · intro u hu
          simp only [Function.comp_apply]
          rw [Bool.eq_iff_iff, beq_iff_eq, beq_iff_eq]
          exact hfst l u hu t ht
        · intro q hq
          simp only [Function.comp_apply]
          rw [Bool.eq_iff_iff, beq_iff_eq, beq_iff_eq]
          exact hfst l q.1 (q2 q hq).1 t ht
      · rw [List.filter_eq_nil_iff.mpr, List.filter_eq_nil_iff.mpr]
        · simp
        · intro u hu h1
          simp only [Function.comp_apply, beq_iff_eq] at h1
          exact h0 ⟨u, hu, h1⟩
        · intro q hq h1
          simp only [Function.comp_apply, beq_iff_eq] at h1
          exact h0 ⟨q.1, (q2 q hq).1, h1⟩
    · rw [List.map_map]
      exact q4
  refine ⟨h.once, ?_, ?_⟩
  · intro o ho
    obtain ⟨l, h1, h2, h3⟩ := h.rows o ho
    exact ⟨l, h1, (hne l).mpr h2, row l o h3⟩
  · intro l h1 h2
    obtain ⟨o, ho, h3⟩ := h.all l h1 ((hne l).mp h2)
    exact ⟨o, ho, row l o h3⟩

theorem length_by {α : Type} (f : α → Nat) {ks : List Nat} (hks : ks.Nodup) : ∀ {Q : List α}, (∀ q ∈ Q, f q ∈ ks) → Q.length = (ks.map (fun k => (Q.filter (fun q => f q == k)).length)).sum
  | [], _ => by simp
  | q :: Q, h => by
    have ih := length_by f hks (Q := Q) (fun x hx => h x (List.mem_cons_of_mem _ hx))
    have h1 : ∀ k, ((q :: Q).filter (fun q => f q == k)).length = (if k = f q then 1 else 0) + (Q.filter (fun q => f q == k)).length := by
      intro k
      rw [List.filter_cons]
      by_cases hk : f q = k
      · rw [if_pos (by simpa using hk), if_pos hk.symm, List.length_cons, Nat.add_comm]
      · rw [if_neg (by simpa using hk), if_neg (fun h => hk h.symm), Nat.zero_add]
    have h2 : (ks.map (fun k => if k = f q then 1 else 0)).sum = 1 := by
      have := List.count_eq_one_of_mem hks (h q (List.mem_cons_self ..))
      refine Eq.trans ?_ this
      clear this ih h1 h hks
      induction ks with
      | nil => simp
      | cons k ks ih =>
        rw [List.map_cons, List.sum_cons, List.count_cons, ih, Nat.add_comm]
        simp only [beq_iff_eq]
    simp only [h1]
    rw [List.sum_map_add, h2, List.length_cons, ih, Nat.add_comm]

/-- the triplets of lines of one A -/
theorem lineGroup_first {val : Line → String → Option Val} {on : String} {lines : List Line} (hn : (lines.map (·.2)).Nodup) {l : Labels} {p : Line} (hp : p ∈ lineOn val on lines l.on1) :
    ((lineGroup val on [] lines l).filter (fun t => t.1.2 == p.2)).length = (lineOn val on lines l.on2).length * ((lineOn val on lines l.on1).length - 1) := by
  have hcell : ∀ v s, lineCell val on [] lines v s = lineOn val on lines v := by
    intro v s
    unfold lineCell lineOn
    refine List.filter_congr fun q _ => ?_
    rw [List.all_nil, Bool.and_true]
  have hnA : ((lineOn val on lines l.on1).map (·.2)).Nodup := hn.sublist (List.Sublist.map _ List.filter_sublist)
  unfold lineGroup
  simp only [hcell, List.isEmpty_nil, Bool.not_true, Bool.false_or]
  generalize lineOn val on lines l.on1 = cA at hp hnA
  generalize lineOn val on lines l.on2 = cB
  have key : ∀ cA' : List Line, (cA'.map (·.2)).Nodup → ((cA'.flatMap (fun A => cB.flatMap (fun B => (cA.filter (fun X => X.2 != A.2)).map (fun X => (A, B, X))))).filter (fun t => t.1.2 == p.2)).length =
      if p.2 ∈ cA'.map (·.2) then cB.length * (cA.filter (fun X => X.2 != p.2)).length else 0 := by
    intro cA' h'
    induction cA' with
    | nil => simp
    | cons A cA' ih =>
      rw [List.map_cons, List.nodup_cons] at h'
      rw [List.flatMap_cons, List.filter_append, List.length_append, ih h'.2]
      by_cases hA : A.2 = p.2
      · rw [List.filter_eq_self.mpr, if_neg (by rw [← hA]; exact h'.1), if_pos (by simp [hA]), Nat.add_zero, List.length_flatMap]
        · simp [hA]
        · intro t ht
          obtain ⟨B, -, h1⟩ := List.mem_flatMap.mp ht
          obtain ⟨X, -, rfl⟩ := List.mem_map.mp h1
          simpa using hA
      · rw [List.filter_eq_nil_iff.mpr, List.length_nil, Nat.zero_add]
        · have hiff : p.2 ∈ A.2 :: cA'.map (·.2) ↔ p.2 ∈ cA'.map (·.2) := by rw [List.mem_cons]; exact or_iff_right fun h => hA h.symm
          rw [List.map_cons]
          exact (if_congr hiff rfl rfl).symm
        · intro t ht
          obtain ⟨B, -, h1⟩ := List.mem_flatMap.mp ht
          obtain ⟨X, -, rfl⟩ := List.mem_map.mp h1
          simpa using hA
  rw [key cA hnA, if_pos (List.mem_map_of_mem hp)]
  congr 1
  have h1 : (cA.filter (fun X => X.2 != p.2)).length = ((cA.map (·.2)).filter (fun i => i != p.2)).length := by
    rw [List.filter_map, List.length_map]; rfl
  rw [h1, ← hnA.erase_eq_filter, List.length_erase_of_mem (List.mem_map_of_mem hp), List.length_map]

/-- the number of triplets of a row -/
theorem EachRow.number {val : Line → String → Option Val} {on : String} {lines : List Line} (hn : (lines.map (·.2)).Nodup) {threshold : Nat} {vars : List Var} {key : List Val}
    {isAbx : Line × Line × Line → ℚ → Prop} {l : Labels} {o : OutRow} (h : EachRow threshold on vars key (lineGroup val on [] lines) (fun t => t.1.2) isAbx l o) :
    o.n = (lineOn val on lines l.on1).length * min threshold ((lineOn val on lines l.on2).length * ((lineOn val on lines l.on1).length - 1)) := by
  obtain ⟨-, -, ⟨Q, -, q2, q3, q4, -⟩, -⟩ := h
  have hnA : ((lineOn val on lines l.on1).map (·.2)).Nodup := hn.sublist (List.Sublist.map _ List.filter_sublist)
  rw [← q4, length_by (fun q : (Line × Line × Line) × ℚ => q.1.1.2) hnA]
  · have : ∀ k ∈ (lineOn val on lines l.on1).map (·.2), (Q.filter (fun q => q.1.1.2 == k)).length = min threshold ((lineOn val on lines l.on2).length * ((lineOn val on lines l.on1).length - 1)) := by
      intro k hk
      obtain ⟨p, hp, rfl⟩ := List.mem_map.mp hk
      rw [q3, lineGroup_first hn hp]
    rw [List.map_congr_left this, List.map_const', List.sum_replicate, List.length_map, Nat.nsmul_eq_mul]
  · intro q hq
    have := (q2 q hq).1
    unfold lineGroup at this
    obtain ⟨A, hA, h1⟩ := List.mem_flatMap.mp this
    obtain ⟨B, -, h2⟩ := List.mem_flatMap.mp h1
    obtain ⟨X, -, h3⟩ := List.mem_map.mp h2
    rw [← h3]
    refine List.mem_map_of_mem ?_
    unfold lineCell at hA
    unfold lineOn
    rw [List.mem_filter] at hA ⊢
    simpa using hA

section
variable {fs : Text → Option (Raw Val)} {f : Text} {r : Raw Val} {loc : List Text} {x : Text} {lab : List Text} {on : String} {by_ : List String}

/-- in every level, at most `B` triplets for each A -/
def SmallItems (B : Nat) (r : Raw Val) (loc : List Text) (x : Text) (lab : List Text) (on : String) (by_ : List String) : Prop :=
  ∀ key v, (lineOff (lineLabel loc x lab) on (levelLines r (3 + loc.length) (x :: lab) by_ key) v).length *
    ((lineOn (lineLabel loc x lab) on (levelLines r (3 + loc.length) (x :: lab) by_ key) v).length - 1) ≤ B

theorem item_lines (hI : ItemFile fs f r loc x lab) (hC : Columns (x :: lab) on [] by_) {B : Nat}
    (hb : SmallItems B r loc x lab on by_) (key : List Val) {t : Tri} (ht : t ∈ tripsSpec (plainArgs r (3 + loc.length) (x :: lab) on [] by_) key) :
    ((tripsSpec (plainArgs r (3 + loc.length) (x :: lab) on [] by_) key).filter (sameBlock on [] t)).length ≤ B := by
  have hpl : Plain (plainArgs r (3 + loc.length) (x :: lab) on [] by_) := ⟨rfl, rfl, rfl⟩
  refine (item_block hpl rfl ht).trans (le_trans (le_of_eq ?_) (hb key (t.1.2 on)))
  have hval : ∀ i ∈ (levelLines r (3 + loc.length) (x :: lab) by_ key).zipIdx.map (fun q => (q.2, rowOfLine (3 + loc.length) (x :: lab) q.1)),
      lineLabel loc x lab (lineAt (levelLines r (3 + loc.length) (x :: lab) by_ key) i.1) on = some (i.2 on) := by
    intro i hi
    obtain ⟨h1, h2⟩ := item_line hi
    rw [h2]
    exact label_toRow (hlen hI) (List.mem_filter.mp (List.mem_of_getElem? h1)).1 (mem_ofList.mpr hC.on)
  rw [items_lines hI hC]
  unfold lineOn lineOff
  show ((List.map _ _).filter (fun p : Item => p.2 on != t.1.2 on)).length * (((List.map _ _).filter (fun p : Item => p.2 on == t.1.2 on)).length - 1) = _
  congr 1
  · rw [← filter_lineAt (levelLines r (3 + loc.length) (x :: lab) by_ key) (rowOfLine (3 + loc.length) (x :: lab)) (fun p => p.2 on != t.1.2 on) _ ?_, List.length_map]
    intro i hi
    rw [hval i hi, Bool.eq_iff_iff]
    simp only [bne_iff_ne, ne_eq, Option.some.injEq]
  · rw [← filter_lineAt (levelLines r (3 + loc.length) (x :: lab) by_ key) (rowOfLine (3 + loc.length) (x :: lab)) (fun p => p.2 on == t.1.2 on) _ ?_, List.length_map]
    intro i hi
    rw [hval i hi, Bool.eq_iff_iff]
    simp only [beq_iff_eq, Option.some.injEq]

theorem fit_items {e : Env} (he : e.Lawful) (hI : ItemFile fs f r loc x lab) (hC : Columns (x :: lab) on [] by_) (hfew : FewLineLabels r loc x lab on []) {B : Nat} (hB : B ≤ 256)
    (hb : SmallItems B r loc x lab on by_) (threshold : Nat) (key : List Val) :
    GroupFit threshold (plainArgs r (3 + loc.length) (x :: lab) on [] by_).cols on [] (allRegs e (plainArgs r (3 + loc.length) (x :: lab) on [] by_)) (tripsSpec (plainArgs r (3 + loc.length) (x :: lab) on [] by_) key) := by
  apply GroupFit.small
  intro t ht
  exact ⟨combinations_le he ⟨rfl, rfl, rfl⟩ (few_lines hI hC hfew) ht _, (item_lines hI hC hb key ht).trans hB⟩

end

end ABX.Database
