import Verif.Spec.Plain
import Verif.Proofs.Threshold
import Verif.Properties.Pipeline
/-!
Lemmas for C83: the results of a plain experiment.
-/
namespace ABX.Pipeline
open ExtSort ABX.Task Pairs SideOps Sampler Distances Score EndToEnd Analyze F64
variable {ρ φ δ : Type}

theorem triples_filter (its : List Spec.Item) (p q : Spec.Item → Bool) (r : Spec.Item → Spec.Item → Bool) :
    (Spec.triples its).filter (fun t => p t.1 && q t.2.1 && r t.1 t.2.2) =
      (its.filter p).flatMap (fun A => (its.filter q).flatMap (fun B => (its.filter (r A)).map (fun X => (A, B, X)))) := by
  unfold Spec.triples
  have h3 : ∀ (A B : Spec.Item) (l : List Spec.Item), (l.map (fun X => (A, B, X))).filter (fun t : Tri => p t.1 && q t.2.1 && r t.1 t.2.2) =
      if p A && q B then (l.filter (r A)).map (fun X => (A, B, X)) else [] := by
    intro A B l
    rw [List.filter_map]
    by_cases h : (p A && q B) = true
    · rw [if_pos h]
      congr 1
      apply List.filter_congr
      intro X _
      simp only [Function.comp_apply, h, Bool.true_and]
    · rw [if_neg h, List.map_eq_nil_iff, List.filter_eq_nil_iff]
      intro X _
      simp only [Function.comp_apply, Bool.and_eq_true] at h ⊢
      exact fun h' => h h'.1
  have h2 : ∀ (A : Spec.Item) (l : List Spec.Item), (l.flatMap (fun B => its.map (fun X => (A, B, X)))).filter (fun t : Tri => p t.1 && q t.2.1 && r t.1 t.2.2) =
      if p A then (l.filter q).flatMap (fun B => (its.filter (r A)).map (fun X => (A, B, X))) else [] := by
    intro A l
    induction l with
    | nil => simp
    | cons B l ih =>
      rw [List.flatMap_cons, List.filter_append, ih, h3]
      cases hp : p A <;> cases hq : q B <;> simp [hq]
  have h1 : ∀ (l : List Spec.Item), (l.flatMap (fun A => its.flatMap (fun B => its.map (fun X => (A, B, X))))).filter (fun t : Tri => p t.1 && q t.2.1 && r t.1 t.2.2) =
      (l.filter p).flatMap (fun A => (its.filter q).flatMap (fun B => (its.filter (r A)).map (fun X => (A, B, X)))) := by
    intro l
    induction l with
    | nil => simp
    | cons A l ih =>
      rw [List.flatMap_cons, List.filter_append, ih, h2]
      cases hp : p A <;> simp [hp]
  exact h1 its

/-- the labels of a triplet -/
def labelsOfTrip (on : String) (t : Tri) : Spec.Labels := ⟨t.1.2 on, t.2.1.2 on, t.1.2, t.2.2.2⟩

/-- a plain experiment -/
structure Plain (a : Args ρ) : Prop where
  filters : a.filters = []
  regressors : a.regressors = []
  cols : a.cols = ⟨[a.on], a.across, a.by_⟩

theorem mem_group {on : String} {across : List String} {its : List Spec.Item} {l : Spec.Labels} {t : Tri} : t ∈ Spec.group on across its l ↔
    t.1 ∈ its ∧ t.2.1 ∈ its ∧ t.2.2 ∈ its ∧ t.1.2 on = l.on1 ∧ (∀ c ∈ across, t.1.2 c = l.across1 c) ∧ t.2.1.2 on = l.on2 ∧ (∀ c ∈ across, t.2.1.2 c = l.across1 c) ∧
      t.2.2.2 on = l.on1 ∧ (∀ c ∈ across, t.2.2.2 c = l.across2 c) ∧ (across = [] → t.2.2.1 ≠ t.1.1) := by
  obtain ⟨A, B, X⟩ := t
  unfold Spec.group Spec.cell
  simp only [List.mem_flatMap, List.mem_filter, List.mem_map, Prod.mk.injEq, Bool.and_eq_true, beq_iff_eq, List.all_eq_true, Bool.or_eq_true, Bool.not_eq_true',
    List.isEmpty_eq_false_iff, bne_iff_ne]
  constructor
  · rintro ⟨A', ⟨hA, h1, h2⟩, B', ⟨hB, h3, h4⟩, X', ⟨⟨hX, h5, h6⟩, h7⟩, rfl, rfl, rfl⟩
    exact ⟨hA, hB, hX, h1, h2, h3, h4, h5, h6, fun h0 => h7.resolve_left (fun h8 => h8 h0)⟩
  · rintro ⟨hA, hB, hX, h1, h2, h3, h4, h5, h6, h7⟩
    refine ⟨A, ⟨hA, h1, h2⟩, B, ⟨hB, h3, h4⟩, X, ⟨⟨hX, h5, h6⟩, ?_⟩, rfl, rfl, rfl⟩
    by_cases h0 : across = []
    · exact .inr (h7 h0)
    · exact .inl h0

theorem mem_trips (hp : Plain a) {key : List Val} {t : Tri} : t ∈ tripsSpec (ρ := ρ) a key ↔ t.1 ∈ itemsOf a key ∧ t.2.1 ∈ itemsOf a key ∧ t.2.2 ∈ itemsOf a key ∧
    t.1.2 a.on = t.2.2.2 a.on ∧ t.2.1.2 a.on ≠ t.1.2 a.on ∧ (∀ c ∈ a.across, t.2.1.2 c = t.1.2 c) ∧ (∀ c ∈ a.across, t.2.2.2 c ≠ t.1.2 c) ∧ (a.across = [] → t.2.2.1 ≠ t.1.1) := by
  obtain ⟨A, B, X⟩ := t
  unfold tripsSpec Spec.itemTriplets Spec.triples Spec.legal
  rw [hp.filters]
  simp only [List.mem_filter, List.mem_flatMap, List.mem_map, Prod.mk.injEq, List.all_nil, Bool.and_true, Bool.and_eq_true, beq_iff_eq, bne_iff_ne, List.all_eq_true]
  constructor
  · rintro ⟨⟨A', hA, B', hB, X', hX, rfl, rfl, rfl⟩, ⟨⟨h1, h2⟩, h3⟩, h4⟩
    by_cases h0 : a.across = []
    · refine ⟨hA, hB, hX, h1, h2, h3, ?_, ?_⟩
      · rw [h0]; intro c hc; cases hc
      · intro _; simpa [h0] using h4
    · have he : a.across.isEmpty = false := by simpa using h0
      simp only [he, Bool.false_eq_true, if_false, List.all_eq_true, bne_iff_ne] at h4
      exact ⟨hA, hB, hX, h1, h2, h3, h4, fun h => absurd h h0⟩
  · rintro ⟨hA, hB, hX, h1, h2, h3, h4, h5⟩
    refine ⟨⟨A, hA, B, hB, X, hX, rfl, rfl, rfl⟩, ⟨⟨h1, h2⟩, h3⟩, ?_⟩
    by_cases h0 : a.across = []
    · simpa [h0] using h5 h0
    · have he : a.across.isEmpty = false := by simpa using h0
      simp only [he, Bool.false_eq_true, if_false, List.all_eq_true, bne_iff_ne]
      exact h4

/-- the triplets of a group are triplets of the task with the labels of the group -/
theorem group_trips (hp : Plain a) {key : List Val} {l : Spec.Labels} (hl : l.Possible a.across) {t : Tri} (ht : t ∈ Spec.group a.on a.across (itemsOf (ρ := ρ) a key) l) : t ∈ tripsSpec a key := by
  obtain ⟨hA, hB, hX, h1, h2, h3, h4, h5, h6, h7⟩ := mem_group.mp ht
  rw [mem_trips hp]
  refine ⟨hA, hB, hX, h1.trans h5.symm, ?_, fun c hc => (h4 c hc).trans (h2 c hc).symm, ?_, h7⟩
  · rw [h1, h3]; exact fun h => hl.1 h.symm
  · intro c hc; rw [h6 c hc, h2 c hc]; exact fun h => hl.2 c hc h.symm

theorem trip_possible (hp : Plain a) {key : List Val} {t : Tri} (ht : t ∈ tripsSpec (ρ := ρ) a key) : (labelsOfTrip a.on t).Possible a.across ∧
    t ∈ Spec.group a.on a.across (itemsOf a key) (labelsOfTrip a.on t) := by
  obtain ⟨hA, hB, hX, h1, h2, h3, h4, h5⟩ := (mem_trips hp).mp ht
  refine ⟨⟨fun h => h2 h.symm, fun c hc h => h4 c hc h.symm⟩, mem_group.mpr ⟨hA, hB, hX, rfl, fun _ _ => rfl, rfl, h3, h1.symm, fun _ _ => rfl, h5⟩⟩

/-- the variables of single-column regressors -/
def varsOf (rs : List (DBFun Nat)) : List Var := rs.filterMap (fun f => f.inputs.head?)

/-- the labels of a single-column regressor: the sorted values of its column -/
def idxOf (e : Env) (a : Args ρ) (f : DBFun Nat) : List Val :=
  match f.inputs.head? with
  | some v => columnIndex e.sort (a.db.map (fun p => p.2 v.1))
  | none => []

theorem varsOf_columnRegs (e : Env) (fr : Frame) (vs : List Var) : varsOf (vs.map (columnReg e fr)) = vs := by
  unfold varsOf
  induction vs with
  | nil => rfl
  | cons v vs ih => rw [List.map_cons, List.filterMap_cons_some (by rfl), ih]

theorem allRegs_plain (e : Env) (hp : Plain a) : allRegs (ρ := ρ) e a = (([(a.on, .one), (a.on, .two)] : List Var) ++ (e.names a.across).flatMap (fun c => ([(c, .one), (c, .two)] : List Var))).map (columnReg e a.db) := by
  unfold allRegs defaultRegs
  rw [hp.regressors, hp.cols, List.nil_append, List.map_append, List.map_flatMap]
  rfl

/-- regressors that are a rearrangement of the default ones are the columns of a rearrangement of `plainVars` -/
theorem regs_plain {e : Env} (he : e.Lawful) (hp : Plain a) {rs : List (DBFun Nat)} (h : rs.Perm (allRegs (ρ := ρ) e a)) :
    rs = (varsOf rs).map (columnReg e a.db) ∧ (varsOf rs).Perm (Spec.plainVars a.on a.across) := by
  have hv : (varsOf rs).Perm (Spec.plainVars a.on a.across) := by
    have h1 : (varsOf rs).Perm (varsOf (allRegs e a)) := h.filterMap _
    rw [allRegs_plain e hp, varsOf_columnRegs] at h1
    refine h1.trans ?_
    unfold Spec.plainVars
    rw [List.flatMap_cons]
    exact ((he.names a.across).flatMap_right _).append_left _
  refine ⟨?_, hv⟩
  have h2 : ∀ f ∈ rs, ∃ v, f = columnReg e a.db v := by
    intro f hf
    have := h.mem_iff.mp hf
    rw [allRegs_plain e hp] at this
    obtain ⟨v, -, rfl⟩ := List.mem_map.mp this
    exact ⟨v, rfl⟩
  clear h hv
  induction rs with
  | nil => rfl
  | cons f rs ih =>
    obtain ⟨v, rfl⟩ := h2 f (by simp)
    have h3 : varsOf (columnReg e a.db v :: rs) = v :: varsOf rs := List.filterMap_cons_some (by rfl)
    rw [h3, List.map_cons, ← ih (fun g hg => h2 g (by simp [hg]))]

theorem plainVars_mem {on : String} {across : List String} {v : Var} (h : v ∈ Spec.plainVars on across) : (v.1 = on ∨ v.1 ∈ across) ∧ (v.2 = .one ∨ v.2 = .two) := by
  unfold Spec.plainVars at h
  obtain ⟨c, hc, hv⟩ := List.mem_flatMap.mp h
  rcases List.mem_cons.mp hc with rfl | hc
  · rcases List.mem_cons.mp hv with rfl | hv
    · exact ⟨.inl rfl, .inl rfl⟩
    · rw [List.mem_singleton.mp hv]; exact ⟨.inl rfl, .inr rfl⟩
  · rcases List.mem_cons.mp hv with rfl | hv
    · exact ⟨.inr hc, .inl rfl⟩
    · rw [List.mem_singleton.mp hv]; exact ⟨.inr hc, .inr rfl⟩

theorem sem_at (hp : Plain (ρ := ρ) a) (t : Tri) {v : Var} (hv : v ∈ Spec.plainVars a.on a.across) : Spec.sem a.cols t.1.2 t.2.1.2 t.2.2.2 v = (labelsOfTrip a.on t).at a.on v := by
  obtain ⟨c, s⟩ := v
  rw [hp.cols]
  rcases (plainVars_mem hv).2 with h | h <;> simp only at h <;> subst h <;> unfold Spec.sem Spec.Labels.at labelsOfTrip <;> by_cases hc : c = a.on <;> simp [hc]

theorem at_mem (hp : Plain (ρ := ρ) a) {e : Env} (he : e.Lawful) {key : List Val} {t : Tri} (ht : t ∈ tripsSpec a key) {v : Var} (hv : v ∈ Spec.plainVars a.on a.across) :
    (labelsOfTrip a.on t).at a.on v ∈ columnIndex e.sort (a.db.map (fun p => p.2 v.1)) := by
  unfold columnIndex
  rw [(he.sort _).mem_iff, List.mem_dedup]
  obtain ⟨hA, hB, hX, -⟩ := (mem_trips hp).mp ht
  have h1 : ∀ p ∈ itemsOf a key, ∀ c, p.2 c ∈ a.db.map (fun p => p.2 c) := by
    intro p hp' c
    obtain ⟨⟨q, hq, hqt⟩, -⟩ := items_db hp'
    exact List.mem_map.mpr ⟨q, hq, by rw [hqt]⟩
  obtain ⟨c, s⟩ := v
  rcases (plainVars_mem hv).2 with h | h <;> simp only at h <;> subst h <;> unfold Spec.Labels.at labelsOfTrip <;> by_cases hc : c = a.on <;> simp only [hc, if_true, if_false]
  · exact h1 _ hA _
  · exact h1 _ hA _
  · exact h1 _ hB _
  · exact h1 _ hX _

theorem regValue_plain (hp : Plain (ρ := ρ) a) (e : Env) (t : Tri) {v : Var} (hv : v ∈ Spec.plainVars a.on a.across) :
    Spec.regValue a.cols (columnReg e a.db v) t = (columnIndex e.sort (a.db.map (fun p => p.2 v.1))).findIdx (· == (labelsOfTrip a.on t).at a.on v) := by
  unfold Spec.regValue
  rw [← sem_at hp t hv]
  rfl

/-- the values of the regressors of two triplets are equal exactly if their labels are -/
theorem value_iff (hp : Plain (ρ := ρ) a) {e : Env} (he : e.Lawful) {rs : List (DBFun Nat)} (hrs : rs.Perm (allRegs e a)) {key : List Val} {t u : Tri} (ht : t ∈ tripsSpec a key) :
    rs.map (fun f => Spec.regValue a.cols f t) = rs.map (fun f => Spec.regValue a.cols f u) ↔ (varsOf rs).map ((labelsOfTrip a.on t).at a.on) = (varsOf rs).map ((labelsOfTrip a.on u).at a.on) := by
  obtain ⟨h1, h2⟩ := regs_plain he hp hrs
  generalize varsOf rs = vs at h1 h2
  rw [h1, List.map_map, List.map_map, List.map_inj_left, List.map_inj_left]
  refine forall₂_congr fun v hv => ?_
  have hv := h2.mem_iff.mp hv
  simp only [Function.comp_apply]
  rw [regValue_plain hp e t hv, regValue_plain hp e u hv]
  exact ⟨fun h => findIdx_inj (at_mem hp he ht hv) h, fun h => by rw [h]⟩

/-- labels that agree on the variables -/
theorem at_iff {on : String} {across : List String} {l l' : Spec.Labels} {vs : List Var} (h : vs.Perm (Spec.plainVars on across)) (hon : on ∉ across) :
    vs.map (l.at on) = vs.map (l'.at on) ↔ l.on1 = l'.on1 ∧ l.on2 = l'.on2 ∧ (∀ c ∈ across, l.across1 c = l'.across1 c) ∧ ∀ c ∈ across, l.across2 c = l'.across2 c := by
  rw [List.map_inj_left]
  constructor
  · intro h1
    have h2 : ∀ c ∈ on :: across, ∀ s, s = Ext.one ∨ s = Ext.two → l.at on (c, s) = l'.at on (c, s) := by
      intro c hc s hs
      refine h1 _ (h.mem_iff.mpr ?_)
      unfold Spec.plainVars
      refine List.mem_flatMap.mpr ⟨c, hc, ?_⟩
      rcases hs with rfl | rfl <;> simp
    refine ⟨?_, ?_, ?_, ?_⟩
    · simpa [Spec.Labels.at] using h2 on (by simp) .one (.inl rfl)
    · simpa [Spec.Labels.at] using h2 on (by simp) .two (.inr rfl)
    · intro c hc
      have : c ≠ on := fun h => hon (h ▸ hc)
      simpa [Spec.Labels.at, this] using h2 c (by simp [hc]) .one (.inl rfl)
    · intro c hc
      have : c ≠ on := fun h => hon (h ▸ hc)
      simpa [Spec.Labels.at, this] using h2 c (by simp [hc]) .two (.inr rfl)
  · rintro ⟨h1, h2, h3, h4⟩ ⟨c, s⟩ hv
    obtain ⟨hc, hs⟩ := plainVars_mem (h.mem_iff.mp hv)
    simp only at hc hs
    by_cases h0 : c = on
    · rcases hs with rfl | rfl <;> simp [Spec.Labels.at, h0, h1, h2]
    · have hc := hc.resolve_left h0
      rcases hs with rfl | rfl <;> simp [Spec.Labels.at, h0, h3 c hc, h4 c hc]

/-- a column that is both 'on' and 'across' allows no triplets -/
theorem on_across (hp : Plain (ρ := ρ) a) {key : List Val} {t : Tri} (ht : t ∈ tripsSpec a key) : a.on ∉ a.across := by
  obtain ⟨-, -, -, -, h2, h3, -⟩ := (mem_trips hp).mp ht
  exact fun h => h2 (h3 _ h)

theorem group_filter (on : String) (across : List String) (its : List Spec.Item) (l : Spec.Labels) : Spec.group on across its l =
    (Spec.triples its).filter (fun t => (t.1.2 on == l.on1 && across.all (fun c => t.1.2 c == l.across1 c)) && (t.2.1.2 on == l.on2 && across.all (fun c => t.2.1.2 c == l.across1 c)) &&
      ((t.2.2.2 on == l.on1 && across.all (fun c => t.2.2.2 c == l.across2 c)) && (!across.isEmpty || t.2.2.1 != t.1.1))) := by
  rw [triples_filter its (fun A => A.2 on == l.on1 && across.all (fun c => A.2 c == l.across1 c)) (fun B => B.2 on == l.on2 && across.all (fun c => B.2 c == l.across1 c))
    (fun A X => (X.2 on == l.on1 && across.all (fun c => X.2 c == l.across2 c)) && (!across.isEmpty || X.1 != A.1))]
  unfold Spec.group Spec.cell
  refine List.flatMap_congr fun A _ => List.flatMap_congr fun B _ => congrArg _ ?_
  rw [List.filter_filter]
  refine List.filter_congr fun X _ => ?_
  rw [Bool.and_comm]

/-- labels that agree have the same group -/
theorem group_congr {on : String} {across : List String} (its : List Spec.Item) {l l' : Spec.Labels} (h : l.on1 = l'.on1 ∧ l.on2 = l'.on2 ∧ (∀ c ∈ across, l.across1 c = l'.across1 c) ∧ ∀ c ∈ across, l.across2 c = l'.across2 c) :
    Spec.group on across its l = Spec.group on across its l' := by
  obtain ⟨h1, h2, h3, h4⟩ := h
  have e1 : ∀ r : Row, across.all (fun c => r c == l.across1 c) = across.all (fun c => r c == l'.across1 c) := fun r => by
    rw [Bool.eq_iff_iff, List.all_eq_true, List.all_eq_true]
    exact forall₂_congr fun c hc => by rw [h3 c hc]
  have e2 : ∀ r : Row, across.all (fun c => r c == l.across2 c) = across.all (fun c => r c == l'.across2 c) := fun r => by
    rw [Bool.eq_iff_iff, List.all_eq_true, List.all_eq_true]
    exact forall₂_congr fun c hc => by rw [h4 c hc]
  rw [group_filter, group_filter]
  simp only [h1, h2, e1, e2]

/-- the triplets with the regressors of a triplet are those with its labels -/
theorem filter_group (hp : Plain (ρ := ρ) a) {e : Env} (he : e.Lawful) {rs : List (DBFun Nat)} (hrs : rs.Perm (allRegs e a)) {key : List Val} {t : Tri} (ht : t ∈ tripsSpec a key) :
    (tripsSpec a key).filter (fun u => rs.map (fun f => Spec.regValue a.cols f u) == rs.map (fun f => Spec.regValue a.cols f t)) = Spec.group a.on a.across (itemsOf a key) (labelsOfTrip a.on t) := by
  have hon := on_across hp ht
  have hvs := (regs_plain he hp hrs).2
  classical
  rw [group_filter]
  have h1 : (tripsSpec a key).filter (fun u => rs.map (fun f => Spec.regValue a.cols f u) == rs.map (fun f => Spec.regValue a.cols f t)) =
      (Spec.triples (itemsOf a key)).filter (fun u => decide (u ∈ Spec.group a.on a.across (itemsOf a key) (labelsOfTrip a.on t))) := by
    unfold tripsSpec Spec.itemTriplets
    rw [List.filter_filter]
    refine List.filter_congr fun u hu => ?_
    rw [Bool.eq_iff_iff, decide_eq_true_eq, Bool.and_eq_true, beq_iff_eq]
    constructor
    · rintro ⟨h1, h2⟩
      have hu' : u ∈ tripsSpec a key := List.mem_filter.mpr ⟨hu, h2⟩
      rw [group_congr _ ((at_iff hvs hon).mp ((value_iff hp he hrs hu').mp h1).symm)]
      exact (trip_possible hp hu').2
    · intro h1
      have hu' := group_trips hp (trip_possible hp ht).1 h1
      refine ⟨(value_iff hp he hrs hu').mpr ((at_iff hvs hon).mpr ?_), (List.mem_filter.mp hu').2⟩
      obtain ⟨-, -, -, g1, g2, g3, g4, g5, g6, -⟩ := mem_group.mp h1
      exact ⟨g1, g3, g2, g6⟩
  rw [h1]
  refine List.filter_congr fun u hu => ?_
  rw [group_filter, Bool.eq_iff_iff, decide_eq_true_eq, List.mem_filter]
  exact ⟨fun h => h.2, fun h => ⟨hu, h⟩⟩

/-- the labels of a row -/
theorem labels_plain (hp : Plain (ρ := ρ) a) {e : Env} (he : e.Lawful) {rs : List (DBFun Nat)} (hrs : rs.Perm (allRegs e a)) {key : List Val} {t : Tri} (ht : t ∈ tripsSpec a key) {ls : List Val}
    (h : Spec.IsLabels (rs.map (idxOf e a)) (rs.map (fun f => Spec.regValue a.cols f t)) ls) : ls = (varsOf rs).map ((labelsOfTrip a.on t).at a.on) := by
  obtain ⟨h1, h2⟩ := regs_plain he hp hrs
  generalize varsOf rs = vs at h1 h2
  subst h1
  obtain ⟨hl, hj⟩ := h
  simp only [List.length_map] at hl
  apply List.ext_getElem?
  intro j
  by_cases h0 : j < vs.length
  · have hv := h2.mem_iff.mp (List.getElem_mem h0)
    rw [hj j (idxOf e a (columnReg e a.db vs[j])) (Spec.regValue a.cols (columnReg e a.db vs[j]) t) (by simp [h0]) (by simp [h0]), regValue_plain hp e t hv, List.getElem?_map, List.getElem?_eq_getElem h0]
    have hm := at_mem hp he ht hv
    have hi : (columnIndex e.sort (a.db.map (fun p => p.2 vs[j].1))).findIdx (· == (labelsOfTrip a.on t).at a.on vs[j]) < (columnIndex e.sort (a.db.map (fun p => p.2 vs[j].1))).length :=
      List.findIdx_lt_length.mpr ⟨_, hm, by simp⟩
    have hg := List.findIdx_getElem (w := hi)
    simp only [beq_iff_eq] at hg
    show (columnIndex e.sort (a.db.map (fun p => p.2 vs[j].1)))[_]? = _
    rw [List.getElem?_eq_getElem hi, hg]
    rfl
  · rw [List.getElem?_eq_none (by omega), List.getElem?_eq_none (by simp; omega)]

theorem nodup_of_forall₂ {α β : Type} {R : α → β → Prop} {l : List α} {m : List β} (h : List.Forall₂ R l m) (hl : l.Nodup) (g : β → List Val)
    (hg : ∀ x y o o', R x o → R y o' → g o = g o' → x = y) : (m.map g).Nodup := by
  induction h with
  | nil => simp
  | @cons x o l m hx hF ih =>
    rw [List.map_cons, List.nodup_cons]
    obtain ⟨h1, h2⟩ := List.nodup_cons.mp hl
    refine ⟨?_, ih h2⟩
    intro hm
    obtain ⟨o', ho', he⟩ := List.mem_map.mp hm
    obtain ⟨y, hy, hR⟩ := forall₂_mem_right hF o' ho'
    exact h1 ((hg x y o o' hx hR he.symm) ▸ hy)

/-- the results of a level in terms of labels -/
theorem results_plain (hp : Plain (ρ := ρ) a) {e : Env} (he : e.Lawful) {rs : List (DBFun Nat)} (hrs : rs.Perm (allRegs e a)) {key : List Val} {abx : Tri → ℚ} {out : List OutRow}
    (h : Spec.Results (rs.map (idxOf e a)) key (fun t => rs.map (fun f => Spec.regValue a.cols f t)) abx (tripsSpec a key) out) :
    Spec.PlainResults a.on a.across (varsOf rs) key (Spec.group a.on a.across (itemsOf a key)) abx out := by
  obtain ⟨combos, h1, h2, h3⟩ := h
  have hvs := (regs_plain he hp hrs).2
  have row : ∀ t ∈ tripsSpec a key, ∀ o : OutRow, (Spec.IsLabels (rs.map (idxOf e a)) (rs.map (fun f => Spec.regValue a.cols f t)) o.labels ∧ o.by_ = key ∧
      o.n = ((tripsSpec a key).filter (fun u => rs.map (fun f => Spec.regValue a.cols f u) == rs.map (fun f => Spec.regValue a.cols f t))).length ∧
      o.score = rnd (rnd ((((tripsSpec a key).filter (fun u => rs.map (fun f => Spec.regValue a.cols f u) == rs.map (fun f => Spec.regValue a.cols f t))).map (fun t => 2 * abx t - 1)).sum / o.n) + 1) / 2 ∧
      |o.score - (((tripsSpec a key).filter (fun u => rs.map (fun f => Spec.regValue a.cols f u) == rs.map (fun f => Spec.regValue a.cols f t))).map abx).sum / o.n| ≤ 2 ^ (-52 : ℤ) ∧ 0 ≤ o.score ∧ o.score ≤ 1) →
      Spec.PlainRow a.on (varsOf rs) key (Spec.group a.on a.across (itemsOf a key)) abx (labelsOfTrip a.on t) o := by
    rintro t ht o ⟨r1, r2, r3, r4, r5, r6⟩
    rw [filter_group hp he hrs ht] at r3 r4 r5
    exact ⟨labels_plain hp he hrs ht r1, r2, r3, r5, r6, r4⟩
  refine ⟨?_, ?_, ?_⟩
  · have hmem : List.Forall₂ (fun (c : List Nat) (o : OutRow) => c ∈ combos ∧ Spec.IsLabels (rs.map (idxOf e a)) c o.labels) combos out :=
      (List.forall₂_and_left combos out).mpr ⟨fun c hc => hc, h3.imp (fun _ _ h => h.1)⟩
    refine nodup_of_forall₂ hmem (h1.imp (fun h => ne_of_lt h)) OutRow.labels ?_
    rintro x y o o' ⟨hx, lx⟩ ⟨hy, ly⟩ heq
    obtain ⟨t, ht, rfl⟩ := (h2 x).mp hx
    obtain ⟨u, hu, rfl⟩ := (h2 y).mp hy
    rw [labels_plain hp he hrs ht lx, labels_plain hp he hrs hu ly] at heq
    exact (value_iff hp he hrs ht).mpr heq
  · intro o ho
    obtain ⟨c, hc, hR⟩ := forall₂_mem_right h3 o ho
    obtain ⟨t, ht, rfl⟩ := (h2 c).mp hc
    exact ⟨_, (trip_possible hp ht).1, List.ne_nil_of_mem (trip_possible hp ht).2, row t ht o hR⟩
  · intro l hl hne
    obtain ⟨t, htg⟩ := List.exists_mem_of_ne_nil _ hne
    have ht := group_trips hp hl htg
    obtain ⟨o, ho, hR⟩ := forall₂_mem_left h3 _ ((h2 _).mpr ⟨t, ht, rfl⟩)
    have := row t ht o hR
    obtain ⟨-, -, -, g1, g2, g3, g4, g5, g6, -⟩ := mem_group.mp htg
    have hag : (labelsOfTrip a.on t).on1 = l.on1 ∧ (labelsOfTrip a.on t).on2 = l.on2 ∧ (∀ c ∈ a.across, (labelsOfTrip a.on t).across1 c = l.across1 c) ∧
        ∀ c ∈ a.across, (labelsOfTrip a.on t).across2 c = l.across2 c := ⟨g1, g3, g2, g6⟩
    refine ⟨o, ho, ?_, this.by_, ?_, ?_, this.range, ?_⟩
    · rw [this.labels, (at_iff hvs (on_across hp ht)).mpr hag]
    · rw [this.n, group_congr _ hag]
    · rw [← group_congr _ hag]; exact this.score
    · rw [← group_congr _ hag]; exact this.exact

/-- the items of a level have different numbers -/
theorem items_nodup (a : Args ρ) (key : List Val) : ((itemsOf a key).map (·.1)).Nodup := by
  unfold itemsOf Spec.items
  rw [List.map_map]
  have : ((·.1 : Spec.Item → Nat) ∘ fun p : Row × Nat => (p.2, p.1)) = Prod.snd := rfl
  rw [this, List.zipIdx_map_snd]
  exact List.nodup_range'

theorem flatMap_length_const {α β : Type} {l : List α} {f : α → List β} {n : Nat} (h : ∀ x ∈ l, (f x).length = n) : (l.flatMap f).length = l.length * n := by
  induction l with
  | nil => simp
  | cons x l ih => rw [List.flatMap_cons, List.length_append, h x (by simp), ih (fun y hy => h y (by simp [hy])), List.length_cons]; ring

/-- the number of triplets of a group with across columns -/
theorem group_length (on : String) {across : List String} (h : across ≠ []) (its : List Spec.Item) (l : Spec.Labels) :
    (Spec.group on across its l).length = (Spec.cell on across its l.on1 l.across1).length * ((Spec.cell on across its l.on2 l.across1).length * (Spec.cell on across its l.on1 l.across2).length) := by
  unfold Spec.group
  refine flatMap_length_const fun A _ => flatMap_length_const fun B _ => ?_
  have he : across.isEmpty = false := by simpa using h
  simp [he]

/-- and without -/
theorem group_length_nil (on : String) {its : List Spec.Item} (hn : (its.map (·.1)).Nodup) (l : Spec.Labels) :
    (Spec.group on [] its l).length = (its.filter (fun p => p.2 on == l.on1)).length * ((its.filter (fun p => p.2 on == l.on2)).length * ((its.filter (fun p => p.2 on == l.on1)).length - 1)) := by
  unfold Spec.group Spec.cell
  simp only [List.all_nil, Bool.and_true, List.isEmpty_nil, Bool.not_true, Bool.false_or]
  refine flatMap_length_const fun A hA => flatMap_length_const fun B _ => ?_
  rw [List.length_map]
  have hn' : ((its.filter (fun p => p.2 on == l.on1)).map (·.1)).Nodup := hn.sublist (List.filter_sublist.map _)
  generalize its.filter (fun p => p.2 on == l.on1) = m at hA hn'
  clear hn
  induction m with
  | nil => cases hA
  | cons x m ih =>
    rw [List.map_cons, List.nodup_cons] at hn'
    rcases List.mem_cons.mp hA with rfl | hA
    · have : (A :: m).filter (fun X => X.1 != A.1) = m := by
        rw [List.filter_cons, if_neg (by simp), List.filter_eq_self]
        intro X hX
        simp only [bne_iff_ne]
        intro h
        exact hn'.1 (h ▸ List.mem_map_of_mem hX)
      rw [this]
      rfl
    · have hx : (x.1 != A.1) = true := by
        simp only [bne_iff_ne]
        intro h
        exact hn'.1 (h ▸ List.mem_map_of_mem hA)
      rw [List.filter_cons, if_pos hx, List.length_cons, ih hA hn'.2, List.length_cons]
      have := List.length_pos_of_mem hA
      omega

end ABX.Pipeline
