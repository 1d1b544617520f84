import Verif.Model.Task
import Verif.Spec.Task
import Verif.Proofs.SideOps
import Verif.Properties.TypeFit
import Mathlib.Data.List.Nodup
import Mathlib.Data.List.Perm.Basic
import Mathlib.Tactic.Push
/-! Lemmas on the task model. -/
namespace ABX.Task
open ExtSort SideOps
variable {α β γ ρ : Type}

/-! ### full factorial indexing -/

theorem range_mul_map {β : Type _} (f : Nat → Nat → β) (m n : Nat) :
    (List.range (m * n)).map (fun i => f (i / n) (i % n)) =
      (List.range m).flatMap (fun j => (List.range n).map (fun k => f j k)) := by
  induction m with
  | zero => simp
  | succ m ih =>
    rw [Nat.succ_mul, List.range_add, List.map_append, ih, List.range_succ, List.flatMap_append]
    congr 1
    simp only [List.flatMap_cons, List.flatMap_nil, List.append_nil, List.map_map]
    apply List.map_congr_left
    intro k hk
    have hk : k < n := by simpa using hk
    simp only [Function.comp]
    rw [show m * n + k = k + n * m by rw [Nat.mul_comm]; omega, Nat.add_mul_div_left _ _ (by omega), Nat.add_mul_mod_self_left,
      Nat.div_eq_of_lt hk, Nat.mod_eq_of_lt hk, Nat.zero_add]

theorem getD_map_range (l : List α) (d : α) : (List.range l.length).map (fun i => l.getD i d) = l := by
  apply List.ext_getElem
  · simp
  · intro i h1 h2; simp [h2]

theorem flatten_flatMap' (l : List α) (f : α → List (List β)) : (l.flatMap f).flatten = l.flatMap (fun x => (f x).flatten) := by
  induction l with
  | nil => rfl
  | cons x l ih => simp [ih]

/-- all combinations, the last coordinate varying fastest -/
def prod3 (A B X : List α) : List (α × α × α) := A.flatMap (fun a => B.flatMap (fun b => X.map (fun x => (a, b, x))))

theorem factorial (A B X : List α) (d : α) :
    (List.range (A.length * B.length * X.length)).map (fun i =>
      (A.getD (i / (B.length * X.length)) d, B.getD (i / X.length % B.length) d, X.getD (i % X.length) d)) = prod3 A B X := by
  have h1 := range_mul_map (fun ab x => (A.getD (ab / B.length) d, B.getD (ab % B.length) d, X.getD x d)) (A.length * B.length) X.length
  have e : ∀ i, i / (B.length * X.length) = i / X.length / B.length := by
    intro i; rw [Nat.mul_comm, Nat.div_div_eq_div_mul]
  simp only [e]
  rw [h1]
  have hX : ∀ a b : α, (List.range X.length).map (fun k => (a, b, X.getD k d)) = X.map (fun x => (a, b, x)) := by
    intro a b
    conv => rhs; rw [← getD_map_range X d]
    simp
  simp only [hX]
  rw [List.flatMap_def, range_mul_map (fun i j => X.map (fun x => (A.getD i d, B.getD j d, x))) A.length B.length]
  unfold prod3
  conv => rhs; rw [← getD_map_range A d]
  simp only [List.flatMap_map]
  rw [flatten_flatMap']
  congr 1
  funext i
  conv => rhs; rw [← getD_map_range B d]
  simp only [List.flatMap_def, List.map_map, Function.comp_def]

theorem gather_getD (l : List α) (d : α) (ix : List Nat) (h : ∀ i ∈ ix, i < l.length) :
    gather l ix = .ok (ix.map (fun i => l.getD i d)) := by
  induction ix with
  | nil => rfl
  | cons i is ih =>
    have hi := h i (by simp)
    simp only [gather, List.getElem?_eq_getElem hi, ih (fun j hj => h j (by simp [hj])), List.map_cons]
    simp [hi]

theorem zip_map_map (l : List γ) (f : γ → α) (g : γ → β) : (l.map f).zip (l.map g) = l.map (fun i => (f i, g i)) := by
  induction l with
  | nil => rfl
  | cons x l ih => simp [ih]

theorem castNat_fit {n : Int} {t : IntType} (h : fitIntegerType n false = .ok t) {x : Nat} (hx : (x : Int) ≤ n) :
    castNat t x = x := by
  unfold castNat
  rw [C43_holds n false t h x (by omega) hx]; simp

/-! ### frames -/

theorem perm_lift {f : α → β} {l' l : List β} (h : l'.Perm l) : ∀ {I : List α}, I.map f = l → ∃ I' : List α, I'.Perm I ∧ I'.map f = l' := by
  induction h with
  | nil => intro I hI; exact ⟨I, .refl _, hI⟩
  | cons x _ ih =>
    intro I hI
    cases I with
    | nil => simp at hI
    | cons i I =>
      simp at hI
      obtain ⟨I', h1, h2⟩ := ih hI.2
      exact ⟨i :: I', h1.cons i, by simp [h2, hI.1]⟩
  | swap x y l =>
    intro I hI
    match I, hI with
    | i :: j :: I, hI =>
      simp at hI
      exact ⟨j :: i :: I, .swap i j I, by simp [hI]⟩
  | trans _ _ ih1 ih2 =>
    intro I hI
    obtain ⟨I2, p2, m2⟩ := ih2 hI
    obtain ⟨I1, p1, m1⟩ := ih1 m2
    exact ⟨I1, p1.trans p2, m1⟩

/-- index labels are distinct -/
def Distinct (fr : Frame) : Prop := (fr.map (·.1)).Nodup

theorem Distinct.inj {fr : Frame} (h : Distinct fr) {p q : Nat × Row} (hp : p ∈ fr) (hq : q ∈ fr) (e : p.1 = q.1) : p = q :=
  List.inj_on_of_nodup_map h hp hq e

theorem Distinct.nodup {fr : Frame} (h : Distinct fr) : fr.Nodup := List.Nodup.of_map _ h

theorem Distinct.loc {fr : Frame} (h : Distinct fr) {p : Nat × Row} (hp : p ∈ fr) : loc fr p.1 = .ok p.2 := by
  unfold Task.loc
  cases hf : fr.find? (fun q => q.1 == p.1) with
  | none => rw [List.find?_eq_none] at hf; simpa using hf p hp
  | some q =>
    have h1 := List.mem_of_find?_eq_some hf
    have h2 := List.find?_some hf
    rw [h.inj h1 hp (by simpa using h2)]

theorem Distinct.locs {fr : Frame} (h : Distinct fr) {I : Frame} (hI : ∀ p ∈ I, p ∈ fr) : locs fr (I.map (·.1)) = .ok (I.map (·.2)) := by
  unfold Task.locs
  rw [List.map_map]
  exact sequence_map_ok (fun p hp => h.loc (hI p hp))

theorem Distinct.filter {fr : Frame} (h : Distinct fr) (P : Nat × Row → Bool) : Distinct (fr.filter P) :=
  List.Nodup.sublist (List.filter_sublist.map _) h

theorem groupLabels_ok {fr : Frame} {cols : List String} {key : List Val} (h : ∃ p ∈ fr, keyOf cols p.2 = key) :
    groupLabels fr cols key = .ok ((groupFrame fr cols key).map (·.1)) := by
  unfold groupLabels
  split
  · rename_i hg
    obtain ⟨p, hp, hk⟩ := h
    have : p ∈ groupFrame fr cols key := by simp [groupFrame, hp, hk]
    rw [hg] at this; simp at this
  · rfl

theorem mem_groupKeys {e : Env} (he : e.Lawful) {site : String} {cols : List String} {fr : Frame} {key : List Val} :
    key ∈ groupKeys e site cols fr ↔ ∃ p ∈ fr, keyOf cols p.2 = key := by
  unfold groupKeys
  rw [(he.groups _ _).mem_iff]
  simp

theorem nodup_groupKeys {e : Env} (he : e.Lawful) {site : String} {cols : List String} {fr : Frame} :
    (groupKeys e site cols fr).Nodup := (he.groups _ _).nodup_iff.mpr (List.nodup_dedup _)

theorem filter_labels {fr : Frame} (h : Distinct fr) (P Q : Nat × Row → Bool) (neg : Bool) :
    ((fr.filter P).map (·.1)).dedup.filter (fun l => ((fr.filter Q).map (·.1)).contains l == neg) =
      (fr.filter (fun p => P p && (Q p == neg))).map (·.1) := by
  rw [List.Nodup.dedup (h.filter P), List.filter_map]
  congr 1
  rw [List.filter_filter]
  apply List.filter_congr
  intro p hp
  have : ((fr.filter Q).map (·.1)).contains p.1 = Q p := by
    rw [Bool.eq_iff_iff]
    simp only [List.contains_iff_mem, List.mem_map, List.mem_filter]
    constructor
    · rintro ⟨q, ⟨hq, hQ⟩, e⟩
      rwa [h.inj hq hp e] at hQ
    · intro hQ; exact ⟨p, ⟨hp, hQ⟩, rfl⟩
  simp only [Function.comp, this, Bool.and_comm]

/-- the rows of a block as seen by `_compute_triplets` -/
def aItems (on : String) (across : List String) (fr : Frame) (key : List Val) : Frame :=
  fr.filter (fun p => keyOf (on :: across) p.2 == key)

/-- candidates B of a block: same across, different on (different on only if there is no across) -/
def bItems (on : String) (across : List String) (fr : Frame) (key : List Val) : Frame :=
  fr.filter (fun p => (across == ["#across"] || keyOf across p.2 == key.tail) && !(keyOf [on] p.2 == key.take 1))

/-- candidates X of a block: same on, and different from the block in every across column -/
def xItems (on : String) (across : List String) (fr : Frame) (key : List Val) : Frame :=
  fr.filter (fun p => keyOf [on] p.2 == key.take 1 && (across.zip key.tail).all (fun q => p.2 q.1 != q.2))

theorem castAll_map {L : Level ρ} (ht : ∀ p ∈ L.frame, castNat L.type p.1 = p.1) {I : Frame} (hI : ∀ p ∈ I, p ∈ L.frame) :
    (I.map (·.1)).map (castNat L.type) = I.map (·.1) := by
  rw [List.map_map]
  apply List.map_congr_left
  intro p hp
  exact ht p (hI p hp)

theorem candidates_ok {e : Env} (he : e.Lawful) {T : Task ρ} {L : Level ρ} (hd : Distinct L.frame)
    (ht : ∀ p ∈ L.frame, castNat L.type p.1 = p.1) (hac : T.across ≠ []) {key : List Val}
    (hk : ∃ p ∈ L.frame, keyOf (T.on :: T.across) p.2 = key) :
    ∃ IB IX : Frame, IB.Perm (bItems T.on T.across L.frame key) ∧ IX.Perm (xItems T.on T.across L.frame key) ∧
      candidates e T L key ((aItems T.on T.across L.frame key).map (·.1)) =
        .ok ((aItems T.on T.across L.frame key).map (·.1), IB.map (·.1), IX.map (·.1)) := by
  obtain ⟨p0, hp0, hkey⟩ := hk
  have hA : ((aItems T.on T.across L.frame key).map (·.1)).map (castNat L.type) = (aItems T.on T.across L.frame key).map (·.1) :=
    castAll_map ht (fun p hp => (List.mem_filter.mp hp).1)
  match key, hkey with
  | on :: ac, hkey =>
  obtain ⟨hon, hacr⟩ : p0.2 T.on = on ∧ T.across.map p0.2 = ac := by simpa [keyOf] using hkey
  have gon : groupLabels L.frame [T.on] [on] = .ok ((groupFrame L.frame [T.on] [on]).map (·.1)) :=
    groupLabels_ok ⟨p0, hp0, by simp [keyOf, hon]⟩
  have gac : groupLabels L.frame T.across ac = .ok ((groupFrame L.frame T.across ac).map (·.1)) :=
    groupLabels_ok ⟨p0, hp0, by simp [keyOf, hacr]⟩
  unfold candidates
  simp only [gon, gac, hA]
  -- B
  have hB : ∃ IB : Frame, IB.Perm (bItems T.on T.across L.frame (on :: ac)) ∧
      (if T.across = ["#across"] then
          Except.ok (e.sets "B" (on :: ac) (((L.frame.map (·.1)).dedup).filter
            (fun l => !((groupFrame L.frame [T.on] [on]).map (·.1)).contains l)))
        else .ok (e.sets "B" (on :: ac) (((groupFrame L.frame T.across ac).map (·.1)).dedup.filter
          (fun l => !((aItems T.on T.across L.frame (on :: ac)).map (·.1)).contains l)))) =
        (.ok (IB.map (·.1)) : Except Err (List Nat)) := by
    by_cases hc : T.across = ["#across"]
    · rw [if_pos hc]
      have h1 := filter_labels hd (fun _ => true) (fun p => keyOf [T.on] p.2 == [on]) false
      simp only [List.filter_true, beq_false] at h1
      have h2 := he.sets "B" (on :: ac) (((L.frame.map (·.1)).dedup).filter
            (fun l => !((groupFrame L.frame [T.on] [on]).map (·.1)).contains l))
      unfold groupFrame at h2 ⊢
      rw [h1] at h2 ⊢
      obtain ⟨IB, p1, p2⟩ := perm_lift h2 rfl
      refine ⟨IB, ?_, by rw [p2]⟩
      unfold bItems
      simpa [hc] using p1
    · rw [if_neg hc]
      have h1 := filter_labels hd (fun p => keyOf T.across p.2 == ac) (fun p => keyOf (T.on :: T.across) p.2 == on :: ac) false
      simp only [beq_false] at h1
      have h2 := he.sets "B" (on :: ac) (((groupFrame L.frame T.across ac).map (·.1)).dedup.filter
          (fun l => !((aItems T.on T.across L.frame (on :: ac)).map (·.1)).contains l))
      unfold groupFrame aItems at h2 ⊢
      rw [h1] at h2 ⊢
      obtain ⟨IB, p1, p2⟩ := perm_lift h2 rfl
      refine ⟨IB, p1.trans (List.Perm.of_eq ?_), by rw [p2]⟩
      unfold bItems
      apply List.filter_congr
      intro p _
      rw [Bool.eq_iff_iff]
      simp [keyOf, hc]
      tauto
  obtain ⟨IB, hB1, hB2⟩ := hB
  -- X
  have hX : ∃ IX : Frame, IX.Perm (xItems T.on T.across L.frame (on :: ac)) ∧
      (if ac.length > 1 then
            e.sets "X" (on :: ac) ((antiLabels L.frame T.across ac).dedup.filter ((groupFrame L.frame [T.on] [on]).map (·.1)).contains)
          else e.sets "X" (on :: ac) (((groupFrame L.frame [T.on] [on]).map (·.1)).dedup.filter
            (fun l => !((aItems T.on T.across L.frame (on :: ac)).map (·.1)).contains l))) = IX.map (·.1) := by
    by_cases hc : ac.length > 1
    · rw [if_pos hc]
      have h1 := filter_labels hd (fun p => (T.across.zip ac).all (fun q => p.2 q.1 != q.2)) (fun p => keyOf [T.on] p.2 == [on]) true
      simp only [beq_true] at h1
      have h2 := he.sets "X" (on :: ac) ((antiLabels L.frame T.across ac).dedup.filter ((groupFrame L.frame [T.on] [on]).map (·.1)).contains)
      unfold groupFrame antiLabels at h2 ⊢
      rw [h1] at h2 ⊢
      obtain ⟨IX, p1, p2⟩ := perm_lift h2 rfl
      refine ⟨IX, p1.trans (List.Perm.of_eq ?_), by rw [p2]⟩
      unfold xItems
      apply List.filter_congr
      intro p _
      simp [Bool.and_comm]
    · rw [if_neg hc]
      have h1 := filter_labels hd (fun p => keyOf [T.on] p.2 == [on]) (fun p => keyOf (T.on :: T.across) p.2 == on :: ac) false
      simp only [beq_false] at h1
      have h2 := he.sets "X" (on :: ac) (((groupFrame L.frame [T.on] [on]).map (·.1)).dedup.filter
            (fun l => !((aItems T.on T.across L.frame (on :: ac)).map (·.1)).contains l))
      unfold groupFrame aItems at h2 ⊢
      rw [h1] at h2 ⊢
      obtain ⟨IX, p1, p2⟩ := perm_lift h2 rfl
      refine ⟨IX, p1.trans (List.Perm.of_eq ?_), by rw [p2]⟩
      unfold xItems
      apply List.filter_congr
      intro p _
      obtain ⟨c, hc1⟩ : ∃ c, T.across = [c] := by
        rw [← hacr] at hc
        match h : T.across, hac with
        | [c], _ => exact ⟨c, rfl⟩
        | c :: d :: r, _ => rw [h] at hc; simp at hc
      rw [hc1] at hacr ⊢
      subst hacr
      rw [Bool.eq_iff_iff]
      simp [keyOf]
      tauto
  obtain ⟨IX, hX1, hX2⟩ := hX
  refine ⟨IB, IX, hB1, hX1, ?_⟩
  simp only [hB2, hX2]
  rw [castAll_map ht (fun p hp => (List.mem_filter.mp (hB1.mem_iff.mp hp)).1),
    castAll_map ht (fun p hp => (List.mem_filter.mp (hX1.mem_iff.mp hp)).1)]

/-! ### filters -/

/-- positions of the elements that satisfy `P` -/
def positions (P : α → Bool) (I : List α) : List Nat := (I.zipIdx.filter (fun z => P z.1)).map (·.2)

theorem gather_positions (I : List α) (P : α → Bool) (g : α → β) :
    gather (I.map g) (positions P I) = .ok ((I.filter P).map g) := by
  unfold positions
  rw [gather_ok]
  · congr 1
    rw [List.filterMap_map]
    have h : ∀ l : List (α × Nat), (∀ z ∈ l, I[z.2]? = some z.1) →
        List.filterMap (fun z => Option.map g I[z.2]?) (l.filter (fun z => P z.1)) = ((l.map (·.1)).filter P).map g := by
      intro l hl
      induction l with
      | nil => rfl
      | cons z l ih =>
        have hz := hl z (by simp)
        have ih := ih (fun y hy => hl y (by simp [hy]))
        by_cases hp : P z.1 <;> simp [List.filter_cons, hp, ih, hz]
    simp only [Function.comp_def, List.getElem?_map]
    rw [h I.zipIdx (fun z hz => by
      have := List.mem_zipIdx_iff_getElem?.mp hz; simpa using this)]
    simp
  · intro i hi
    simp only [List.mem_map, List.mem_filter] at hi
    obtain ⟨z, ⟨hz, _⟩, rfl⟩ := hi
    have := List.mem_zipIdx_iff_getElem?.mp hz
    have := (List.getElem?_eq_some_iff.mp this).1
    simpa using this

theorem positions_lt (P : α → Bool) (I : List α) : ∀ i ∈ positions P I, i < I.length := by
  intro i hi
  simp only [positions, List.mem_map, List.mem_filter] at hi
  obtain ⟨z, ⟨hz, _⟩, rfl⟩ := hi
  have := List.mem_zipIdx_iff_getElem?.mp hz
  exact (List.getElem?_eq_some_iff.mp this).1

theorem singletonStage_ok {ops : List (DBFun Bool)} {filt : List Row → Except Err (List Nat)} {fr : Frame} (hd : Distinct fr)
    {I : Frame} (hI : ∀ p ∈ I, p ∈ fr) (P : Nat × Row → Bool) (hP : ops = [] → ∀ p ∈ I, P p = true)
    (hf : filt (I.map (·.2)) = .ok (positions P I)) :
    singletonStage ops filt fr (I.map (·.1)) = .ok ((I.filter P).map (·.1)) := by
  unfold singletonStage
  by_cases h : ops = []
  · simp only [h, List.isEmpty_nil, if_true]
    rw [List.filter_eq_self.mpr (hP h)]
  · have : ops.isEmpty = false := by simpa using h
    simp only [this, hd.locs hI, hf, gather_positions, Bool.false_eq_true, if_false]

abbrev lab (t : (Nat × Row) × (Nat × Row) × (Nat × Row)) : Nat × Nat × Nat := (t.1.1, t.2.1.1, t.2.2.1)

theorem mem_prod3 {A B X : List α} {t : α × α × α} : t ∈ prod3 A B X ↔ t.1 ∈ A ∧ t.2.1 ∈ B ∧ t.2.2 ∈ X := by
  obtain ⟨a, b, x⟩ := t
  simp only [prod3, List.mem_flatMap, List.mem_map, Prod.mk.injEq]
  constructor
  · rintro ⟨a', ha, b', hb, x', hx, rfl, rfl, rfl⟩; exact ⟨ha, hb, hx⟩
  · rintro ⟨ha, hb, hx⟩; exact ⟨a, ha, b, hb, x, hx, rfl, rfl, rfl⟩

theorem prod3_map (f : α → β) (A B X : List α) : prod3 (A.map f) (B.map f) (X.map f) = (prod3 A B X).map (fun t => (f t.1, f t.2.1, f t.2.2)) := by
  simp [prod3, List.flatMap_map, List.map_flatMap, Function.comp_def]

theorem prod3_length (A B X : List α) : (prod3 A B X).length = A.length * B.length * X.length := by
  simp [prod3, List.length_flatMap, Nat.mul_assoc]

theorem prod3_nodup {A B X : List α} (hA : A.Nodup) (hB : B.Nodup) (hX : X.Nodup) : (prod3 A B X).Nodup := by
  unfold prod3
  rw [List.nodup_flatMap]
  refine ⟨fun a _ => ?_, ?_⟩
  · rw [List.nodup_flatMap]
    refine ⟨fun b _ => hX.map (by intro x y h; simpa using h), ?_⟩
    refine hB.imp ?_
    intro b b' hbb t ht ht'
    simp only [List.mem_map] at ht ht'
    obtain ⟨x, _, rfl⟩ := ht
    obtain ⟨y, _, h⟩ := ht'
    simp at h; exact hbb h.1.symm
  · refine hA.imp ?_
    intro a a' haa t ht ht'
    simp only [List.mem_flatMap, List.mem_map] at ht ht'
    obtain ⟨b, _, x, _, rfl⟩ := ht
    obtain ⟨c, _, y, _, h⟩ := ht'
    simp at h; exact haa h.1.symm

/-- the indices of the full factorial design -/
def facA (a b x : Nat) : List Nat := (List.range (a * b * x)).map (fun i => i / (b * x))
def facB (a b x : Nat) : List Nat := (List.range (a * b * x)).map (fun i => i / x % b)
def facX (a b x : Nat) : List Nat := (List.range (a * b * x)).map (· % x)

theorem facA_lt {a b x i : Nat} (h : i ∈ facA a b x) : i < a := by
  simp only [facA, List.mem_map, List.mem_range] at h
  obtain ⟨j, hj, rfl⟩ := h
  rw [Nat.mul_assoc] at hj
  exact Nat.div_lt_of_lt_mul (by rwa [Nat.mul_comm] at hj)

theorem facB_lt {a b x i : Nat} (h : i ∈ facB a b x) : i < b := by
  simp only [facB, List.mem_map, List.mem_range] at h
  obtain ⟨j, hj, rfl⟩ := h
  apply Nat.mod_lt
  apply Nat.pos_of_ne_zero
  rintro rfl; simp at hj

theorem facX_lt {a b x i : Nat} (h : i ∈ facX a b x) : i < x := by
  simp only [facX, List.mem_map, List.mem_range] at h
  obtain ⟨j, hj, rfl⟩ := h
  apply Nat.mod_lt
  apply Nat.pos_of_ne_zero
  rintro rfl; simp at hj

theorem gather_facA (A B X : List α) (f : α → β) :
    gather (A.map f) (facA A.length B.length X.length) = .ok ((prod3 A B X).map (fun t => f t.1)) := by
  cases A with
  | nil => simp [facA, prod3, gather]
  | cons a0 A' =>
    generalize hA : a0 :: A' = A
    rw [gather_getD _ (f a0) _ (fun i hi => by simpa using facA_lt hi), ← factorial A B X a0]
    simp only [facA, List.map_map, Except.ok.injEq]
    apply List.map_congr_left
    intro i _
    simp [List.getD_eq_getElem?_getD, List.getElem?_map, Option.getD_map]

theorem gather_facB (A B X : List α) (f : α → β) :
    gather (B.map f) (facB A.length B.length X.length) = .ok ((prod3 A B X).map (fun t => f t.2.1)) := by
  cases B with
  | nil => simp [facB, prod3, gather]
  | cons a0 A' =>
    generalize hA : a0 :: A' = B
    rw [gather_getD _ (f a0) _ (fun i hi => by simpa using facB_lt hi), ← factorial A B X a0]
    simp only [facB, List.map_map, Except.ok.injEq]
    apply List.map_congr_left
    intro i _
    simp [List.getD_eq_getElem?_getD, List.getElem?_map, Option.getD_map]

theorem gather_facX (A B X : List α) (f : α → β) :
    gather (X.map f) (facX A.length B.length X.length) = .ok ((prod3 A B X).map (fun t => f t.2.2)) := by
  cases X with
  | nil => simp [facX, prod3, gather]
  | cons a0 A' =>
    generalize hA : a0 :: A' = X
    rw [gather_getD _ (f a0) _ (fun i hi => by simpa using facX_lt hi), ← factorial A B X a0]
    simp only [facX, List.map_map, Except.ok.injEq]
    apply List.map_congr_left
    intro i _
    simp [List.getD_eq_getElem?_getD, List.getElem?_map, Option.getD_map]

theorem combine_ok {m : Mgr Bool} {fr : Frame} (hd : Distinct fr) {row : Row} {A B X : Frame} (hA : ∀ p ∈ A, p ∈ fr)
    (hB : ∀ p ∈ B, p ∈ fr) (hX : ∀ p ∈ X, p ∈ fr) (hs : A.length * B.length * X.length < 2 ^ 64)
    (P : (Nat × Row) × (Nat × Row) × (Nat × Row) → Bool)
    (hP : m.ops .ABX = [] → ∀ t ∈ prod3 A B X, P t = true)
    (hf : m.abxFilter row ((prod3 A B X).map (fun t => (t.1.2, t.2.1.2, t.2.2.2))) = .ok (positions P (prod3 A B X))) :
    combine m fr row (A.map (·.1)) (B.map (·.1)) (X.map (·.1)) =
      .ok { A := A.map (·.1), B := B.map (·.1), X := X.map (·.1), iA := facA A.length B.length X.length,
            iB := facB A.length B.length X.length, iX := facX A.length B.length X.length,
            abx := if (m.ops .ABX).isEmpty then none else some (positions P (prod3 A B X)),
            trips := ((prod3 A B X).filter P).map lab } := by
  unfold combine
  simp only [List.length_map]
  by_cases hpos : A.length * B.length * X.length > 0
  · rw [if_pos hpos]
    have hfit : ∃ t, fitIntegerType ((A.length * B.length * X.length : Nat) : Int) false = .ok t := by
      generalize A.length * B.length * X.length = n at *
      unfold fitIntegerType
      simp only [Bool.false_eq_true, if_false, Nat.sub_zero]
      split
      · exact ⟨_, rfl⟩
      split
      · exact ⟨_, rfl⟩
      split
      · exact ⟨_, rfl⟩
      split
      · exact ⟨_, rfl⟩
      · omega
    obtain ⟨t, ht⟩ := hfit
    have hind : (List.range (A.length * B.length * X.length)).map (castNat t) = List.range (A.length * B.length * X.length) := by
      conv => rhs; rw [← List.map_id (List.range _)]
      apply List.map_congr_left
      intro i hi
      have : i < A.length * B.length * X.length := by simpa using hi
      exact castNat_fit ht (by omega)
    rw [ht]
    simp only [hind]
    have gA := gather_facA A B X (·.1)
    have gB := gather_facB A B X (·.1)
    have gX := gather_facX A B X (·.1)
    unfold facA at gA
    unfold facB at gB
    unfold facX at gX
    simp only [gA, gB, gX, zip_map_map]
    by_cases hc : m.ops .ABX = []
    · simp only [hc, List.isEmpty_nil, if_true, Except.ok.injEq, Blk.mk.injEq, true_and]
      rw [List.filter_eq_self.mpr (hP hc)]
      simp [facA, facB, facX, lab]
    · have he : (m.ops .ABX).isEmpty = false := by simpa using hc
      have lA := hd.locs (I := (prod3 A B X).map (·.1)) (by
        intro p hp; obtain ⟨t, ht, rfl⟩ := List.mem_map.mp hp; exact hA _ (mem_prod3.mp ht).1)
      have lB := hd.locs (I := (prod3 A B X).map (·.2.1)) (by
        intro p hp; obtain ⟨t, ht, rfl⟩ := List.mem_map.mp hp; exact hB _ (mem_prod3.mp ht).2.1)
      have lX := hd.locs (I := (prod3 A B X).map (·.2.2)) (by
        intro p hp; obtain ⟨t, ht, rfl⟩ := List.mem_map.mp hp; exact hX _ (mem_prod3.mp ht).2.2)
      simp only [List.map_map, Function.comp_def] at lA lB lX
      simp only [he, Bool.false_eq_true, if_false, lA, lB, lX, zip_map_map, hf, gather_positions]
      simp [facA, facB, facX, lab]
  · rw [if_neg hpos]
    have h0 : A.length * B.length * X.length = 0 := by omega
    have h1 : prod3 A B X = [] := by
      apply List.eq_nil_of_length_eq_zero; rw [prod3_length]; exact h0
    simp [facA, facB, facX, h0, h1, positions]

/-! ### blocks -/

section
variable (c : Cols) (m : Mgr Bool) (row : Row)
/-- the filters of a stage, evaluated on items -/
def pA (p : Nat × Row) : Bool := (m.ops .A).all (fun f => f.fn (stageEnv c row p.2 row row))
def pB (p : Nat × Row) : Bool := (m.ops .B).all (fun f => f.fn (stageEnv c row row p.2 row))
def pX (p : Nat × Row) : Bool := (m.ops .X).all (fun f => f.fn (stageEnv c row row row p.2))
def pABX (t : (Nat × Row) × (Nat × Row) × (Nat × Row)) : Bool :=
  (m.ops .ABX).all (fun f => f.fn (stageEnv c row t.1.2 t.2.1.2 t.2.2.2))
def pBlock : Bool := (m.ops .onAcrossBy).all (fun f => f.fn (stageEnv c row row row row))
end

/-- the block made of the items `A`, `B`, `X` (after the filters on items) -/
def blkOf (c : Cols) (m : Mgr Bool) (row : Row) (A B X : Frame) : Blk :=
  { A := A.map (·.1), B := B.map (·.1), X := X.map (·.1), iA := facA A.length B.length X.length,
    iB := facB A.length B.length X.length, iX := facX A.length B.length X.length,
    abx := if (m.ops .ABX).isEmpty then none else some (positions (pABX c m row) (prod3 A B X)),
    trips := ((prod3 A B X).filter (pABX c m row)).map lab }

theorem mul3_le {a b x n : Nat} (ha : a ≤ n) (hb : b ≤ n) (hx : x ≤ n) : a * b * x ≤ n * n * n :=
  Nat.mul_le_mul (Nat.mul_le_mul ha hb) hx

theorem length_filter_of_perm {I J : List α} {fr : List α} {P Q : α → Bool} (h : I.Perm J) (hJ : J = fr.filter P) : (I.filter Q).length ≤ fr.length := by
  refine Nat.le_trans (List.length_filter_le _ _) ?_
  rw [h.length_eq, hJ]
  exact List.length_filter_le _ _

theorem onAcrossTriplets_ok {e : Env} (he : e.Lawful) {T : Task ρ} {L : Level ρ} (hm : MgrOK true T.cols T.filters)
    (hav : ∀ p ∈ T.filters, Avail T.cols p.op) (hd : Distinct L.frame)
    (ht : ∀ p ∈ L.frame, castNat L.type p.1 = p.1) (hac : T.across ≠ [])
    (hsz : L.frame.length * L.frame.length * L.frame.length < 2 ^ 64) {key : List Val} (row : Row)
    (hk : ∃ p ∈ L.frame, keyOf (T.on :: T.across) p.2 = key) :
    ∃ IB IX : Frame, IB.Perm (bItems T.on T.across L.frame key) ∧ IX.Perm (xItems T.on T.across L.frame key) ∧
      onAcrossTriplets e T L key ((aItems T.on T.across L.frame key).map (·.1)) row =
        .ok (blkOf T.cols T.filters row ((aItems T.on T.across L.frame key).filter (pA T.cols T.filters row))
          (IB.filter (pB T.cols T.filters row)) (IX.filter (pX T.cols T.filters row))) := by
  obtain ⟨IB, IX, hB, hX, hc⟩ := candidates_ok he hd ht hac hk
  refine ⟨IB, IX, hB, hX, ?_⟩
  have mA : ∀ p ∈ aItems T.on T.across L.frame key, p ∈ L.frame := fun p hp => (List.mem_filter.mp hp).1
  have mB : ∀ p ∈ IB, p ∈ L.frame := fun p hp => (List.mem_filter.mp (hB.mem_iff.mp hp)).1
  have mX : ∀ p ∈ IX, p ∈ L.frame := fun p hp => (List.mem_filter.mp (hX.mem_iff.mp hp)).1
  unfold onAcrossTriplets
  simp only [hc]
  rw [singletonStage_ok hd mA (pA T.cols T.filters row) (by intro h p _; simp [pA, h]) (aFilter_ok hm hav row _ (fun p : Nat × Row => p.2) row row)]
  simp only []
  rw [singletonStage_ok hd mB (pB T.cols T.filters row) (by intro h p _; simp [pB, h]) (bFilter_ok hm hav row _ (fun p : Nat × Row => p.2) row row)]
  simp only []
  rw [singletonStage_ok hd mX (pX T.cols T.filters row) (by intro h p _; simp [pX, h]) (xFilter_ok hm hav row _ (fun p : Nat × Row => p.2) row row)]
  simp only []
  rw [combine_ok hd (fun p hp => mA p (List.mem_filter.mp hp).1) (fun p hp => mB p (List.mem_filter.mp hp).1)
    (fun p hp => mX p (List.mem_filter.mp hp).1) ?_ (pABX T.cols T.filters row) (by intro h t _; simp [pABX, h])
    (abxFilter_ok hm hav row _ (fun t : (Nat × Row) × (Nat × Row) × (Nat × Row) => t.1.2) (fun t => t.2.1.2) (fun t => t.2.2.2))]
  · rfl
  · refine Nat.lt_of_le_of_lt (mul3_le ?_ ?_ ?_) hsz
    · exact length_filter_of_perm (List.Perm.refl _) rfl
    · exact length_filter_of_perm hB rfl
    · exact length_filter_of_perm hX rfl

/-- labels are positions -/
def Positional (fr : Frame) : Prop := ∀ i (p : Nat × Row), fr[i]? = some p → p.1 = i

theorem iloc_mem {fr : Frame} (hp : Positional fr) {p : Nat × Row} (h : p ∈ fr) : iloc fr p.1 = .ok p.2 := by
  obtain ⟨i, hi, rfl⟩ := List.mem_iff_getElem.mp h
  have h1 : fr[i]? = some fr[i] := List.getElem?_eq_getElem hi
  have h2 := hp i _ h1
  simp [iloc, h2, h1]

theorem blockRow_ok {T : Task ρ} {L : Level ρ} (hp : Positional L.frame) {key : List Val}
    (hk : ∃ p ∈ L.frame, keyOf (T.on :: T.across) p.2 = key) :
    ∃ p ∈ aItems T.on T.across L.frame key,
      blockRow T L key = .ok ((aItems T.on T.across L.frame key).map (·.1), p.2) := by
  unfold blockRow
  rw [groupLabels_ok hk]
  obtain ⟨p, hp1, hp2⟩ := hk
  have hne : p ∈ aItems T.on T.across L.frame key := by simp [aItems, hp1, hp2]
  have e : groupFrame L.frame (T.on :: T.across) key = aItems T.on T.across L.frame key := rfl
  rw [e]
  cases ha : aItems T.on T.across L.frame key with
  | nil => rw [ha] at hne; simp at hne
  | cons q I =>
    refine ⟨q, by simp, ?_⟩
    have hq : q ∈ L.frame := by
      have : q ∈ aItems T.on T.across L.frame key := by rw [ha]; simp
      exact (List.mem_filter.mp this).1
    simp [iloc_mem hp hq]

theorem stageEnv_congr_A {c : Cols} {m : Mgr β} (hm : MgrOK g c m) {p : Placed β} (hp : p ∈ m) (hs : p.stage = .A) (row a b x b' x' : Row) :
    p.op.fn (stageEnv c row a b x) = p.op.fn (stageEnv c row a b' x') := by
  apply p.op.ext
  intro v hv
  unfold stageEnv
  split
  · rfl
  · rename_i h
    have h : v.1 ∉ c.by_ ∧ condition c v = true := by
      constructor
      · exact fun h' => h (Or.inl h')
      · cases hh : condition c v
        · exact absurd (Or.inr hh) h
        · rfl
    have h := ((hm p hp).aV v ((hm p hp).hA hs v hv h.1 h.2)).2.2
    simp [h]

theorem stageEnv_congr_B {c : Cols} {m : Mgr β} (hm : MgrOK g c m) {p : Placed β} (hp : p ∈ m) (hs : p.stage = .B) (row a b x a' x' : Row) :
    p.op.fn (stageEnv c row a b x) = p.op.fn (stageEnv c row a' b x') := by
  apply p.op.ext
  intro v hv
  unfold stageEnv
  split
  · rfl
  · rename_i h
    have h : v.1 ∉ c.by_ ∧ condition c v = true := by
      constructor
      · exact fun h' => h (Or.inl h')
      · cases hh : condition c v
        · exact absurd (Or.inr hh) h
        · rfl
    have h := ((hm p hp).bV v ((hm p hp).hB hs v hv h.1 h.2)).2.2
    simp [h]

theorem stageEnv_congr_X {c : Cols} {m : Mgr β} (hm : MgrOK g c m) {p : Placed β} (hp : p ∈ m) (hs : p.stage = .X) (row a b x a' b' : Row) :
    p.op.fn (stageEnv c row a b x) = p.op.fn (stageEnv c row a' b' x) := by
  apply p.op.ext
  intro v hv
  unfold stageEnv
  split
  · rfl
  · rename_i h
    have h : v.1 ∉ c.by_ ∧ condition c v = true := by
      constructor
      · exact fun h' => h (Or.inl h')
      · cases hh : condition c v
        · exact absurd (Or.inr hh) h
        · rfl
    have h := ((hm p hp).xV v ((hm p hp).hX hs v hv h.1 h.2)).2.2
    simp [h]

theorem stageEnv_congr_block {c : Cols} {m : Mgr β} (hm : MgrOK g c m) {p : Placed β} (hp : p ∈ m) (hs : p.stage = .onAcrossBy)
    (row a b x a' b' x' : Row) : p.op.fn (stageEnv c row a b x) = p.op.fn (stageEnv c row a' b' x') := by
  apply p.op.ext
  intro v hv
  unfold stageEnv
  split
  · rfl
  · rename_i h
    exfalso
    apply h
    by_cases hb : v.1 ∈ c.by_
    · exact Or.inl hb
    · exact Or.inr ((hm p hp).hoab hs v hv hb)

/-- the columns determined by by, on, across are functions of the by, on, across values in this frame -/
structure FD (c : Cols) (on : String) (across : List String) (fr : Frame) : Prop where
  by_ : ∀ p ∈ fr, ∀ q ∈ fr, ∀ r ∈ c.by_, p.2 r = q.2 r
  on : ∀ p ∈ fr, ∀ q ∈ fr, p.2 on = q.2 on → ∀ r ∈ c.on, p.2 r = q.2 r
  across : ∀ p ∈ fr, ∀ q ∈ fr, keyOf across p.2 = keyOf across q.2 → ∀ r ∈ c.across, p.2 r = q.2 r

/-- all the filters of the stages inside a level, for a triplet of a block whose row is `row` -/
theorem stages_holds {c : Cols} {fs : List (DBFun Bool)} {m : Mgr Bool} (h : mgr true c fs = .ok m) (hav : ∀ f ∈ fs, Avail c f)
    {row : Row} {a b x : Nat × Row}
    (hby : ∀ r ∈ c.by_, row r = a.2 r ∧ row r = b.2 r ∧ row r = x.2 r)
    (hon : ∀ r ∈ c.on, row r = a.2 r ∧ row r = x.2 r) (hac : ∀ r ∈ c.across, row r = a.2 r) :
    ((m.ops .by).all (fun f => f.fn (fun v => row v.1)) ∧
      ((m.ops .generic).all (fun f => f.fn (fun v => a.2 v.1)) ∧ (m.ops .generic).all (fun f => f.fn (fun v => b.2 v.1)) ∧
        (m.ops .generic).all (fun f => f.fn (fun v => x.2 v.1))) ∧
      pBlock c m row ∧ pA c m row a ∧ pB c m row b ∧ pX c m row x ∧ pABX c m row (a, b, x)) ↔
    fs.all (fun f => Spec.holds c f a.2 b.2 x.2) := by
  have hm := mgr_ok h
  have hfs : fs = m.map Placed.op := (mgr_ops h).symm
  have hav' : ∀ p ∈ m, Avail c p.op := fun p hp => hav _ (by rw [hfs]; exact List.mem_map_of_mem hp)
  have key : ∀ p ∈ m, Spec.holds c p.op a.2 b.2 x.2 = match p.stage with
      | .by => p.op.fn (fun v => row v.1)
      | .generic => p.op.fn (fun v => a.2 v.1) && p.op.fn (fun v => b.2 v.1) && p.op.fn (fun v => x.2 v.1)
      | .onAcrossBy => p.op.fn (stageEnv c row row row row)
      | .A => p.op.fn (stageEnv c row a.2 row row)
      | .B => p.op.fn (stageEnv c row row b.2 row)
      | .X => p.op.fn (stageEnv c row row row x.2)
      | .ABX => p.op.fn (stageEnv c row a.2 b.2 x.2) := by
    intro p hp
    have P := hm p hp
    have sem : p.stage ≠ .by → p.stage ≠ .generic → Spec.holds c p.op a.2 b.2 x.2 = p.op.fn (stageEnv c row a.2 b.2 x.2) := by
      intro h1 h2
      obtain ⟨v, hv, hvb⟩ := P.hne h1
      have hn := P.hnone h1 h2 v hv hvb
      unfold Spec.holds
      rw [if_neg (by
        intro hper
        rcases hper v hv with h | h
        · exact hvb h
        · exact hn h)]
      exact (p.op.ext _ _ (stageEnv_sem P h1 h2 (hav' p hp) hby hon hac)).symm
    cases hs : p.stage with
    | «by» =>
      unfold Spec.holds
      have hb := P.hby' hs
      have hper : Spec.perItem c p.op := fun v hv => Or.inl (hb v hv)
      rw [if_pos hper]
      rw [p.op.ext (fun v => a.2 v.1) (fun v => row v.1) (fun v hv => (hby v.1 (hb v hv)).1.symm),
        p.op.ext (fun v => b.2 v.1) (fun v => row v.1) (fun v hv => (hby v.1 (hb v hv)).2.1.symm),
        p.op.ext (fun v => x.2 v.1) (fun v => row v.1) (fun v hv => (hby v.1 (hb v hv)).2.2.symm)]
      simp
    | generic =>
      unfold Spec.holds
      rw [if_pos]
      intro v hv
      by_cases hb : v.1 ∈ c.by_
      · exact Or.inl hb
      · exact Or.inr (P.genV v (P.hgen hs v hv hb)).2
    | onAcrossBy => rw [sem (by simp [hs]) (by simp [hs])]; exact stageEnv_congr_block hm hp hs ..
    | A => rw [sem (by simp [hs]) (by simp [hs])]; exact stageEnv_congr_A hm hp hs ..
    | B => rw [sem (by simp [hs]) (by simp [hs])]; exact stageEnv_congr_B hm hp hs ..
    | X => rw [sem (by simp [hs]) (by simp [hs])]; exact stageEnv_congr_X hm hp hs ..
    | ABX => exact sem (by simp [hs]) (by simp [hs])
  simp only [pBlock, pA, pB, pX, pABX, List.all_eq_true, hfs, List.mem_map, forall_exists_index, and_imp]
  constructor
  · rintro ⟨h1, ⟨h2, h3, h4⟩, h5, h6, h7, h8, h9⟩ f p hp rfl
    rw [key p hp]
    cases hs : p.stage with
    | «by» => exact h1 _ (mem_ops.mpr ⟨p, hp, hs, rfl⟩)
    | generic =>
      have := mem_ops.mpr ⟨p, hp, hs, rfl⟩
      simp [h2 _ this, h3 _ this, h4 _ this]
    | onAcrossBy => exact h5 _ (mem_ops.mpr ⟨p, hp, hs, rfl⟩)
    | A => exact h6 _ (mem_ops.mpr ⟨p, hp, hs, rfl⟩)
    | B => exact h7 _ (mem_ops.mpr ⟨p, hp, hs, rfl⟩)
    | X => exact h8 _ (mem_ops.mpr ⟨p, hp, hs, rfl⟩)
    | ABX => exact h9 _ (mem_ops.mpr ⟨p, hp, hs, rfl⟩)
  · intro H
    have H' : ∀ {s : Stage} {f : DBFun Bool}, f ∈ m.ops s → ∃ p ∈ m, p.stage = s ∧ p.op = f ∧ Spec.holds c p.op a.2 b.2 x.2 = true := by
      intro s f hf
      obtain ⟨p, hp, hs, hf⟩ := mem_ops.mp hf
      exact ⟨p, hp, hs, hf, H _ p hp rfl⟩
    refine ⟨?_, ⟨?_, ?_, ?_⟩, ?_, ?_, ?_, ?_, ?_⟩ <;> intro f hf <;> obtain ⟨p, hp, hs, rfl, hh⟩ := H' hf <;>
      rw [key p hp, hs] at hh <;> simp only [Bool.and_eq_true] at hh <;> tauto

end ABX.Task
