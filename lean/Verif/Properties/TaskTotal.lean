import Verif.Proofs.TaskBare
import Verif.Properties.SideOps
import Verif.Properties.TaskWitness
/-!
Property C61: when a task can be created.
-/
namespace ABX.Task
open ExtSort SideOps
variable {ρ : Type}

namespace Spec'
/-- the columns of the table and those of the task -/
structure Columns (a : Args ρ) : Prop where
  on : a.on ∈ a.columns
  across : ∀ c ∈ a.across, c ∈ a.columns
  by_ : ∀ c ∈ a.by_, c ∈ a.columns
  names : ∀ c ∈ a.columns, '_' ∉ c.toList ∧ '#' ∉ c.toList

/-- a side operation is accepted: `_1`/`_2` extensions on columns of on/across, `_AX` on columns of across, and no mixture of bare
and extended columns outside of 'by'; only filters may have bare ones -/
def Accepted (filter : Bool) (c : Cols) (f : DBFun β) : Prop :=
  ((∀ v ∈ f.inputs, v.2 = .one ∨ v.2 = .two → v.1 ∈ c.on ∨ v.1 ∈ c.across) ∧ (∀ v ∈ f.inputs, v.2 = .AX → v.1 ∈ c.across)) ∧
  ((∀ v ∈ f.inputs, v.1 ∈ c.by_) ∨ (filter = true ∧ ∀ v ∈ f.inputs, v.1 ∉ c.by_ → v.2 = .none) ∨ (∀ v ∈ f.inputs, v.1 ∉ c.by_ → v.2 ≠ .none))

/-- rows of the same level -/
def Same (a : Args ρ) (p q : Nat × Row) : Prop := ∀ c ∈ a.by_, p.2 c = q.2 c

/-- the filters that only read columns of 'by' hold -/
def LevelKept (a : Args ρ) (p : Nat × Row) : Prop := ∀ f ∈ a.filters, (∀ v ∈ f.inputs, v.1 ∈ a.cols.by_) → f.fn (fun v => p.2 v.1) = true

/-- the items of a level: one is left by the filters, all have a record -/
def Fine (a : Args ρ) (p : Nat × Row) : Prop :=
  (∃ q ∈ a.db, Same a q p ∧ ItemKept a q) ∧ ∀ q ∈ a.db, Same a q p → q.1 < a.feat.length
end Spec'
open Spec'

theorem checkDatabase_iff (a : Args ρ) : checkDatabase a = .ok () ↔ Columns a := by
  unfold checkDatabase
  constructor
  · intro h
    split at h
    · cases h
    rename_i h1
    split at h
    · cases h
    rename_i h2
    split at h
    · cases h
    rename_i h3
    split at h
    · cases h
    rename_i h4
    refine ⟨by simpa using h1, by simpa using h2, by simpa using h3, ?_⟩
    simpa [not_or] using h4
  · rintro ⟨h1, h2, h3, h4⟩
    rw [if_neg (by simpa using h1), if_neg (by simpa using h2), if_neg (by simpa using h3), if_neg (by simpa [not_or] using h4)]

theorem mgr_iff {g : Bool} {c : Cols} {fs : List (DBFun β)} : (∃ m, mgr g c fs = .ok m) ↔ ∀ f ∈ fs, Accepted g c f := by
  have h1 : (∃ m, mgr g c fs = .ok m) ↔ ∀ f ∈ fs, ∃ p, place g c f = .ok p := by
    constructor
    · rintro ⟨m, hm⟩ f hf
      have := mgr_forall₂ hm
      clear hm
      induction this with
      | nil => simp at hf
      | cons h _ ih =>
        rcases List.mem_cons.mp hf with rfl | hf
        · exact ⟨_, h⟩
        · exact ih hf
    · intro h
      obtain ⟨ys, h, -⟩ := sequence_exists (f := place g c) (Q := fun _ _ => True) (l := fs) (fun f hf => by
        obtain ⟨p, hp⟩ := h f hf
        exact ⟨p, hp, trivial⟩)
      exact ⟨ys, h⟩
  rw [h1]
  exact forall₂_congr (fun f _ => C51_accepted_iff g c f)

theorem defaultRegs_accepted {e : Env} (he : e.Lawful) {a : Args ρ} (hon : a.on ∈ a.cols.on) (fr : Frame) : ∀ f ∈ defaultRegs e a fr, Accepted false a.cols f := by
  have key : ∀ (v : Var), (v.2 = .one ∨ v.2 = .two) → (v.1 ∈ a.cols.on ∨ v.1 ∈ a.cols.across) → Accepted false a.cols (columnReg e fr v) := by
    intro v h1 h2
    refine ⟨⟨?_, ?_⟩, Or.inr (Or.inr ?_)⟩
    · intro w hw _
      rw [List.mem_singleton.mp hw]; exact h2
    · intro w hw h
      rw [List.mem_singleton.mp hw] at h
      rcases h1 with h1 | h1 <;> rw [h1] at h <;> cases h
    · intro w hw _ h
      rw [List.mem_singleton.mp hw] at h
      rcases h1 with h1 | h1 <;> rw [h1] at h <;> cases h
  intro f hf
  unfold defaultRegs at hf
  rcases List.mem_append.mp hf with hf | hf
  · simp only [List.mem_cons, List.not_mem_nil, or_false] at hf
    rcases hf with rfl | rfl
    · exact key _ (Or.inl rfl) (Or.inl hon)
    · exact key _ (Or.inr rfl) (Or.inl hon)
  · obtain ⟨c, hc, hf⟩ := List.mem_flatMap.mp hf
    have hc' : c ∈ a.cols.across := (he.names _).mem_iff.mp hc
    simp only [List.mem_cons, List.not_mem_nil, or_false] at hf
    rcases hf with rfl | rfl
    · exact key _ (Or.inl rfl) (Or.inr hc')
    · exact key _ (Or.inr rfl) (Or.inr hc')

theorem forall₂_left {R : α → β → Prop} {l : List α} {l' : List β} (h : List.Forall₂ R l l') {x : α} (hx : x ∈ l) : ∃ y ∈ l', R x y := by
  induction h with
  | nil => simp at hx
  | cons h _ ih =>
    rcases List.mem_cons.mp hx with rfl | hx
    · exact ⟨_, by simp, h⟩
    · obtain ⟨y, hy, hr⟩ := ih hx
      exact ⟨y, by simp [hy], hr⟩

theorem forall₂_right {R : α → β → Prop} {l : List α} {l' : List β} (h : List.Forall₂ R l l') {y : β} (hy : y ∈ l') : ∃ x ∈ l, R x y :=
  forall₂_left (R := fun y x => R x y) h.flip hy

/-- the preparation of the level of a row of the table -/
theorem level_outcome {e : Env} (he : e.Lawful) {a : Args ρ} (ha : a.OK) (hc : checkDatabase a = .ok ()) {m : Mgr Bool} (hm : mgr true a.cols a.filters = .ok m)
    {p p' : Nat × Row} (hp : p ∈ (prep a).2.2) (hp' : p' ∈ a.db) (hpp : p.1 = p'.1 ∧ ∀ c ∈ a.columns, p.2 c = p'.2 c) :
    (¬ LevelKept a p' ∧ prepareLevel m (prep a).1 (prep a).2.2 a.feat (keyOf (prep a).1 p.2) = .ok none) ∨
    (LevelKept a p' ∧ Fine a p' ∧ ∃ L, prepareLevel m (prep a).1 (prep a).2.2 a.feat (keyOf (prep a).1 p.2) = .ok (some L)) ∨
    (LevelKept a p' ∧ (∃ q ∈ a.db, Same a q p' ∧ a.feat.length ≤ q.1) ∧
      prepareLevel m (prep a).1 (prep a).2.2 a.feat (keyOf (prep a).1 p.2) = .error .indexError) ∨
    (LevelKept a p' ∧ (¬ ∃ q ∈ a.db, Same a q p' ∧ ItemKept a q) ∧ (∀ q ∈ a.db, Same a q p' → q.1 < a.feat.length) ∧
      prepareLevel m (prep a).1 (prep a).2.2 a.feat (keyOf (prep a).1 p.2) = .error .valueError) := by
  have hrows := prep_rows hc
  have hav : ∀ x ∈ m, Avail a.cols x.op := fun x hx => ha.availF _ (by rw [← mgr_ops hm]; exact List.mem_map_of_mem hx)
  have hsize : a.db.length < 2 ^ 64 := by
    have h1 := ha.size
    have h2 : a.db.length ≠ 0 := fun h => by rw [List.length_eq_zero_iff] at h; rw [h] at hp'; simp at hp'
    have h3 : 1 ≤ a.db.length * a.db.length := Nat.mul_pos (by omega) (by omega)
    calc a.db.length ≤ a.db.length * a.db.length * a.db.length := Nat.le_mul_of_pos_left _ h3
      _ < _ := h1
  obtain ⟨p0, hp0, hcase⟩ := prepareLevel_cases (mgr_ok hm) hav (feat := a.feat) (byCols := (prep a).1) (fr := (prep a).2.2) (key := keyOf (prep a).1 p.2) ⟨p, hp, rfl⟩ (by rw [prep_length]; exact hsize)
  have mem_grp : ∀ q, q ∈ groupFrame (prep a).2.2 (prep a).1 (keyOf (prep a).1 p.2) ↔ q ∈ (prep a).2.2 ∧ keyOf (prep a).1 q.2 = keyOf (prep a).1 p.2 := by
    intro q
    unfold groupFrame
    rw [List.mem_filter]
    simp
  have grp : ∀ q', (q' ∈ a.db ∧ Same a q' p') → ∃ q ∈ groupFrame (prep a).2.2 (prep a).1 (keyOf (prep a).1 p.2), q.1 = q'.1 ∧ ∀ c ∈ a.columns, q.2 c = q'.2 c := by
    rintro q' ⟨hq', hs⟩
    obtain ⟨q, hq, hqq⟩ := forall₂_right hrows hq'
    exact ⟨q, (mem_grp q).mpr ⟨hq, (prep_key hc hq hp hqq.2 hpp.2).mpr hs⟩, hqq⟩
  have grp' : ∀ q ∈ groupFrame (prep a).2.2 (prep a).1 (keyOf (prep a).1 p.2), ∃ q' ∈ a.db, Same a q' p' ∧ q.1 = q'.1 ∧ ∀ c ∈ a.columns, q.2 c = q'.2 c := by
    intro q hq
    obtain ⟨hq1, hq2⟩ := (mem_grp q).mp hq
    obtain ⟨q', hq', hqq⟩ := forall₂_left hrows hq1
    exact ⟨q', hq', (prep_key hc hq1 hp hqq.2 hpp.2).mp hq2, hqq⟩
  have hby : (m.ops .by).all (fun f => f.fn (fun v => p0.2 v.1)) = true ↔ LevelKept a p' := by
    obtain ⟨q', hq', hs, -, hcol⟩ := grp' p0 hp0
    rw [List.all_eq_true]
    have hval : ∀ f ∈ a.filters, (∀ v ∈ f.inputs, v.1 ∈ a.cols.by_) → f.fn (fun v => p0.2 v.1) = f.fn (fun v => p'.2 v.1) := by
      intro f hf hv
      apply f.ext
      intro v hvm
      rw [hcol _ (ha.inF f hf v hvm)]
      exact ha.detBy q' hq' p' hp' (List.map_inj_left.mpr hs) _ (hv v hvm)
    constructor
    · intro h f hf hv
      rw [← hval f hf hv]
      exact h f ((ops_by hm f).mpr ⟨hf, hv⟩)
    · intro h f hf
      obtain ⟨h1, h2⟩ := (ops_by hm f).mp hf
      rw [hval f h1 h2]
      exact h f h1 h2
  have hgen : ∀ (q q' : Nat × Row), (∀ c ∈ a.columns, q.2 c = q'.2 c) → ((m.ops .generic).all (fun f => f.fn (fun v => q.2 v.1)) = true ↔ ItemKept a q') := by
    intro q q' hcol
    rw [List.all_eq_true]
    have hval : ∀ f ∈ a.filters, f.fn (fun v => q.2 v.1) = f.fn (fun v => q'.2 v.1) := fun f hf => f.ext _ _ (fun v hv => hcol _ (ha.inF f hf v hv))
    constructor
    · intro h f hf hv
      rw [← hval f hf]
      exact h f ((ops_generic hm f).mpr ⟨hf, hv⟩)
    · intro h f hf
      obtain ⟨h1, h2⟩ := (ops_generic hm f).mp hf
      rw [hval f h1]
      exact h f h1 h2
  have hex : (∃ q ∈ groupFrame (prep a).2.2 (prep a).1 (keyOf (prep a).1 p.2), (m.ops .generic).all (fun f => f.fn (fun v => q.2 v.1)) = true) ↔
      ∃ q ∈ a.db, Same a q p' ∧ ItemKept a q := by
    constructor
    · rintro ⟨q, hq, h⟩
      obtain ⟨q', hq', hs, -, hcol⟩ := grp' q hq
      exact ⟨q', hq', hs, (hgen q q' hcol).mp h⟩
    · rintro ⟨q', hq', hs, h⟩
      obtain ⟨q, hq, -, hcol⟩ := grp q' ⟨hq', hs⟩
      exact ⟨q, hq, (hgen q q' hcol).mpr h⟩
  rcases hcase with ⟨hb, hr⟩ | ⟨hb, h⟩
  · refine Or.inl ⟨fun h => ?_, hr⟩
    rw [← hby, hb] at h
    cases h
  · have hb := hby.mp hb
    rcases h with ⟨⟨q, hq, hl⟩, hr⟩ | ⟨hl, h⟩
    · obtain ⟨q', hq', hs, hlab, -⟩ := grp' q hq
      exact Or.inr (Or.inr (Or.inl ⟨hb, ⟨q', hq', hs, by rw [← hlab]; exact hl⟩, hr⟩))
    · have hl' : ∀ q ∈ a.db, Same a q p' → q.1 < a.feat.length := by
        intro q' hq' hs
        obtain ⟨q, hq, hlab, -⟩ := grp q' ⟨hq', hs⟩
        rw [← hlab]
        exact hl q hq
      rcases h with ⟨h, hr⟩ | ⟨h, hr⟩
      · exact Or.inr (Or.inl ⟨hb, ⟨hex.mp h, hl'⟩, hr⟩)
      · exact Or.inr (Or.inr (Or.inr ⟨hb, fun hh => h (hex.mpr hh), hl', hr⟩))

/-- C61: a task is created exactly when the columns are columns of the table, with proper names, the side operations are accepted, and
every level that passes the filters on 'by' has an item left by the item filters and has feature records at the index labels of all its
items. -/
theorem C61_created_iff {e : Env} (he : e.Lawful) {a : Args ρ} (ha : a.OK) (hon : a.on ∈ a.cols.on) :
    (∃ T, init e a = .ok T) ↔ Columns a ∧ (∀ f ∈ a.filters, Accepted true a.cols f) ∧ (∀ f ∈ a.regressors, Accepted false a.cols f) ∧
      ∀ p ∈ a.db, LevelKept a p → Fine a p := by
  by_cases hC : Columns a
  swap
  · constructor
    · rintro ⟨T, h⟩
      exact absurd ((checkDatabase_iff a).mp (init_ok h).1) hC
    · exact fun h => absurd h.1 hC
  have hc := (checkDatabase_iff a).mpr hC
  by_cases hF : ∀ f ∈ a.filters, Accepted true a.cols f
  swap
  · constructor
    · rintro ⟨T, h⟩
      exact absurd (mgr_iff.mp ⟨_, (init_ok h).2.2.2.2.1⟩) hF
    · exact fun h => absurd h.2.1 hF
  obtain ⟨m, hm⟩ := mgr_iff.mpr hF
  by_cases hR : ∀ f ∈ a.regressors, Accepted false a.cols f
  swap
  · constructor
    · rintro ⟨T, h⟩
      exact absurd (fun f hf => mgr_iff.mp ⟨_, (init_ok h).2.2.2.2.2.1⟩ f (List.mem_append_left _ hf)) hR
    · exact fun h => absurd h.2.2.1 hR
  obtain ⟨rm, hrm⟩ := (mgr_iff (g := false) (c := a.cols) (fs := a.regressors ++ defaultRegs e a (prep a).2.2)).mpr (by
    intro f hf
    rcases List.mem_append.mp hf with hf | hf
    · exact hR f hf
    · exact defaultRegs_accepted he hon _ f hf)
  have hrows := prep_rows hc
  have hseq : (∃ T, init e a = .ok T) ↔
      ∀ k ∈ groupKeys e "by" (prep a).1 (prep a).2.2, ∃ o, prepareLevel m (prep a).1 (prep a).2.2 a.feat k = .ok o := by
    rw [init_eq hc hm hrm]
    constructor
    · rintro ⟨T, h⟩ k hk
      split at h
      · cases h
      · rename_i ls hls
        obtain ⟨y, -, hy⟩ := forall₂_left (sequence_inv hls) hk
        exact ⟨y, hy⟩
    · intro h
      obtain ⟨ys, hys, -⟩ := sequence_exists (f := prepareLevel m (prep a).1 (prep a).2.2 a.feat) (Q := fun _ _ => True)
        (l := groupKeys e "by" (prep a).1 (prep a).2.2) (fun k hk => by
        obtain ⟨o, ho⟩ := h k hk
        exact ⟨o, ho, trivial⟩)
      rw [hys]
      exact ⟨_, rfl⟩
  rw [hseq]
  constructor
  · intro h
    refine ⟨hC, hF, hR, ?_⟩
    intro p' hp' hk
    obtain ⟨p, hp, hpp⟩ := forall₂_right hrows hp'
    obtain ⟨o, ho⟩ := h _ ((mem_groupKeys he).mpr ⟨p, hp, rfl⟩)
    rcases level_outcome he ha hc hm hp hp' hpp with ⟨h1, -⟩ | ⟨-, h1, -⟩ | ⟨-, -, h1⟩ | ⟨-, -, -, h1⟩
    · exact absurd hk h1
    · exact h1
    · rw [h1] at ho; cases ho
    · rw [h1] at ho; cases ho
  · rintro ⟨-, -, -, h⟩ k hk
    obtain ⟨p, hp, rfl⟩ := (mem_groupKeys he).mp hk
    obtain ⟨p', hp', hpp⟩ := forall₂_left hrows hp
    rcases level_outcome he ha hc hm hp hp' hpp with ⟨-, h1⟩ | ⟨-, -, L, h1⟩ | ⟨h0, ⟨q, hq, hs, hl⟩, -⟩ | ⟨h0, h1, -⟩
    · exact ⟨_, h1⟩
    · exact ⟨_, h1⟩
    · have := (h p' hp' h0).2 q hq hs
      omega
    · exact absurd (h p' hp' h0).1 h1

/-- C61, the failures of a task whose columns and side operations are fine: an `IndexError` needs a level with an item whose index label is
not a position of the feature table, a `ValueError` a level whose items are all removed by the item filters; there is no other error. -/
theorem C61_errors {e : Env} (he : e.Lawful) {a : Args ρ} (ha : a.OK) (hon : a.on ∈ a.cols.on) (hC : Columns a) (hF : ∀ f ∈ a.filters, Accepted true a.cols f)
    (hR : ∀ f ∈ a.regressors, Accepted false a.cols f) {err : Err} (h : init e a = .error err) :
    ∃ p ∈ a.db, LevelKept a p ∧ (err = .indexError ∧ (∃ q ∈ a.db, Same a q p ∧ a.feat.length ≤ q.1) ∨
      err = .valueError ∧ ¬ ∃ q ∈ a.db, Same a q p ∧ ItemKept a q) := by
  have hc := (checkDatabase_iff a).mpr hC
  obtain ⟨m, hm⟩ := mgr_iff.mpr hF
  obtain ⟨rm, hrm⟩ := (mgr_iff (g := false) (c := a.cols) (fs := a.regressors ++ defaultRegs e a (prep a).2.2)).mpr (by
    intro f hf
    rcases List.mem_append.mp hf with hf | hf
    · exact hR f hf
    · exact defaultRegs_accepted he hon _ f hf)
  rw [init_eq hc hm hrm] at h
  have hrows := prep_rows hc
  rcases sequence_error_of (l := (groupKeys e "by" (prep a).1 (prep a).2.2).map (prepareLevel m (prep a).1 (prep a).2.2 a.feat))
      (P := fun err => ∃ p ∈ a.db, LevelKept a p ∧ (err = .indexError ∧ (∃ q ∈ a.db, Same a q p ∧ a.feat.length ≤ q.1) ∨
      err = .valueError ∧ ¬ ∃ q ∈ a.db, Same a q p ∧ ItemKept a q)) (by
      intro x hx
      obtain ⟨k, hk, rfl⟩ := List.mem_map.mp hx
      obtain ⟨p, hp, rfl⟩ := (mem_groupKeys he).mp hk
      obtain ⟨p', hp', hpp⟩ := forall₂_left hrows hp
      rcases level_outcome he ha hc hm hp hp' hpp with ⟨-, h1⟩ | ⟨-, -, L, h1⟩ | ⟨h0, h2, h1⟩ | ⟨h0, h2, -, h1⟩
      · exact Or.inl ⟨_, h1⟩
      · exact Or.inl ⟨_, h1⟩
      · exact Or.inr ⟨_, h1, p', hp', h0, Or.inl ⟨rfl, h2⟩⟩
      · exact Or.inr ⟨_, h1, p', hp', h0, Or.inr ⟨rfl, h2⟩⟩) with ⟨ys, hys⟩ | ⟨e', he', hP⟩
  · rw [hys] at h
    cases h
  · rw [he'] at h
    obtain rfl := Except.error.inj h
    exact hP

/-- example: the task `ex` satisfies the hypotheses and is created -/
example : Columns ex ∧ ex.on ∈ ex.cols.on ∧ (∃ T, init E0 ex = .ok T) ∧ ∀ p ∈ ex.db, LevelKept ex p → Fine ex p := by
  have hT : ∃ T, init E0 ex = .ok T := ⟨_, rfl⟩
  have hon : ex.on ∈ ex.cols.on := by decide
  have h := (C61_created_iff E0_lawful ex_ok hon).mp hT
  exact ⟨h.1, hon, hT, h.2.2.2⟩

#print axioms C61_created_iff
#print axioms C61_errors

end ABX.Task

#print axioms ABX.Task.C61_created_iff
#print axioms ABX.Task.C61_errors
