import Verif.Proofs.TaskProp
/-! When the preparation of a task succeeds. -/
namespace ABX.Task
open ExtSort SideOps
variable {α β γ ρ : Type}

theorem fit_total {n : Nat} (h : n < 2 ^ 64) : ∃ t, fitIntegerType (n : Int) false = .ok t := by
  unfold fitIntegerType
  simp only [Bool.false_eq_true, if_false]
  split_ifs with h1 h2 h3 h4
  · exact ⟨_, rfl⟩
  · exact ⟨_, rfl⟩
  · exact ⟨_, rfl⟩
  · exact ⟨_, rfl⟩
  · exfalso
    apply h4
    have : (n : Int) < ((2 ^ 64 : Nat) : Int) := by exact_mod_cast h
    simpa using this

theorem foldl_max_lt {b : Nat} : ∀ (ls : List Nat) (l : Nat), l < b → (∀ x ∈ ls, x < b) → ls.foldl max l < b
  | [], l, h, _ => h
  | x :: ls, l, h, hx => by
    rw [List.foldl_cons]
    exact foldl_max_lt ls (max l x) (by have := hx x (by simp); omega) (fun y hy => hx y (by simp [hy]))

theorem levelType_total {fr : Frame} (h : fr ≠ []) (hb : ∀ p ∈ fr, p.1 < 2 ^ 64) : ∃ t, levelType fr = .ok t := by
  unfold levelType
  cases fr with
  | nil => exact absurd rfl h
  | cons p fr =>
    simp only [List.map_cons]
    exact fit_total (foldl_max_lt _ _ (hb p (by simp)) (fun x hx => by
      obtain ⟨q, hq, rfl⟩ := List.mem_map.mp hx
      exact hb q (by simp [hq])))

theorem gather_error {l : List α} {ix : List Nat} (h : ∃ i ∈ ix, l.length ≤ i) : gather l ix = .error .indexError := by
  induction ix with
  | nil => simp at h
  | cons i is ih =>
    unfold gather
    cases hi : l[i]? with
    | none => rfl
    | some x =>
      simp only
      obtain ⟨j, hj, hl⟩ := h
      rcases List.mem_cons.mp hj with rfl | hj
      · rw [List.getElem?_eq_none hl] at hi
        cases hi
      · rw [ih ⟨j, hj, hl⟩]

/-- the outcome of the preparation of a level -/
theorem prepareLevel_cases {m : Mgr Bool} {c : Cols} (hm : MgrOK true c m) (hav : ∀ p ∈ m, Avail c p.op) {byCols : List String} {fr : Frame} {feat : List ρ}
    {key : List Val} (hk : ∃ p ∈ fr, keyOf byCols p.2 = key) (hlen : fr.length < 2 ^ 64) :
    ∃ p0 ∈ groupFrame fr byCols key, (((m.ops .by).all (fun f => f.fn (fun v => p0.2 v.1)) = false ∧ prepareLevel m byCols fr feat key = .ok none) ∨
      ((m.ops .by).all (fun f => f.fn (fun v => p0.2 v.1)) = true ∧
        (((∃ p ∈ groupFrame fr byCols key, feat.length ≤ p.1) ∧ prepareLevel m byCols fr feat key = .error .indexError) ∨
         ((∀ p ∈ groupFrame fr byCols key, p.1 < feat.length) ∧
          ((∃ q ∈ groupFrame fr byCols key, (m.ops .generic).all (fun f => f.fn (fun v => q.2 v.1)) = true) ∧ (∃ L, prepareLevel m byCols fr feat key = .ok (some L)) ∨
           ((¬ ∃ q ∈ groupFrame fr byCols key, (m.ops .generic).all (fun f => f.fn (fun v => q.2 v.1)) = true) ∧
             prepareLevel m byCols fr feat key = .error .valueError)))))) := by
  obtain ⟨p, hp, hpk⟩ := hk
  have hmem : p ∈ groupFrame fr byCols key := List.mem_filter.mpr ⟨hp, by simpa using hpk⟩
  unfold prepareLevel
  dsimp only
  cases hg : groupFrame fr byCols key with
  | nil => rw [hg] at hmem; simp at hmem
  | cons p0 rest =>
    refine ⟨p0, by simp, ?_⟩
    simp only [iloc, List.getElem?_cons_zero]
    rw [byFilter_ok hm]
    rw [← hg]
    cases hb : (m.ops .by).all (fun f => f.fn (fun v => p0.2 v.1)) with
    | false => exact Or.inl ⟨rfl, rfl⟩
    | true =>
      refine Or.inr ⟨rfl, ?_⟩
      simp only
      by_cases hf : ∃ p ∈ groupFrame fr byCols key, feat.length ≤ p.1
      · refine Or.inl ⟨hf, ?_⟩
        obtain ⟨q, hq, hl⟩ := hf
        rw [gather_error ⟨q.1, List.mem_map_of_mem hq, hl⟩]
      · refine Or.inr ⟨by push Not at hf; exact hf, ?_⟩
        rw [gather_ok feat _ (fun i hi => by
          obtain ⟨q, hq, rfl⟩ := List.mem_map.mp hi
          by_contra hh
          exact hf ⟨q, hq, by omega⟩)]
        simp only
        rw [genericFilter_ok hm hav p0.2 (resetIndex (groupFrame fr byCols key)) (·.2)]
        simp only
        rw [gather_of_filter (P := fun p : Nat × Row => (m.ops .generic).all (fun f => f.fn (fun v => p.2 v.1)))]
        simp only
        have hiff : (∃ q ∈ groupFrame fr byCols key, (m.ops .generic).all (fun f => f.fn (fun v => q.2 v.1)) = true) ↔
            (resetIndex (groupFrame fr byCols key)).filter (fun p => (m.ops .generic).all (fun f => f.fn (fun v => p.2 v.1))) ≠ [] := by
          rw [Ne, List.filter_eq_nil_iff]
          push Not
          constructor
          · rintro ⟨q, hq, hh⟩
            have : q.2 ∈ (resetIndex (groupFrame fr byCols key)).map (·.2) := by rw [resetIndex_map_snd]; exact List.mem_map_of_mem hq
            obtain ⟨q', hq', e⟩ := List.mem_map.mp this
            exact ⟨q', hq', by rw [e]; exact hh⟩
          · rintro ⟨q, hq, hh⟩
            have : q.2 ∈ (resetIndex (groupFrame fr byCols key)).map (·.2) := List.mem_map_of_mem hq
            rw [resetIndex_map_snd] at this
            obtain ⟨q', hq', e⟩ := List.mem_map.mp this
            exact ⟨q', hq', by rw [e]; exact hh⟩
        by_cases hq : ∃ q ∈ groupFrame fr byCols key, (m.ops .generic).all (fun f => f.fn (fun v => q.2 v.1)) = true
        · refine Or.inl ⟨hq, ?_⟩
          obtain ⟨t, ht⟩ := levelType_total (hiff.mp hq) (fun q hq => by
            have h1 : q.1 ∈ (resetIndex (groupFrame fr byCols key)).map (·.1) := List.mem_map_of_mem (List.mem_filter.mp hq).1
            rw [resetIndex_map_fst, List.mem_range] at h1
            have h2 : (groupFrame fr byCols key).length ≤ fr.length := List.length_filter_le _ _
            omega)
          rw [ht]
          exact ⟨_, rfl⟩
        · refine Or.inr ⟨hq, ?_⟩
          have : (resetIndex (groupFrame fr byCols key)).filter (fun p => (m.ops .generic).all (fun f => f.fn (fun v => p.2 v.1))) = [] := by
            by_contra hh
            exact hq (hiff.mpr hh)
          rw [this]
          rfl

/-- operations of the stages `by` and `generic` -/
theorem ops_by {c : Cols} {fs : List (DBFun Bool)} {m : Mgr Bool} (hm : mgr true c fs = .ok m) (f : DBFun Bool) :
    f ∈ m.ops .by ↔ f ∈ fs ∧ ∀ v ∈ f.inputs, v.1 ∈ c.by_ := by
  constructor
  · intro hf
    obtain ⟨p, hp, hs, rfl⟩ := mem_ops.mp hf
    exact ⟨by rw [← mgr_ops hm]; exact List.mem_map_of_mem hp, (mgr_ok hm p hp).hby' hs⟩
  · rintro ⟨hf, hv⟩
    rw [← mgr_ops hm] at hf
    obtain ⟨p, hp, rfl⟩ := List.mem_map.mp hf
    refine mem_ops.mpr ⟨p, hp, ?_, rfl⟩
    by_contra hs
    obtain ⟨v, h1, h2⟩ := (mgr_ok hm p hp).hne hs
    exact h2 (hv v h1)

/-- the filters that select items are those of the stage `generic` -/
theorem stage_generic {c : Cols} {fs : List (DBFun Bool)} {m : Mgr Bool} (hm : mgr true c fs = .ok m) {p : Placed Bool} (hp : p ∈ m) :
    p.stage = .generic ↔ Spec.bare c p.op = true := by
  have P := mgr_ok hm p hp
  constructor
  · intro hs
    obtain ⟨v, hv, hnv⟩ := P.hne (by rw [hs]; decide)
    unfold Spec.bare
    rw [Bool.and_eq_true, List.any_eq_true, List.all_eq_true]
    refine ⟨⟨v, hv, by simpa using hnv⟩, ?_⟩
    intro w hw
    by_cases hwb : w.1 ∈ c.by_
    · simp [hwb]
    · simp [(P.genV w (P.hgen hs w hw hwb)).2]
  · intro hb
    unfold Spec.bare at hb
    rw [Bool.and_eq_true, List.any_eq_true, List.all_eq_true] at hb
    obtain ⟨⟨v, hv, hnv⟩, hall⟩ := hb
    have hnv' : v.1 ∉ c.by_ := by simpa using hnv
    have h1 : p.stage ≠ .by := fun hs => hnv' (P.hby' hs v hv)
    by_contra hs
    have h2 := P.hnone h1 hs v hv hnv'
    have := hall v hv
    simp [hnv', h2] at this

theorem ops_generic {c : Cols} {fs : List (DBFun Bool)} {m : Mgr Bool} (hm : mgr true c fs = .ok m) (f : DBFun Bool) :
    f ∈ m.ops .generic ↔ f ∈ fs ∧ Spec.bare c f = true := by
  constructor
  · intro hf
    obtain ⟨p, hp, hs, rfl⟩ := mem_ops.mp hf
    exact ⟨by rw [← mgr_ops hm]; exact List.mem_map_of_mem hp, (stage_generic hm hp).mp hs⟩
  · rintro ⟨hf, hb⟩
    rw [← mgr_ops hm] at hf
    obtain ⟨p, hp, rfl⟩ := List.mem_map.mp hf
    exact mem_ops.mpr ⟨p, hp, (stage_generic hm hp).mpr hb, rfl⟩

theorem sequence_error_of {l : List (Except Err α)} {P : Err → Prop} (hall : ∀ x ∈ l, (∃ y, x = .ok y) ∨ ∃ e, x = .error e ∧ P e) :
    (∃ ys, sequence l = .ok ys) ∨ ∃ e, sequence l = .error e ∧ P e := by
  induction l with
  | nil => exact Or.inl ⟨[], rfl⟩
  | cons x l ih =>
    rcases hall x (by simp) with ⟨y, rfl⟩ | ⟨e, rfl, he⟩
    · rcases ih (fun z hz => hall z (by simp [hz])) with ⟨ys, h⟩ | ⟨e, h, he⟩
      · exact Or.inl ⟨y :: ys, by simp [sequence, h]⟩
      · exact Or.inr ⟨e, by simp [sequence, h], he⟩
    · exact Or.inr ⟨e, by simp [sequence], he⟩

theorem init_eq {e : Env} {a : Args ρ} (hc : checkDatabase a = .ok ()) {m : Mgr Bool} (hm : mgr true a.cols a.filters = .ok m) {rm : Mgr Nat}
    (hr : mgr false a.cols (a.regressors ++ defaultRegs e a (prep a).2.2) = .ok rm) :
    init e a = (match sequence ((groupKeys e "by" (prep a).1 (prep a).2.2).map (prepareLevel m (prep a).1 (prep a).2.2 a.feat)) with
      | .error e => .error e
      | .ok ls => .ok ⟨a.on, (prep a).2.1, a.cols, m, rm, ls.filterMap id⟩) := by
  unfold init
  rw [hc]
  dsimp only
  rw [hm]
  dsimp only
  unfold prep at hr
  dsimp only at hr
  rw [hr]
  rfl

/-- rows of the prepared frame and rows of the table -/
theorem prep_rows {a : Args ρ} (hc : checkDatabase a = .ok ()) :
    List.Forall₂ (fun p q : Nat × Row => p.1 = q.1 ∧ ∀ c ∈ a.columns, p.2 c = q.2 c) (prep a).2.2 a.db := by
  obtain ⟨-, -, -, h4⟩ := checkDatabase_ok hc
  exact (prep_sim a).imp (fun p q h => ⟨h.1, fun c hcol => h.2 c (h4 c hcol).1 (h4 c hcol).2⟩)

theorem prep_length (a : Args ρ) : (prep a).2.2.length = a.db.length := (prep_sim a).length_eq

/-- same level -/
theorem prep_key {a : Args ρ} (hc : checkDatabase a = .ok ()) {p q p' q' : Nat × Row} (hp : p ∈ (prep a).2.2) (hq : q ∈ (prep a).2.2)
    (h1 : ∀ c ∈ a.columns, p.2 c = p'.2 c) (h2 : ∀ c ∈ a.columns, q.2 c = q'.2 c) :
    keyOf (prep a).1 p.2 = keyOf (prep a).1 q.2 ↔ ∀ c ∈ a.by_, p'.2 c = q'.2 c := by
  obtain ⟨-, -, h3, -⟩ := checkDatabase_ok hc
  by_cases hb : a.by_ = []
  · obtain ⟨e1, e2⟩ := prep_by a hb
    rw [e1, hb]
    simp [keyOf, e2 p hp, e2 q hq]
  · rw [prep_by' a hb]
    unfold keyOf
    rw [List.map_inj_left]
    constructor
    · intro h c hcb
      rw [← h1 c (h3 c hcb), ← h2 c (h3 c hcb)]
      exact h c hcb
    · intro h c hcb
      rw [h1 c (h3 c hcb), h2 c (h3 c hcb)]
      exact h c hcb

end ABX.Task
