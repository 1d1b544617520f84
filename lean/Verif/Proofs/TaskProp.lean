import Verif.Proofs.TaskStats
import Verif.Proofs.TaskFile
/-! Last steps towards the properties of task generation. -/
namespace ABX.Task
open ExtSort SideOps Sampler
variable {α β γ ρ : Type}

theorem generic_nil {c : Cols} {fs : List (DBFun Bool)} {m : Mgr Bool} (hm : mgr true c fs = .ok m) (h : ∀ f ∈ fs, Spec.bare c f = false) :
    m.ops .generic = [] := by
  rw [List.eq_nil_iff_forall_not_mem]
  intro f hf
  obtain ⟨p, hp, hs, rfl⟩ := mem_ops.mp hf
  have P := mgr_ok hm p hp
  have hb := h p.op (by rw [← mgr_ops hm]; exact List.mem_map_of_mem hp)
  obtain ⟨v, hv, hnv⟩ := P.hne (by rw [hs]; decide)
  apply Bool.not_eq_true _ |>.mpr hb
  unfold Spec.bare
  rw [Bool.and_eq_true, List.any_eq_true, List.all_eq_true]
  refine ⟨⟨v, hv, by simpa using hnv⟩, ?_⟩
  intro w hw
  by_cases hwb : w.1 ∈ c.by_
  · simp [hwb]
  · simp [(P.genV w (P.hgen hs w hw hwb)).2]

theorem regA_nil {c : Cols} {fs : List (DBFun Nat)} {m : Mgr Nat} (hm : mgr false c fs = .ok m) (h : ∀ f ∈ fs, Spec.readsA c f = false) :
    m.ops .A = [] := by
  rw [List.eq_nil_iff_forall_not_mem]
  intro f hf
  obtain ⟨p, hp, hs, rfl⟩ := mem_ops.mp hf
  have P := mgr_ok hm p hp
  have hb := h p.op (by rw [← mgr_ops hm]; exact List.mem_map_of_mem hp)
  obtain ⟨v, hv, hnv, hcv⟩ := P.hne2 (by rw [hs]; decide) (by rw [hs]; decide) (by rw [hs]; decide)
  have hg := (P.aV v (P.hA hs v hv hnv hcv)).2.2
  have hA : v.2 = .A := by
    unfold getExt at hg
    split at hg
    · split at hg <;> cases hg
    · exact hg
  have hon : v.1 ∉ c.on := by
    intro ho
    simp [condition, hA, ho] at hcv
  apply Bool.not_eq_true _ |>.mpr hb
  unfold Spec.readsA
  rw [List.any_eq_true]
  exact ⟨v, hv, by simp [hA, hnv, hon]⟩

theorem defaultRegs_readsA {e : Env} {a : Args ρ} {fr : Frame} : ∀ f ∈ defaultRegs e a fr, Spec.readsA a.cols f = false := by
  intro f hf
  unfold defaultRegs at hf
  simp only [List.mem_append, List.mem_cons, List.not_mem_nil, or_false, List.mem_flatMap] at hf
  rcases hf with (rfl | rfl) | ⟨c, _, rfl | rfl⟩ <;> simp [columnReg, Spec.readsA]

/-- the columns written are the regressors -/
theorem colRegs_perm {c : Cols} {fs : List (DBFun Nat)} {m : Mgr Nat} (hm : mgr false c fs = .ok m) (h : m.ops .ABX = []) :
    (colRegs m).Perm fs := by
  have hg : ∀ p ∈ m, p.stage ≠ .generic := fun p hp hs => by
    have := (mgr_ok hm p hp).hgen' hs
    cases this
  have hx : ∀ p ∈ m, p.stage ≠ .ABX := fun p hp hs => by
    have : p.op ∈ m.ops .ABX := mem_ops.mpr ⟨p, hp, hs, rfl⟩
    rw [h] at this
    simp at this
  rw [← mgr_ops hm]
  clear hm h
  unfold colRegs Mgr.ops Mgr.at
  rw [← List.map_append, ← List.map_append, ← List.map_append, ← List.map_append]
  apply List.Perm.map
  induction m with
  | nil => simp
  | cons p m ih =>
    have ih := ih (fun q hq => hg q (by simp [hq])) (fun q hq => hx q (by simp [hq]))
    have g1 := hg p (by simp)
    have g2 := hx p (by simp)
    simp only [List.filter_cons]
    cases hs : p.stage with
    | «by» => simpa [hs] using ih
    | generic => exact absurd hs g1
    | ABX => exact absurd hs g2
    | onAcrossBy =>
      simp only [beq_iff_eq, reduceCtorEq, if_false, if_true, List.append_assoc] at ih ⊢
      exact (List.perm_middle).trans (ih.cons p)
    | A =>
      simp only [beq_iff_eq, reduceCtorEq, if_false, if_true, List.append_assoc] at ih ⊢
      rw [← List.append_assoc] at ih ⊢
      exact (List.perm_middle).trans (ih.cons p)
    | B =>
      simp only [beq_iff_eq, reduceCtorEq, if_false, if_true, List.append_assoc] at ih ⊢
      rw [← List.append_assoc, ← List.append_assoc] at ih ⊢
      exact (List.perm_middle).trans (ih.cons p)
    | X =>
      simp only [beq_iff_eq, reduceCtorEq, if_false, if_true, List.append_assoc] at ih ⊢
      rw [← List.append_assoc, ← List.append_assoc, ← List.append_assoc] at ih ⊢
      exact (List.perm_middle).trans (ih.cons p)

theorem levelOut_abx {e : Env} {N : Num} {threshold : Nat} {src : List Val → List Val → Nat → Src} {T : Task ρ} {L : Level ρ} {os : List BlkOut}
    (h : levelOut e N threshold src T L = .ok os) (hne : os ≠ []) : T.regressors.ops .ABX = [] := by
  unfold levelOut at h
  split at h
  · cases h
  split at h
  · cases h
  split at h
  · cases h
  rename_i os' hos
  cases h
  obtain ⟨o, ho⟩ := List.exists_mem_of_ne_nil _ hne
  have ho := filterMap_id_mem ho
  obtain ⟨key, _, hk⟩ := forall₂_mem_right (sequence_inv hos) _ ho
  unfold blockOut at hk
  split at hk
  · cases hk
  · cases hk
  split at hk
  · cases hk
  split at hk
  · cases hk
  rename_i o' hfin
  unfold finishBlock at hfin
  split at hfin
  · cases hfin
  split at hfin
  · cases hfin
  split at hfin
  · cases hfin
  split at hfin
  · cases hfin
  split at hfin
  · cases hfin
  split at hfin
  · cases hfin
  rename_i hh
  simpa using hh

theorem intervals_slices (pieces : List (List α)) : ∀ (pre : List α),
    (intervals pre.length (pieces.map List.length)).map (fun p => npSlice (pre ++ pieces.flatten) p.1 p.2) = pieces := by
  induction pieces with
  | nil => intro pre; rfl
  | cons x pieces ih =>
    intro pre
    have := ih (pre ++ x)
    simp only [List.length_append, List.append_assoc] at this
    simp only [List.map_cons, intervals, List.flatten_cons]
    rw [this]
    congr 1
    unfold npSlice
    rw [← List.append_assoc, List.take_append_of_le_length (by simp), List.take_of_length_le (by simp), List.drop_left]

theorem intervals_length (ns : List Nat) : ∀ c, (intervals c ns).length = ns.length := by
  induction ns with
  | nil => intro c; rfl
  | cons n ns ih => intro c; simp [intervals, ih]

/-- the intervals are consecutive -/
theorem intervals_chain (ns : List Nat) : ∀ c, ∀ i x y, (intervals c ns)[i]? = some x → (intervals c ns)[i + 1]? = some y → x.2 = y.1 := by
  induction ns with
  | nil => intro c i x y h; simp [intervals] at h
  | cons n ns ih =>
    intro c i x y hx hy
    cases i with
    | succ i =>
      rw [intervals, List.getElem?_cons_succ] at hx hy
      exact ih _ i x y hx hy
    | zero =>
      rw [intervals, List.getElem?_cons_succ] at hy
      rw [intervals, List.getElem?_cons_zero] at hx
      cases ns with
      | nil => simp [intervals] at hy
      | cons m ns => simp [intervals] at hx hy; rw [← hx, ← hy]

theorem intervals_lt (ns : List Nat) (h : ∀ n ∈ ns, 0 < n) : ∀ c, ∀ p ∈ intervals c ns, p.1 < p.2 := by
  induction ns with
  | nil => intro c p hp; simp [intervals] at hp
  | cons n ns ih =>
    intro c p hp
    rw [intervals, List.mem_cons] at hp
    rcases hp with rfl | hp
    · have := h n (by simp); dsimp only; omega
    · exact ih (fun m hm => h m (by simp [hm])) _ p hp

theorem intervals_head (ns : List Nat) (c : Nat) : ∀ p, (intervals c ns)[0]? = some p → p.1 = c := by
  cases ns with
  | nil => intro p h; simp [intervals] at h
  | cons n ns => intro p h; simp [intervals] at h; rw [← h]

theorem intervals_last (ns : List Nat) : ∀ c p, (intervals c ns).getLast? = some p → p.2 = c + ns.sum := by
  induction ns with
  | nil => intro c p h; simp [intervals] at h
  | cons n ns ih =>
    intro c p h
    cases ns with
    | nil => simp [intervals] at h; rw [← h]; simp
    | cons m ns =>
      rw [intervals, intervals, List.getLast?_cons_cons, ← intervals] at h
      rw [ih _ _ h]; simp [Nat.add_assoc]

theorem feat_gather {A : Type} (q : A → Bool) (lb : A → Nat) (feat : List ρ) : ∀ (l : List A) (k : Nat), (∀ i x, l[i]? = some x → lb x = k + i) →
    ((l.filter q).map lb).filterMap (fun i => feat[i]?) = ((l.zip (feat.drop k)).filter (fun p => q p.1)).map (·.2) := by
  intro l
  induction l with
  | nil => intro k _; simp
  | cons x l ih =>
    intro k h
    have hx : lb x = k := by simpa using h 0 x rfl
    have ih := ih (k + 1) (fun i y hy => by rw [h (i + 1) y (by simpa using hy)]; omega)
    cases hd : feat.drop k with
    | nil =>
      have hk : feat.length ≤ k := List.drop_eq_nil_iff.mp hd
      simp only [List.zip_nil_right, List.filter_nil, List.map_nil]
      rw [List.filterMap_eq_nil_iff]
      intro i hi
      obtain ⟨y, hy, rfl⟩ := List.mem_map.mp hi
      obtain ⟨j, hj, rfl⟩ := List.mem_iff_getElem.mp (List.mem_filter.mp hy).1
      rw [h j _ (List.getElem?_eq_getElem hj)]
      exact List.getElem?_eq_none (by omega)
    | cons f fs =>
      have hk : feat[k]? = some f := by
        have := congrArg (·[0]?) hd
        simpa using this
      have hfs : feat.drop (k + 1) = fs := by
        rw [← List.drop_drop, hd]; rfl
      rw [hfs] at ih
      rw [List.zip_cons_cons, List.filter_cons, List.filter_cons]
      cases hq : q x
      · simpa [hq] using ih
      · simp only [if_true, List.map_cons, hx]
        rw [List.filterMap_cons_some hk, ih]

theorem zip_filter_sim {A B : Type} {R : A → B → Prop} {q : A → Bool} {q' : B → Bool} (hq : ∀ x y, R x y → q x = q' y) {l : List A} {l' : List B}
    (h : List.Forall₂ R l l') : ∀ (feat : List ρ), ((l.zip feat).filter (fun p => q p.1)).map (·.2) = ((l'.zip feat).filter (fun p => q' p.1)).map (·.2) := by
  induction h with
  | nil => intro feat; simp
  | @cons x y l l' hxy _ ih =>
    intro feat
    cases feat with
    | nil => simp
    | cons f fs =>
      rw [List.zip_cons_cons, List.zip_cons_cons, List.filter_cons, List.filter_cons, hq x y hxy]
      cases q' y
      · simpa using ih fs
      · simpa using ih fs

theorem zip_filter_fst {A : Type} (q : A → Bool) : ∀ (l : List A) (feat : List ρ), l.length ≤ feat.length →
    ((l.zip feat).filter (fun p => q p.1)).map (·.1) = l.filter q
  | [], _, _ => by simp
  | x :: l, [], h => by simp at h
  | x :: l, f :: fs, h => by
    have ih := zip_filter_fst q l fs (by simpa using h)
    rw [List.zip_cons_cons, List.filter_cons, List.filter_cons]
    cases q x
    · simpa using ih
    · simpa using ih

/-- membership of a level in terms of the columns of the user -/
theorem key_sim {a : Args ρ} (hc : checkDatabase a = .ok ()) {key : List Val} (hk : ∃ p ∈ (prep a).2.2, keyOf (prep a).1 p.2 = key) :
    List.Forall₂ (fun (p q : Nat × Row) => (p.1 = q.1 ∧ ∀ c ∈ a.columns, p.2 c = q.2 c) ∧
      ((keyOf (prep a).1 p.2 == key) = (a.by_.map q.2 == specKey a key))) (prep a).2.2 a.db := by
  obtain ⟨_, _, h3, h4⟩ := checkDatabase_ok hc
  have base := prep_sim a
  have base2 : List.Forall₂ (fun p q => p ∈ (prep a).2.2 ∧ (p.1 = q.1 ∧ ∀ c, c ≠ "#by" → c ≠ "#across" → p.2 c = q.2 c)) (prep a).2.2 a.db := by
    rw [List.forall₂_iff_get] at base ⊢
    exact ⟨base.1, fun i h1 h2 => ⟨List.get_mem _ _, base.2 i h1 h2⟩⟩
  refine List.Forall₂.imp ?_ base2
  rintro p q ⟨hp, h1, h2⟩
  have hcol : ∀ c ∈ a.columns, p.2 c = q.2 c := fun c hc => h2 c (h4 c hc).1 (h4 c hc).2
  refine ⟨⟨h1, hcol⟩, ?_⟩
  by_cases hb : a.by_ = []
  · obtain ⟨e1, e2⟩ := prep_by a hb
    obtain ⟨p0, hp0, hpk⟩ := hk
    have : key = [.int 0] := by rw [← hpk, e1]; simp [keyOf, e2 p0 hp0]
    simp [e1, this, keyOf, e2 p hp, specKey, hb]
  · rw [prep_by' a hb]
    have : keyOf a.by_ p.2 = a.by_.map q.2 := List.map_congr_left (fun c hc => hcol c (h3 c hc))
    simp [this, specKey, hb]

/-- the features of a level when labels are positions -/
theorem feat_ok {a : Args ρ} (hc : checkDatabase a = .ok ()) {key : List Val} (hk : ∃ p ∈ (prep a).2.2, keyOf (prep a).1 p.2 = key) {feat : List ρ}
    (hp : Positional a.db) (hlen : a.feat.length = a.db.length)
    (h : gather a.feat ((groupFrame (prep a).2.2 (prep a).1 key).map (·.1)) = .ok feat) :
    ((itemsOf a key).map (·.2)).zip feat = ((a.db.map (·.2)).zip a.feat).filter (fun p => a.by_.map p.1 == specKey a key) := by
  have hsim := key_sim hc hk
  have hl := hsim.length_eq
  have hpos : ∀ i (x : Nat × Row), (prep a).2.2[i]? = some x → x.1 = 0 + i := by
    intro i x hx
    obtain ⟨hi, rfl⟩ := List.getElem?_eq_some_iff.mp hx
    have := (List.forall₂_iff_get.mp hsim).2 i hi (by omega)
    have h1 := this.1.1
    have := hp i _ (List.getElem?_eq_getElem (by omega : i < a.db.length))
    simp only [List.get_eq_getElem] at h1
    omega
  have hg : gather a.feat ((groupFrame (prep a).2.2 (prep a).1 key).map (·.1)) =
      .ok (((groupFrame (prep a).2.2 (prep a).1 key).map (·.1)).filterMap (fun i => a.feat[i]?)) := by
    apply gather_ok
    intro i hi
    obtain ⟨x, hx, rfl⟩ := List.mem_map.mp hi
    obtain ⟨j, hj, rfl⟩ := List.mem_iff_getElem.mp (List.mem_filter.mp hx).1
    have := hpos j _ (List.getElem?_eq_getElem hj)
    omega
  rw [hg] at h
  have h := (Except.ok.inj h).symm
  unfold groupFrame at h
  rw [feat_gather _ _ _ _ 0 hpos, List.drop_zero, zip_filter_sim (q' := fun q => a.by_.map q.2 == specKey a key) (fun x y hxy => hxy.2) hsim] at h
  have h2 : ((a.db.zip a.feat).filter (fun p => a.by_.map p.1.2 == specKey a key)).map (·.2) =
      (((a.db.map (·.2)).zip a.feat).filter (fun p => a.by_.map p.1 == specKey a key)).map (·.2) := by
    have e1 : (a.db.map (·.2)).zip a.feat = (a.db.zip a.feat).map (fun p => (p.1.2, p.2)) := by
      rw [List.zip_map_left]; rfl
    rw [e1, List.filter_map, List.map_map]
    rfl
  rw [h2] at h
  have h3 : (itemsOf a key).map (·.2) = (((a.db.map (·.2)).zip a.feat).filter (fun p => a.by_.map p.1 == specKey a key)).map (·.1) := by
    rw [zip_filter_fst (fun r => a.by_.map r == specKey a key) _ _ (by simp [hlen])]
    unfold itemsOf Spec.items
    rw [List.map_map]
    exact List.zipIdx_map_fst ..
  rw [h, h3]
  exact (List.zip_map' ..).trans (by simp)

/-- the default regressor `on_2` is evaluated for B -/
theorem on2_stage {e : Env} {a : Args ρ} {m : Mgr Nat} (hm : mgr false a.cols (a.regressors ++ defaultRegs e a a.db) = .ok m)
    (h1 : a.on ∈ a.cols.on) (h2 : a.on ∉ a.cols.by_) : m.ops .B ≠ [] := by
  have hmem : columnReg e a.db (a.on, .two) ∈ a.regressors ++ defaultRegs e a a.db := by simp [defaultRegs]
  obtain ⟨p, hp, hpl⟩ := forall₂_mem_left (mgr_forall₂ hm) _ hmem
  have P := place_ok hpl
  have hin : ((a.on, .two) : Var) ∈ (columnReg e a.db (a.on, .two)).inputs := by simp [columnReg]
  have hc : condition a.cols (a.on, .two) = true := rfl
  have hg : getExt a.cols (a.on, .two) = .B := by simp [getExt, h1]
  have hs : p.stage = .B := by
    cases hs : p.stage with
    | «by» => exact absurd (P.hby' hs _ hin) h2
    | generic => have := (P.genV _ (P.hgen hs _ hin h2)).2; cases this
    | onAcrossBy => have := P.hoab hs _ hin h2; rw [hc] at this; cases this
    | A => have := (P.aV _ (P.hA hs _ hin h2 hc)).2.2; rw [hg] at this; cases this
    | B => rfl
    | X => have := (P.xV _ (P.hX hs _ hin h2 hc)).2.2; rw [hg] at this; cases this
    | ABX => exact absurd rfl (P.hABXmix hs (a.on, .two))
  intro hnil
  have : p.op ∈ m.ops .B := mem_ops.mpr ⟨p, hp, hs, rfl⟩
  rw [hnil] at this
  simp at this

theorem fit_small {m : Int} (h : m ≤ 2 ^ 53) : ∃ t, fitIntegerType m false = .ok t := by
  have : fitIntegerType m false ≠ .error .valueError := by
    rw [Ne, C43_raises_iff, IntType.hi]
    simp only [Bool.false_eq_true, if_false]
    norm_num at h ⊢
    omega
  cases hf : fitIntegerType m false with
  | ok t => exact ⟨t, rfl⟩
  | error er =>
    exfalso
    have he : er = .valueError := by
      clear this h
      unfold fitIntegerType at hf
      simp only [Bool.false_eq_true, if_false] at hf
      (repeat' split at hf) <;> first | cases hf; rfl | cases hf
    exact this (he ▸ hf)

theorem cast_small {n : Nat} (h : n ≤ 2 ^ 53) : (⟨64, true⟩ : IntType).cast (n : Int) = n := by
  apply C43_cast_lossless
  · decide
  · simp only [IntType.lo, if_true]
    have : (0 : Int) ≤ 2 ^ (64 - 1) := by norm_num
    omega
  · simp only [IntType.hi, if_true]
    norm_num at h ⊢
    omega

theorem fit_prod {n : Nat} (h : n ≤ 2 ^ 53) : ∃ t, fitIntegerType ((⟨64, true⟩ : IntType).cast (n : Nat)) false = .ok t := by
  rw [cast_small h]
  exact fit_small (by exact_mod_cast h)

theorem fit_err {n : Nat} {er : Err} (h : fitIntegerType ((⟨64, true⟩ : IntType).cast (n : Nat)) false = .error er) : ¬ n ≤ 2 ^ 53 := by
  intro hn
  obtain ⟨t, ht⟩ := fit_prod hn
  rw [ht] at h
  cases h

end ABX.Task
