import Verif.Proofs.TaskLevel
/-! From the item table to the levels of the task. -/
namespace ABX.Task
open ExtSort SideOps Sampler
variable {α β γ ρ : Type}

/-- what is assumed of the arguments of a task: the side operations name columns of the table and have the values they
need (`Avail`, see C37); the columns determined by 'on', 'across' and 'by' are columns of the table that are functions of
those; fewer than 2^64 combinations -/
structure Args.OK (a : Args ρ) : Prop where
  availF : ∀ f ∈ a.filters, Avail a.cols f
  availR : ∀ f ∈ a.regressors, Avail a.cols f
  inF : ∀ f ∈ a.filters, ∀ v ∈ f.inputs, v.1 ∈ a.columns
  inR : ∀ f ∈ a.regressors, ∀ v ∈ f.inputs, v.1 ∈ a.columns
  colsBy : ∀ r ∈ a.cols.by_, r ∈ a.columns
  colsOn : ∀ r ∈ a.cols.on, r ∈ a.columns
  colsAcross : ∀ r ∈ a.cols.across, r ∈ a.columns
  detBy : ∀ p ∈ a.db, ∀ q ∈ a.db, keyOf a.by_ p.2 = keyOf a.by_ q.2 → ∀ r ∈ a.cols.by_, p.2 r = q.2 r
  detOn : ∀ p ∈ a.db, ∀ q ∈ a.db, p.2 a.on = q.2 a.on → ∀ r ∈ a.cols.on, p.2 r = q.2 r
  detAcross : ∀ p ∈ a.db, ∀ q ∈ a.db, keyOf a.across p.2 = keyOf a.across q.2 → ∀ r ∈ a.cols.across, p.2 r = q.2 r
  size : a.db.length * a.db.length * a.db.length < 2 ^ 64

/-- the key of a level in terms of the columns given by the user (there is a dummy column when no 'by' is given) -/
def specKey (a : Args ρ) (key : List Val) : List Val := if a.by_ = [] then [] else key

/-- items that agree on their number and on the columns of the table -/
def Sim (cols : List String) (p q : Nat × Row) : Prop := p.1 = q.1 ∧ ∀ c ∈ cols, p.2 c = q.2 c

theorem checkDatabase_ok {a : Args ρ} {u} (h : checkDatabase a = .ok u) :
    a.on ∈ a.columns ∧ (∀ c ∈ a.across, c ∈ a.columns) ∧ (∀ c ∈ a.by_, c ∈ a.columns) ∧ (∀ c ∈ a.columns, c ≠ "#by" ∧ c ≠ "#across") := by
  unfold checkDatabase at h
  split at h
  · cases h
  rename_i h1
  split at h
  · cases h
  rename_i h2
  split at h
  · cases h
  rename_i h3
  split at h
  · cases h
  rename_i h4
  refine ⟨by simpa using h1, by simpa using h2, by simpa using h3, ?_⟩
  intro c hc
  have h5 : ¬ '#' ∈ c.toList := by
    intro hh
    apply h4
    rw [List.any_eq_true]
    exact ⟨c, hc, by simp [hh]⟩
  constructor <;> rintro rfl <;> exact h5 (by decide)

theorem forall₂_zipIdx {R : α → β → Prop} {l : List α} {l' : List β} (h : List.Forall₂ R l l') : ∀ n,
    List.Forall₂ (fun p q => R p.1 q.1 ∧ p.2 = q.2) (l.zipIdx n) (l'.zipIdx n) := by
  induction h with
  | nil => intro n; exact .nil
  | cons h _ ih => intro n; exact .cons ⟨h, rfl⟩ (ih (n + 1))

theorem forall₂_filter {R : α → β → Prop} {P : α → Bool} {Q : β → Bool} (hR : ∀ x y, R x y → P x = Q y) {l : List α} {l' : List β}
    (h : List.Forall₂ R l l') : List.Forall₂ R (l.filter P) (l'.filter Q) := by
  induction h with
  | nil => exact .nil
  | @cons x y _ _ h _ ih =>
    have := hR x y h
    cases hp : P x
    · rw [List.filter_cons_of_neg (by simp [hp]), List.filter_cons_of_neg (by simp [← this, hp])]; exact ih
    · rw [List.filter_cons_of_pos hp, List.filter_cons_of_pos (by rw [← this, hp])]; exact .cons h ih

theorem forall₂_map {R : α → β → Prop} {S : γ → ρ → Prop} {f : α → γ} {g : β → ρ} (hR : ∀ x y, R x y → S (f x) (g y)) {l : List α} {l' : List β}
    (h : List.Forall₂ R l l') : List.Forall₂ S (l.map f) (l'.map g) := by
  induction h with
  | nil => exact .nil
  | cons h _ ih => exact .cons (hR _ _ h) ih

theorem forall₂_flatMap {R : α → β → Prop} {S : γ → ρ → Prop} {f : α → List γ} {g : β → List ρ} (hR : ∀ x y, R x y → List.Forall₂ S (f x) (g y))
    {l : List α} {l' : List β} (h : List.Forall₂ R l l') : List.Forall₂ S (l.flatMap f) (l'.flatMap g) := by
  induction h with
  | nil => exact .nil
  | cons h _ ih => rw [List.flatMap_cons, List.flatMap_cons]; exact List.rel_append (hR _ _ h) ih

theorem forall₂_map_eq {R : α → β → Prop} {f : α → γ} {g : β → γ} {l : List α} {l' : List β} (h : List.Forall₂ R l l')
    (hR : ∀ x y, R x y → f x = g y) : l.map f = l'.map g := by
  induction h with
  | nil => rfl
  | cons h _ ih => rw [List.map_cons, List.map_cons, hR _ _ h, ih]

/-- triples of items that agree -/
def Sim3 (cols : List String) (t u : Tri) : Prop := Sim cols t.1 u.1 ∧ Sim cols t.2.1 u.2.1 ∧ Sim cols t.2.2 u.2.2

theorem triples_sim {cols : List String} {l l' : List (Nat × Row)} (h : List.Forall₂ (Sim cols) l l') :
    List.Forall₂ (Sim3 cols) (Spec.triples l) (Spec.triples l') := by
  unfold Spec.triples
  refine forall₂_flatMap (fun a a' ha => forall₂_flatMap (fun b b' hb => forall₂_map (fun x x' hx => ⟨ha, hb, hx⟩) h) h) h

theorem legal_sim {cols : List String} {on : String} {across : List String} (hon : on ∈ cols) (hac : ∀ c ∈ across, c ∈ cols) {t u : Tri}
    (h : Sim3 cols t u) : Spec.legal on across t.1 t.2.1 t.2.2 = Spec.legal on across u.1 u.2.1 u.2.2 := by
  obtain ⟨⟨a1, a2⟩, ⟨b1, b2⟩, ⟨x1, x2⟩⟩ := h
  have e : ∀ (l : List String), (∀ c ∈ l, c ∈ cols) → (l.all (fun c => t.2.1.2 c == t.1.2 c) = l.all (fun c => u.2.1.2 c == u.1.2 c) ∧
      l.all (fun c => t.2.2.2 c != t.1.2 c) = l.all (fun c => u.2.2.2 c != u.1.2 c)) := by
    intro l hl
    induction l with
    | nil => simp
    | cons c l ih =>
      have := ih (fun d hd => hl d (by simp [hd]))
      have hc := hl c (by simp)
      simp only [List.all_cons, this.1, this.2, a2 c hc, b2 c hc, x2 c hc, and_self]
  unfold Spec.legal
  rw [a1, x1, a2 on hon, b2 on hon, x2 on hon, (e across hac).1, (e across hac).2]

theorem holds_sim {cols : List String} {c : Cols} {f : DBFun Bool} (hf : ∀ v ∈ f.inputs, v.1 ∈ cols) {t u : Tri} (h : Sim3 cols t u) :
    Spec.holds c f t.1.2 t.2.1.2 t.2.2.2 = Spec.holds c f u.1.2 u.2.1.2 u.2.2.2 := by
  obtain ⟨⟨a1, a2⟩, ⟨b1, b2⟩, ⟨x1, x2⟩⟩ := h
  unfold Spec.holds
  have e1 : f.fn (fun v => t.1.2 v.1) = f.fn (fun v => u.1.2 v.1) := f.ext _ _ (fun v hv => a2 _ (hf v hv))
  have e2 : f.fn (fun v => t.2.1.2 v.1) = f.fn (fun v => u.2.1.2 v.1) := f.ext _ _ (fun v hv => b2 _ (hf v hv))
  have e3 : f.fn (fun v => t.2.2.2 v.1) = f.fn (fun v => u.2.2.2 v.1) := f.ext _ _ (fun v hv => x2 _ (hf v hv))
  have e4 : f.fn (Spec.sem c t.1.2 t.2.1.2 t.2.2.2) = f.fn (Spec.sem c u.1.2 u.2.1.2 u.2.2.2) := by
    apply f.ext
    rintro ⟨r, e⟩ hv
    have hr := hf _ hv
    cases e <;> simp only [Spec.sem]
    all_goals try exact a2 _ hr
    · exact b2 _ hr
    · exact x2 _ hr
    · split
      · exact b2 _ hr
      · exact x2 _ hr
  rw [e1, e2, e3, e4]

theorem regValue_sim {cols : List String} {c : Cols} {f : DBFun Nat} (hf : ∀ v ∈ f.inputs, v.1 ∈ cols) {t u : Tri} (h : Sim3 cols t u) :
    Spec.regValue c f t = Spec.regValue c f u := by
  obtain ⟨⟨a1, a2⟩, ⟨b1, b2⟩, ⟨x1, x2⟩⟩ := h
  apply f.ext
  rintro ⟨r, e⟩ hv
  have hr := hf _ hv
  cases e <;> simp only [Spec.sem]
  all_goals try exact a2 _ hr
  · exact b2 _ hr
  · exact x2 _ hr
  · split
    · exact b2 _ hr
    · exact x2 _ hr

theorem itemTriplets_sim {cols : List String} {c : Cols} {on : String} {across : List String} {fs : List (DBFun Bool)} (hon : on ∈ cols)
    (hac : ∀ c ∈ across, c ∈ cols) (hfs : ∀ f ∈ fs, ∀ v ∈ f.inputs, v.1 ∈ cols) {l l' : List (Nat × Row)} (h : List.Forall₂ (Sim cols) l l') :
    List.Forall₂ (Sim3 cols) (Spec.itemTriplets c on across fs l) (Spec.itemTriplets c on across fs l') := by
  unfold Spec.itemTriplets
  refine forall₂_filter ?_ (triples_sim h)
  intro t u htu
  rw [legal_sim hon hac htu]
  congr 1
  rw [Bool.eq_iff_iff, List.all_eq_true, List.all_eq_true]
  constructor <;> intro hh f hf
  · rw [← holds_sim (hfs f hf) htu]; exact hh f hf
  · rw [holds_sim (hfs f hf) htu]; exact hh f hf

theorem triplets_sim {cols : List String} {c : Cols} {on : String} {across : List String} {fs : List (DBFun Bool)} (hon : on ∈ cols)
    (hac : ∀ c ∈ across, c ∈ cols) (hfs : ∀ f ∈ fs, ∀ v ∈ f.inputs, v.1 ∈ cols) {l l' : List (Nat × Row)} (h : List.Forall₂ (Sim cols) l l') :
    Spec.triplets c on across fs l = Spec.triplets c on across fs l' := by
  unfold Spec.triplets
  refine forall₂_map_eq (itemTriplets_sim hon hac hfs h) ?_
  rintro t u ⟨⟨h1, _⟩, ⟨h2, _⟩, ⟨h3, _⟩⟩
  rw [h1, h2, h3]

/-! ### preparation of the table -/

/-- the table with its dummy columns -/
def prep (a : Args ρ) : List String × List String × Frame :=
  ((dummyBy a.by_ a.db).1, (dummyAcross a.across (dummyBy a.by_ a.db).2).1, (dummyAcross a.across (dummyBy a.by_ a.db).2).2)

theorem init_ok {e : Env} {a : Args ρ} {T : Task ρ} (h : init e a = .ok T) : checkDatabase a = .ok () ∧ T.on = a.on ∧ T.cols = a.cols ∧
    T.across = (prep a).2.1 ∧ mgr true a.cols a.filters = .ok T.filters ∧ mgr false a.cols (a.regressors ++ defaultRegs e a (prep a).2.2) = .ok T.regressors ∧
    ∃ ls, sequence ((groupKeys e "by" (prep a).1 (prep a).2.2).map (prepareLevel T.filters (prep a).1 (prep a).2.2 a.feat)) = .ok ls ∧
      T.levels = ls.filterMap id := by
  unfold init at h
  split at h
  · cases h
  rename_i u hu
  dsimp only at h
  split at h
  · cases h
  rename_i m hm
  split at h
  · cases h
  rename_i rm hrm
  split at h
  · cases h
  rename_i ls hls
  injection h with h
  subst h
  exact ⟨hu, rfl, rfl, rfl, hm, hrm, ls, hls, rfl⟩

theorem dummyBy_sim (a : Args ρ) : List.Forall₂ (fun p q => p.1 = q.1 ∧ ∀ c, c ≠ "#by" → p.2 c = q.2 c) (dummyBy a.by_ a.db).2 a.db := by
  unfold dummyBy
  split
  · rw [List.forall₂_map_left_iff]
    apply List.forall₂_same.mpr
    intro p _
    exact ⟨rfl, fun c hc => by simp [Row.set, hc]⟩
  · exact List.forall₂_same.mpr (fun p _ => ⟨rfl, fun _ _ => rfl⟩)

theorem dummyAcross_sim (across : List String) (fr : Frame) :
    List.Forall₂ (fun p q => p.1 = q.1 ∧ ∀ c, c ≠ "#across" → p.2 c = q.2 c) (dummyAcross across fr).2 fr := by
  unfold dummyAcross
  split
  · rw [List.forall₂_map_left_iff]
    generalize 0 = n
    induction fr generalizing n with
    | nil => exact .nil
    | cons p fr ih => exact .cons ⟨rfl, fun c hc => by simp [Row.set, hc]⟩ (ih (n + 1))
  · exact List.forall₂_same.mpr (fun p _ => ⟨rfl, fun _ _ => rfl⟩)

theorem forall₂_trans {R : α → β → Prop} {S : β → γ → Prop} {Q : α → γ → Prop} (hQ : ∀ x y z, R x y → S y z → Q x z) {l : List α} {l' : List β} {l'' : List γ}
    (h : List.Forall₂ R l l') (h' : List.Forall₂ S l' l'') : List.Forall₂ Q l l'' := by
  induction h generalizing l'' with
  | nil => cases h'; exact .nil
  | cons h _ ih => cases h' with | cons h1 h2 => exact .cons (hQ _ _ _ h h1) (ih h2)

/-- the prepared table agrees with the item table -/
theorem prep_sim (a : Args ρ) : List.Forall₂ (fun p q => p.1 = q.1 ∧ ∀ c, c ≠ "#by" → c ≠ "#across" → p.2 c = q.2 c) (prep a).2.2 a.db := by
  refine forall₂_trans ?_ (dummyAcross_sim a.across (dummyBy a.by_ a.db).2) (dummyBy_sim a)
  rintro p q r ⟨h1, h2⟩ ⟨h3, h4⟩
  exact ⟨h1.trans h3, fun c hb ha => (h2 c ha).trans (h4 c hb)⟩

/-- without 'by', the dummy column is 0 -/
theorem prep_by (a : Args ρ) (h : a.by_ = []) : (prep a).1 = ["#by"] ∧ ∀ p ∈ (prep a).2.2, p.2 "#by" = .int 0 := by
  constructor
  · simp [prep, dummyBy, h]
  · intro p hp
    have hF := dummyAcross_sim a.across (dummyBy a.by_ a.db).2
    obtain ⟨q, hq, hpq⟩ : ∃ q ∈ (dummyBy a.by_ a.db).2, p.2 "#by" = q.2 "#by" := by
      have : ∀ {l l' : Frame}, List.Forall₂ (fun p q => p.1 = q.1 ∧ ∀ c, c ≠ "#across" → p.2 c = q.2 c) l l' → ∀ p ∈ l, ∃ q ∈ l', p.2 "#by" = q.2 "#by" := by
        intro l l' h
        induction h with
        | nil => simp
        | cons h _ ih =>
          intro p hp
          rcases List.mem_cons.mp hp with rfl | hp
          · exact ⟨_, List.mem_cons_self, h.2 _ (by decide)⟩
          · obtain ⟨q, hq, e⟩ := ih p hp
            exact ⟨q, List.mem_cons_of_mem _ hq, e⟩
      exact this hF p hp
    rw [hpq]
    simp only [dummyBy, h, List.isEmpty_nil, if_true, List.mem_map] at hq
    obtain ⟨q', _, rfl⟩ := hq
    simp [Row.set]

theorem prep_by' (a : Args ρ) (h : a.by_ ≠ []) : (prep a).1 = a.by_ := by simp [prep, dummyBy, h]

/-- without 'across', the dummy column identifies the items -/
theorem prep_across (a : Args ρ) (h : a.across = []) : (prep a).2.1 = ["#across"] ∧ ((prep a).2.2.map (fun p => p.2 "#across")).Nodup := by
  constructor
  · simp [prep, dummyAcross, h]
  · simp only [prep, dummyAcross, h, List.isEmpty_nil, if_true, List.map_map]
    have : ∀ (fr : Frame) n, (fr.zipIdx n).map ((fun p : Nat × Row => p.2 "#across") ∘ fun p => (p.1.1, Row.set p.1.2 "#across" (.int p.2))) =
        (List.range' n fr.length).map (fun i : Nat => Val.int i) := by
      intro fr
      induction fr with
      | nil => intro n; rfl
      | cons p fr ih => intro n; simp only [List.zipIdx_cons, List.map_cons, ih, List.length_cons, List.range'_succ]; simp [Row.set]
    rw [this]
    exact (List.nodup_range' ..).map (by intro x y h; simpa using h)

theorem prep_across' (a : Args ρ) (h : a.across ≠ []) : (prep a).2.1 = a.across := by simp [prep, dummyAcross, h]

theorem userAcross_prep {a : Args ρ} (h : checkDatabase a = .ok ()) : userAcross (prep a).2.1 = a.across := by
  obtain ⟨_, h2, _, h4⟩ := checkDatabase_ok h
  by_cases ha : a.across = []
  · rw [(prep_across a ha).1, ha]; rfl
  · rw [prep_across' a ha]
    unfold userAcross
    rw [if_neg]
    intro hh
    have := (h4 _ (h2 "#across" (by rw [hh]; simp))).2
    exact this rfl

theorem gather_of_filter {l : List α} {P : α → Bool} : gather l ((l.zipIdx.filter (fun z => P z.1)).map (·.2)) = .ok (l.filter P) := by
  have := gather_positions l P id
  simpa [positions] using this

theorem resetIndex_map_fst (fr : Frame) : (resetIndex fr).map (·.1) = List.range fr.length := by
  unfold resetIndex
  rw [List.map_map, show ((fun p : Nat × Row => p.1) ∘ fun p : (Nat × Row) × Nat => (p.2, p.1.2)) = Prod.snd from rfl, List.zipIdx_map_snd]
  rw [List.range_eq_range']

theorem resetIndex_map_snd (fr : Frame) : (resetIndex fr).map (·.2) = fr.map (·.2) := by
  unfold resetIndex
  rw [List.map_map, show ((fun p : Nat × Row => p.2) ∘ fun p : (Nat × Row) × Nat => (p.2, p.1.2)) = (fun p => p.2) ∘ Prod.fst from rfl,
    ← List.map_map, List.zipIdx_map_fst]

theorem resetIndex_positional (fr : Frame) : Positional (resetIndex fr) := by
  intro i p h
  have : ((resetIndex fr).map (·.1))[i]? = some p.1 := by rw [List.getElem?_map, h]; rfl
  rw [resetIndex_map_fst, List.getElem?_range] at this
  · simpa using this.symm
  · have := (List.getElem?_eq_some_iff.mp h).1
    simpa [resetIndex] using this

theorem prepareLevel_ok {m : Mgr Bool} {c : Cols} (hm : MgrOK true c m) (hav : ∀ p ∈ m, Avail c p.op) {byCols : List String} {fr : Frame} {feat : List ρ}
    {key : List Val} {L : Level ρ} (h : prepareLevel m byCols fr feat key = .ok (some L)) :
    L.key = key ∧ L.frame = (resetIndex (groupFrame fr byCols key)).filter (fun p => (m.ops .generic).all (fun f => f.fn (fun v => p.2 v.1))) ∧
    (∃ p ∈ groupFrame fr byCols key, (m.ops .by).all (fun f => f.fn (fun v => p.2 v.1)) = true) ∧
    gather feat ((groupFrame fr byCols key).map (·.1)) = .ok L.feat ∧ levelType L.frame = .ok L.type := by
  unfold prepareLevel at h
  dsimp only at h
  split at h
  · cases h
  rename_i byRow hrow
  rw [byFilter_ok hm] at h
  split at h
  · cases h
  · cases h
  rename_i hb
  injection hb with hb
  split at h
  · cases h
  rename_i feat' hfeat
  rw [genericFilter_ok hm hav byRow (resetIndex (groupFrame fr byCols key)) (·.2)] at h
  dsimp only at h
  rw [gather_of_filter (P := fun p : Nat × Row => (m.ops .generic).all (fun f => f.fn (fun v => p.2 v.1)))] at h
  dsimp only at h
  split at h
  · cases h
  rename_i t ht
  simp only [Except.ok.injEq, Option.some.injEq] at h
  subst h
  refine ⟨rfl, rfl, ?_, hfeat, ht⟩
  unfold iloc at hrow
  split at hrow
  · cases hrow
  rename_i p hp
  injection hrow with hrow
  exact ⟨p, List.mem_of_getElem? hp, by rw [hrow]; exact hb⟩

theorem levelType_ok {fr : Frame} {t : IntType} (h : levelType fr = .ok t) : ∀ p ∈ fr, castNat t p.1 = p.1 := by
  unfold levelType at h
  split at h
  · cases h
  rename_i l ls hl
  intro p hp
  have hm : p.1 ∈ fr.map (·.1) := List.mem_map_of_mem hp
  rw [hl] at hm
  obtain ⟨h1, h2⟩ := foldl_max_le ls l
  apply castNat_fit h
  rcases List.mem_cons.mp hm with hm | hm
  · rw [hm]; exact_mod_cast h1
  · exact_mod_cast h2 _ hm

theorem defaultRegs_prep {e : Env} (hl : e.Lawful) {a : Args ρ} (hc : checkDatabase a = .ok ()) (ha : a.OK) :
    defaultRegs e a (prep a).2.2 = defaultRegs e a a.db := by
  obtain ⟨h1, _, _, h4⟩ := checkDatabase_ok hc
  have key : ∀ (v : Var), v.1 ∈ a.columns → (prep a).2.2.map (fun p => p.2 v.1) = a.db.map (fun p => p.2 v.1) := by
    intro v hv
    refine forall₂_map_eq (prep_sim a) ?_
    rintro x y ⟨_, h⟩
    exact h _ (h4 _ hv).1 (h4 _ hv).2
  have key2 : ∀ v : Var, v.1 ∈ a.columns → columnReg e (prep a).2.2 v = columnReg e a.db v := by
    intro v hv; unfold columnReg; simp only [key v hv]
  unfold defaultRegs
  rw [key2 _ h1, key2 _ h1]
  congr 1
  have : ∀ l : List String, (∀ c ∈ l, c ∈ a.columns) → l.flatMap (fun c => [columnReg e (prep a).2.2 (c, .one), columnReg e (prep a).2.2 (c, .two)]) =
      l.flatMap (fun c => [columnReg e a.db (c, .one), columnReg e a.db (c, .two)]) := by
    intro l hl
    induction l with
    | nil => rfl
    | cons c l ih =>
      have hc := hl c (by simp)
      rw [List.flatMap_cons, List.flatMap_cons, ih (fun d hd => hl d (by simp [hd])), key2 _ hc, key2 _ hc]
  exact this _ (fun c hc => ha.colsAcross c ((hl.names _).mem_iff.mp hc))

theorem defaultRegs_avail {e : Env} {a : Args ρ} {fr : Frame} : ∀ f ∈ defaultRegs e a fr, Avail a.cols f := by
  intro f hf
  have : ∃ v : Var, f = columnReg e fr v ∧ (v.2 = .one ∨ v.2 = .two) := by
    unfold defaultRegs at hf
    simp only [List.mem_append, List.mem_flatMap, List.mem_cons, List.not_mem_nil, or_false] at hf
    rcases hf with (rfl | rfl) | ⟨c, _, rfl | rfl⟩
    · exact ⟨_, rfl, Or.inl rfl⟩
    · exact ⟨_, rfl, Or.inr rfl⟩
    · exact ⟨_, rfl, Or.inl rfl⟩
    · exact ⟨_, rfl, Or.inr rfl⟩
  obtain ⟨v, rfl, hv⟩ := this
  constructor
  · intro w hw he
    simp only [columnReg, List.mem_singleton] at hw
    subst hw
    rcases hv with hv | hv <;> rw [hv] at he <;> cases he
  · rintro ⟨w, hw, _, he⟩
    simp only [columnReg, List.mem_singleton] at hw
    subst hw
    rcases hv with hv | hv <;> rw [hv] at he <;> cases he

theorem defaultRegs_in {e : Env} (hl : e.Lawful) {a : Args ρ} (hc : checkDatabase a = .ok ()) (ha : a.OK) {fr : Frame} :
    ∀ f ∈ defaultRegs e a fr, ∀ v ∈ f.inputs, v.1 ∈ a.columns := by
  intro f hf v hv
  unfold defaultRegs at hf
  simp only [List.mem_append, List.mem_flatMap, List.mem_cons, List.not_mem_nil, or_false] at hf
  have h1 := (checkDatabase_ok hc).1
  have h2 : ∀ c ∈ e.names a.cols.across, c ∈ a.columns := fun c hc => ha.colsAcross c ((hl.names _).mem_iff.mp hc)
  rcases hf with (rfl | rfl) | ⟨c, hc, rfl | rfl⟩ <;> simp only [columnReg, List.mem_singleton] at hv <;> subst hv <;> first | exact h1 | exact h2 _ hc

/-- the group of a level, compared to the items of the specification -/
theorem group_sim {a : Args ρ} (hc : checkDatabase a = .ok ()) {key : List Val} (hk : ∃ p ∈ (prep a).2.2, keyOf (prep a).1 p.2 = key) :
    List.Forall₂ (Sim a.columns) (resetIndex (groupFrame (prep a).2.2 (prep a).1 key)) (Spec.items a.by_ (a.db.map (·.2)) (specKey a key)) := by
  obtain ⟨_, _, h3, h4⟩ := checkDatabase_ok hc
  unfold resetIndex Spec.items groupFrame
  refine forall₂_map (R := fun p q => (∀ c ∈ a.columns, p.1.2 c = q.1 c) ∧ p.2 = q.2) ?_ ?_
  · rintro x y ⟨h, h'⟩; exact ⟨h', h⟩
  refine forall₂_zipIdx (R := fun (p : Nat × Row) (q : Row) => ∀ c ∈ a.columns, p.2 c = q c) ?_ 0
  have base : List.Forall₂ (fun (p : Nat × Row) (q : Row) => ∀ c ∈ a.columns, p.2 c = q c) (prep a).2.2 (a.db.map (·.2)) := by
    rw [List.forall₂_map_right_iff]
    refine List.Forall₂.imp ?_ (prep_sim a)
    rintro p q ⟨_, h⟩ c hc
    exact h c (h4 c hc).1 (h4 c hc).2
  by_cases hb : a.by_ = []
  · obtain ⟨e1, e2⟩ := prep_by a hb
    obtain ⟨p, hp, hpk⟩ := hk
    have : key = [.int 0] := by rw [← hpk, e1]; simp [keyOf, e2 p hp]
    have hf : (prep a).2.2.filter (fun p => keyOf (prep a).1 p.2 == key) = (prep a).2.2 := by
      apply List.filter_eq_self.mpr
      intro q hq
      simp [e1, this, keyOf, e2 q hq]
    have hg : (a.db.map (·.2)).filter (fun r => a.by_.map r == specKey a key) = a.db.map (·.2) := by
      apply List.filter_eq_self.mpr
      intro q hq
      simp [specKey, hb]
    rw [hf, hg]
    exact base
  · rw [prep_by' a hb]
    refine forall₂_filter ?_ base
    intro p q h
    have : keyOf a.by_ p.2 = a.by_.map q := List.map_congr_left (fun c hc => h c (h3 c hc))
    simp [this, specKey, hb]

theorem forall₂_mem_left {R : α → β → Prop} {l : List α} {l' : List β} (h : List.Forall₂ R l l') : ∀ x ∈ l, ∃ y ∈ l', R x y := by
  induction h with
  | nil => simp
  | cons h _ ih =>
    intro x hx
    rcases List.mem_cons.mp hx with rfl | hx
    · exact ⟨_, List.mem_cons_self, h⟩
    · obtain ⟨y, hy, e⟩ := ih x hx
      exact ⟨y, List.mem_cons_of_mem _ hy, e⟩

theorem forall₂_mem_right {R : α → β → Prop} {l : List α} {l' : List β} (h : List.Forall₂ R l l') : ∀ y ∈ l', ∃ x ∈ l, R x y := by
  induction h with
  | nil => simp
  | cons h _ ih =>
    intro x hx
    rcases List.mem_cons.mp hx with rfl | hx
    · exact ⟨_, List.mem_cons_self, h⟩
    · obtain ⟨y, hy, e⟩ := ih x hx
      exact ⟨y, List.mem_cons_of_mem _ hy, e⟩

/-- functional dependencies of a group -/
theorem group_fd {a : Args ρ} (hc : checkDatabase a = .ok ()) (ha : a.OK) (key : List Val) :
    FD a.cols a.on (prep a).2.1 (resetIndex (groupFrame (prep a).2.2 (prep a).1 key)) := by
  obtain ⟨h1, h2, h3, h4⟩ := checkDatabase_ok hc
  have mem : ∀ p ∈ resetIndex (groupFrame (prep a).2.2 (prep a).1 key), ∃ p' ∈ (prep a).2.2, keyOf (prep a).1 p'.2 = key ∧ p.2 = p'.2 := by
    intro p hp
    have : p.2 ∈ (resetIndex (groupFrame (prep a).2.2 (prep a).1 key)).map (·.2) := List.mem_map_of_mem hp
    rw [resetIndex_map_snd] at this
    obtain ⟨p', hp', e⟩ := List.mem_map.mp this
    obtain ⟨h1, h2⟩ := List.mem_filter.mp hp'
    exact ⟨p', h1, by simpa using h2, e.symm⟩
  have db : ∀ p ∈ resetIndex (groupFrame (prep a).2.2 (prep a).1 key), ∃ q ∈ a.db, (∀ c ∈ a.columns, p.2 c = q.2 c) ∧ (a.by_ ≠ [] → keyOf a.by_ q.2 = key) := by
    intro p hp
    obtain ⟨p', hp', hk, e⟩ := mem p hp
    obtain ⟨q, hq, _, h⟩ := forall₂_mem_left (prep_sim a) p' hp'
    refine ⟨q, hq, fun c hc => by rw [e]; exact h c (h4 c hc).1 (h4 c hc).2, ?_⟩
    intro hb
    rw [prep_by' a hb] at hk
    rw [← hk]
    exact List.map_congr_left (fun c hc => (h c (h4 c (h3 c hc)).1 (h4 c (h3 c hc)).2).symm)
  constructor
  · intro p hp q hq r hr
    obtain ⟨p', hp', ep, kp⟩ := db p hp
    obtain ⟨q', hq', eq, kq⟩ := db q hq
    rw [ep r (ha.colsBy r hr), eq r (ha.colsBy r hr)]
    refine ha.detBy p' hp' q' hq' ?_ r hr
    by_cases hb : a.by_ = []
    · rw [hb]; rfl
    · rw [kp hb, kq hb]
  · intro p hp q hq he r hr
    obtain ⟨p', hp', ep, kp⟩ := db p hp
    obtain ⟨q', hq', eq, kq⟩ := db q hq
    rw [ep r (ha.colsOn r hr), eq r (ha.colsOn r hr)]
    refine ha.detOn p' hp' q' hq' ?_ r hr
    rw [← ep _ h1, ← eq _ h1]; exact he
  · intro p hp q hq he r hr
    obtain ⟨p', hp', ep, kp⟩ := db p hp
    obtain ⟨q', hq', eq, kq⟩ := db q hq
    rw [ep r (ha.colsAcross r hr), eq r (ha.colsAcross r hr)]
    refine ha.detAcross p' hp' q' hq' ?_ r hr
    by_cases hb : a.across = []
    · rw [hb]; rfl
    · rw [prep_across' a hb] at he
      have e1 : keyOf a.across p.2 = keyOf a.across p'.2 := List.map_congr_left (fun c hc => ep c (h2 c hc))
      have e2 : keyOf a.across q.2 = keyOf a.across q'.2 := List.map_congr_left (fun c hc => eq c (h2 c hc))
      rw [← e1, ← e2, he]

theorem group_dum {a : Args ρ} (hc : checkDatabase a = .ok ()) (key : List Val) :
    DumOK (prep a).2.1 (resetIndex (groupFrame (prep a).2.2 (prep a).1 key)) := by
  obtain ⟨h1, h2, h3, h4⟩ := checkDatabase_ok hc
  intro hd p hp q hq he
  have hb : a.across = [] := by
    by_contra hb
    rw [prep_across' a hb] at hd
    exact (h4 _ (h2 "#across" (by rw [hd]; simp))).2 rfl
  have hn := (prep_across a hb).2
  have hn' : ((resetIndex (groupFrame (prep a).2.2 (prep a).1 key)).map (fun p => p.2 "#across")).Nodup := by
    have : (resetIndex (groupFrame (prep a).2.2 (prep a).1 key)).map (fun p => p.2 "#across") =
        (groupFrame (prep a).2.2 (prep a).1 key).map (fun p => p.2 "#across") := by
      have := congrArg (List.map (fun r : Row => r "#across")) (resetIndex_map_snd (groupFrame (prep a).2.2 (prep a).1 key))
      rw [List.map_map, List.map_map] at this
      exact this
    rw [this]
    exact List.Nodup.sublist (List.filter_sublist.map _) hn
  rw [List.inj_on_of_nodup_map hn' hp hq he]

theorem resetIndex_distinct (fr : Frame) : Distinct (resetIndex fr) := by
  unfold Distinct; rw [resetIndex_map_fst]; exact List.nodup_range

/-- a level of an initialised task -/
structure InitLevel (e : Env) (a : Args ρ) (T : Task ρ) (L : Level ρ) (fr0 : Frame) : Prop where
  hyp : LevelHyp e T L a.filters fr0
  reg : RegHyp T (a.regressors ++ defaultRegs e a a.db)
  sim : List.Forall₂ (Sim a.columns) fr0 (Spec.items a.by_ (a.db.map (·.2)) (specKey a L.key))
  on : T.on = a.on
  cols : T.cols = a.cols
  across : userAcross T.across = a.across
  nonempty : L.frame ≠ []
  feat : gather a.feat ((groupFrame (prep a).2.2 (prep a).1 L.key).map (·.1)) = .ok L.feat
  group : fr0 = resetIndex (groupFrame (prep a).2.2 (prep a).1 L.key)
  pos : T.filters.ops .generic = [] → Positional L.frame
  keyMem : ∃ p ∈ (prep a).2.2, keyOf (prep a).1 p.2 = L.key

theorem filterMap_id_mem {l : List (Option α)} {x : α} (h : x ∈ l.filterMap id) : some x ∈ l := by
  simpa using h

theorem init_level {e : Env} (he : e.Lawful) {a : Args ρ} (ha : a.OK) {T : Task ρ} (h : init e a = .ok T) {L : Level ρ} (hL : L ∈ T.levels) :
    ∃ fr0, InitLevel e a T L fr0 := by
  obtain ⟨hc, hon, hcols, hacr, hmf, hmr, ls, hls, hlev⟩ := init_ok h
  rw [hlev] at hL
  have hF := sequence_inv hls
  obtain ⟨key, hkey, hprep⟩ := forall₂_mem_right hF _ (filterMap_id_mem hL)
  have hm := mgr_ok hmf
  have hav : ∀ p ∈ T.filters, Avail a.cols p.op := fun p hp => ha.availF _ (by rw [← mgr_ops hmf]; exact List.mem_map_of_mem hp)
  obtain ⟨hk, hfr, ⟨pb, hpb, hby⟩, hfeat, htype⟩ := prepareLevel_ok hm hav hprep
  subst hk
  have hkm := (mem_groupKeys he).mp hkey
  have fd := group_fd hc ha L.key
  refine ⟨resetIndex (groupFrame (prep a).2.2 (prep a).1 L.key), ?_⟩
  have sim := group_sim hc hkm
  refine ⟨⟨he, by rw [hcols]; exact hmf, by rw [hcols]; exact ha.availF, resetIndex_distinct _, hfr, ?_, ?_, ?_, ?_, ?_, ?_⟩, ⟨?_, ?_⟩, sim, hon, hcols, ?_, ?_, hfeat, rfl, ?_, hkm⟩
  · intro p hp
    rw [List.all_eq_true] at hby ⊢
    intro f hf
    rw [← hby f hf]
    obtain ⟨q, hq, hs, rfl⟩ := mem_ops.mp hf
    apply q.op.ext
    intro v hv
    have hb := (hm q hq).hby' hs v hv
    have : pb.2 ∈ (resetIndex (groupFrame (prep a).2.2 (prep a).1 L.key)).map (·.2) := by
      rw [resetIndex_map_snd]; exact List.mem_map_of_mem hpb
    obtain ⟨pb', hpb', e⟩ := List.mem_map.mp this
    rw [← e]
    exact fd.by_ p hp pb' hpb' _ hb
  · rw [hcols, hon, hacr]; exact fd
  · exact levelType_ok htype
  · rw [hacr]
    by_cases hb : a.across = []
    · rw [(prep_across a hb).1]; simp
    · rw [prep_across' a hb]; exact hb
  · rw [hacr]; exact group_dum hc L.key
  · have hl : (resetIndex (groupFrame (prep a).2.2 (prep a).1 L.key)).length ≤ a.db.length := by
      have h1 : (prep a).2.2.length = a.db.length := (prep_sim a).length_eq
      have h2 : (groupFrame (prep a).2.2 (prep a).1 L.key).length ≤ (prep a).2.2.length := List.length_filter_le _ _
      have h3 : (resetIndex (groupFrame (prep a).2.2 (prep a).1 L.key)).length = (groupFrame (prep a).2.2 (prep a).1 L.key).length := by simp [resetIndex]
      omega
    exact Nat.lt_of_le_of_lt (mul3_le hl hl hl) ha.size
  · rw [hcols, ← defaultRegs_prep he hc ha]; exact hmr
  · rw [hcols]
    intro f hf
    rcases List.mem_append.mp hf with hf | hf
    · exact ha.availR f hf
    · exact defaultRegs_avail f hf
  · rw [hacr]; exact userAcross_prep hc
  · intro hn
    rw [hn] at htype
    simp [levelType] at htype
  · intro hg
    rw [hfr, hg]
    simp only [List.all_nil, List.filter_true]
    exact resetIndex_positional _

/-- every 'by' value of the table has a level, except those that a 'by' filter excludes, which have no triplets -/
theorem init_covers {e : Env} (he : e.Lawful) {a : Args ρ} (ha : a.OK) {T : Task ρ} (h : init e a = .ok T) {p : Nat × Row} (hp : p ∈ (prep a).2.2) :
    (∃ L ∈ T.levels, L.key = keyOf (prep a).1 p.2) ∨
    Spec.triplets a.cols a.on a.across a.filters (Spec.items a.by_ (a.db.map (·.2)) (specKey a (keyOf (prep a).1 p.2))) = [] := by
  obtain ⟨hc, hon, hcols, hacr, hmf, hmr, ls, hls, hlev⟩ := init_ok h
  have hF := sequence_inv hls
  obtain ⟨o, ho, hprep⟩ := forall₂_mem_left hF (keyOf (prep a).1 p.2) ((mem_groupKeys he).mpr ⟨p, hp, rfl⟩)
  have hm := mgr_ok hmf
  have hav : ∀ p ∈ T.filters, Avail a.cols p.op := fun p hp => ha.availF _ (by rw [← mgr_ops hmf]; exact List.mem_map_of_mem hp)
  cases o with
  | some L =>
    left
    refine ⟨L, ?_, (prepareLevel_ok hm hav hprep).1⟩
    rw [hlev, List.mem_filterMap]
    exact ⟨some L, ho, rfl⟩
  | none =>
    right
    have sim := group_sim (key := keyOf (prep a).1 p.2) hc ⟨p, hp, rfl⟩
    obtain ⟨h1, h2, h3, h4⟩ := checkDatabase_ok hc
    rw [← triplets_sim h1 h2 ha.inF sim]
    have fd := group_fd hc ha (keyOf (prep a).1 p.2)
    -- the by filters reject the first row
    unfold prepareLevel at hprep
    dsimp only at hprep
    split at hprep
    · cases hprep
    rename_i byRow hrow
    rw [byFilter_ok hm] at hprep
    split at hprep
    · cases hprep
    · rename_i hb
      injection hb with hb
      rw [List.all_eq_false] at hb
      obtain ⟨f, hf, hff⟩ := hb
      obtain ⟨q, hq, hs, rfl⟩ := mem_ops.mp hf
      unfold Spec.triplets Spec.itemTriplets
      rw [List.map_eq_nil_iff, List.filter_eq_nil_iff]
      intro t ht
      obtain ⟨ha1, _, _⟩ := mem_prod3.mp (show t ∈ prod3 _ _ _ from ht)
      have hall : ∀ v ∈ q.op.inputs, v.1 ∈ a.cols.by_ := (hm q hq).hby' hs
      simp only [Bool.and_eq_true, not_and]
      intro _ hh
      rw [List.all_eq_true] at hh
      have := hh q.op (by rw [← mgr_ops hmf]; exact List.mem_map_of_mem hq)
      unfold Spec.holds at this
      rw [if_pos (show Spec.perItem a.cols q.op from fun v hv => Or.inl (hall v hv))] at this
      simp only [Bool.and_eq_true] at this
      apply hff
      rw [← this.1.1]
      apply q.op.ext
      intro v hv
      unfold iloc at hrow
      split at hrow
      · cases hrow
      rename_i p0 hp0
      injection hrow with hrow
      have hm0 : p0.2 ∈ (resetIndex (groupFrame (prep a).2.2 (prep a).1 (keyOf (prep a).1 p.2))).map (·.2) := by
        rw [resetIndex_map_snd]; exact List.mem_map_of_mem (List.mem_of_getElem? hp0)
      obtain ⟨p1, hp1, e1⟩ := List.mem_map.mp hm0
      rw [← hrow, ← e1]
      exact fd.by_ _ hp1 _ ha1 _ (hall v hv)
    · split at hprep
      · cases hprep
      rw [genericFilter_ok hm hav byRow (resetIndex (groupFrame (prep a).2.2 (prep a).1 (keyOf (prep a).1 p.2))) (·.2)] at hprep
      dsimp only at hprep
      split at hprep
      · cases hprep
      split at hprep <;> cases hprep

end ABX.Task
