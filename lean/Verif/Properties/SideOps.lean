import Verif.Proofs.SideOps
import Mathlib.Data.List.Nodup
/-!
C50 indexed columns, C51 classification of side operations, C52 lazy filtering, C53 column filters.
-/
namespace ABX.SideOps
open ExtSort

/-! ### C50 -/

/-- C50: on every list of values of the column, evaluation succeeds, gives indices of the level list, and looking
them up in the level list gives the values back. -/
theorem C50_decode (sorted_ : List Val → List Val) (hs : ∀ l, (sorted_ l).Perm l) (col values : List Val)
    (h : ∀ v ∈ values, v ∈ col) :
    ∃ is, columnIndexedEvaluate (columnIndex sorted_ col) values = .ok is ∧
      is.length = values.length ∧ gather (columnIndex sorted_ col) is = .ok values := by
  induction values with
  | nil => exact ⟨[], rfl, rfl, rfl⟩
  | cons v vs ih =>
    obtain ⟨is, h1, h2, h3⟩ := ih (fun w hw => h w (by simp [hw]))
    have hv : v ∈ columnIndex sorted_ col := (hs _).mem_iff.mpr (List.mem_dedup.mpr (h v (by simp)))
    unfold columnIndexedEvaluate at h1 ⊢
    have : ∃ i, indexOf (columnIndex sorted_ col) v = .ok i ∧ (columnIndex sorted_ col)[i]? = some v := by
      unfold indexOf
      cases hf : (columnIndex sorted_ col).findIdx? (· == v) with
      | none =>
        rw [List.findIdx?_eq_none_iff] at hf
        exact absurd (hf v hv) (by simp)
      | some i =>
        refine ⟨i, rfl, ?_⟩
        rw [List.findIdx?_eq_some_iff_getElem] at hf
        obtain ⟨hi, he, _⟩ := hf
        rw [List.getElem?_eq_getElem hi]
        simpa using he
    obtain ⟨i, hi, hi'⟩ := this
    refine ⟨i :: is, ?_, by simp [h2], ?_⟩
    · simp [hi, sequence, h1]
    · simp [gather, hi', h3]

/-- C50: distinct values get distinct indices, and the level list has no repetition. -/
theorem C50_injective (sorted_ : List Val → List Val) (hs : ∀ l, (sorted_ l).Perm l) (col : List Val) :
    (columnIndex sorted_ col).Nodup ∧ (∀ v, v ∈ columnIndex sorted_ col ↔ v ∈ col) ∧
    ∀ v w i, indexOf (columnIndex sorted_ col) v = .ok i → indexOf (columnIndex sorted_ col) w = .ok i → v = w := by
  refine ⟨(hs _).nodup_iff.mpr (List.nodup_dedup _), ?_, ?_⟩
  · intro v
    exact (hs _).mem_iff.trans List.mem_dedup
  · intro v w i hv hw
    unfold indexOf at hv hw
    cases hj : (columnIndex sorted_ col).findIdx? (· == v) with
    | none => simp [hj] at hv
    | some j =>
      cases hk : (columnIndex sorted_ col).findIdx? (· == w) with
      | none => simp [hk] at hw
      | some k =>
        simp [hj] at hv
        simp [hk] at hw
        subst hv hw
        rw [List.findIdx?_eq_some_iff_getElem] at hj hk
        obtain ⟨_, h1, _⟩ := hj
        obtain ⟨_, h2, _⟩ := hk
        simp at h1 h2
        exact h1.symm.trans h2

/-- C50: a value that is not in the column is an error, never a wrong index. -/
theorem C50_absent (sorted_ : List Val → List Val) (hs : ∀ l, (sorted_ l).Perm l) (col : List Val) (v : Val) (h : v ∉ col) :
    indexOf (columnIndex sorted_ col) v = .error .valueError := by
  unfold indexOf
  have : (columnIndex sorted_ col).findIdx? (· == v) = none := by
    rw [List.findIdx?_eq_none_iff]
    intro w hw
    have : w ∈ col := List.mem_dedup.mp ((hs _).mem_iff.mp hw)
    simp
    rintro rfl
    exact h this
  rw [this]

example : columnIndexedEvaluate (columnIndex id [.str "b", .str "a", .str "b"]) [.str "a", .str "b", .str "a"] = .ok [0, 1, 0] := by
  decide

/-! ### C51 -/

/-- all the stages, in the order in which they are applied -/
def allStages : List Stage := [.by, .generic, .onAcrossBy, .A, .B, .X, .ABX]

/-- C51: every accepted operation is attributed to exactly one stage: the operations of all the stages together are a
permutation of the operations given. -/
theorem C51_one_stage {g : Bool} {c : Cols} {fs : List (DBFun β)} {m : Mgr β} (h : mgr g c fs = .ok m) :
    (allStages.flatMap m.ops).Perm fs := by
  rw [← mgr_ops h]
  have : allStages.flatMap m.ops = (allStages.flatMap m.at).map Placed.op := by
    rw [List.map_flatMap]; rfl
  rw [this]
  apply List.Perm.map
  clear h this
  induction m with
  | nil => simp [Mgr.at, allStages]
  | cons p m ih =>
    refine List.Perm.trans ?_ (List.Perm.cons p ih)
    simp only [allStages, List.flatMap_cons, List.flatMap_nil, List.append_nil, Mgr.at, List.filter_cons]
    cases p.stage <;> simp
    all_goals
      repeat (first | exact List.Perm.refl _ | (refine List.Perm.trans (List.Perm.append_left _ ?_) List.perm_middle))

/-- C51: which operations are accepted: `_1`, `_2` only on columns determined by on or across, `_AX` only on columns
determined by across, and bare names are not mixed with extended ones (for filters; regressors refuse bare names). -/
theorem C51_accepted_iff (g : Bool) (c : Cols) (f : DBFun β) :
    (∃ p, place g c f = .ok p) ↔
      ((∀ v ∈ f.inputs, v.2 = .one ∨ v.2 = .two → v.1 ∈ c.on ∨ v.1 ∈ c.across) ∧
       (∀ v ∈ f.inputs, v.2 = .AX → v.1 ∈ c.across)) ∧
      ((∀ v ∈ f.inputs, v.1 ∈ c.by_) ∨ (g = true ∧ ∀ v ∈ f.inputs, v.1 ∉ c.by_ → v.2 = .none) ∨
        (∀ v ∈ f.inputs, v.1 ∉ c.by_ → v.2 ≠ .none)) := by
  constructor
  · rintro ⟨p, hp⟩
    have P := place_ok hp
    refine ⟨⟨P.h12, P.hax⟩, ?_⟩
    by_cases h1 : p.stage = .by
    · exact Or.inl (P.hby' h1)
    · by_cases h2 : p.stage = .generic
      · exact Or.inr (Or.inl ⟨P.hgen' h2, fun v hv hb => (P.genV v (P.hgen h2 v hv hb)).2⟩)
      · exact Or.inr (Or.inr (P.hnone h1 h2))
  · rintro ⟨⟨h12, hax⟩, h⟩
    have hc : checkExtensions c f.inputs = .ok () := by
      unfold checkExtensions
      rw [if_neg, if_neg]
      · simp only [List.any_eq_true, not_exists, not_and]
        intro v hv hx
        simp at hx
        exact hx.2 (hax v hv hx.1)
      · simp only [List.any_eq_true, not_exists, not_and]
        intro v hv hx
        simp at hx
        rcases h12 v hv hx.1 with h | h
        · exact hx.2.1 h
        · exact hx.2.2 h
    unfold place
    simp only [hc]
    split_ifs with h1 h2 h3 h4 h5
    · exact ⟨_, rfl⟩
    · exact ⟨_, rfl⟩
    · exfalso
      rcases h with h | h | h
      · apply h1; rw [List.all_eq_true]; intro v hv; simpa using h v hv
      · exact h3 h.1
      · apply h1
        rw [List.all_eq_true] at h2 ⊢
        intro v hv
        by_contra hb
        simp at hb
        have := h2 v (by simp [hv, hb])
        exact h v hv hb (by simpa using this)
    · exfalso
      rcases h with h | h | h
      · apply h1; rw [List.all_eq_true]; intro v hv; simpa using h v hv
      · apply h2; rw [List.all_eq_true]; intro v hv; simp at hv; simpa using h.2 v hv.1 hv.2
      · rw [List.any_eq_true] at h4
        obtain ⟨v, hv, hv'⟩ := h4
        simp at hv hv'
        exact h v hv.1 hv.2 hv'
    all_goals exact ⟨_, rfl⟩

/-- C51 (partial): if no operation uses `_AB` on a column that is not determined by on, across or by, and none mixes
bare columns with columns determined by 'by', then every variable an operation reads is available at its stage: no
stage ever fails, whatever the rows. -/
theorem C51_available_partial {c : Cols} {fs : List (DBFun Bool)} {m : Mgr Bool} (h : mgr true c fs = .ok m)
    (hav : ∀ f ∈ fs, Avail c f) (row : Row) (rows : List Row) (trips : List (Row × Row × Row)) :
    (∃ r, m.byFilter row = .ok r) ∧ (∃ r, m.genericFilter row rows = .ok r) ∧ (∃ r, m.onAcrossByFilter row = .ok r) ∧
    (∃ r, m.aFilter row rows = .ok r) ∧ (∃ r, m.bFilter row rows = .ok r) ∧ (∃ r, m.xFilter row rows = .ok r) ∧
    (∃ r, m.abxFilter row trips = .ok r) := by
  have hm := mgr_ok h
  have hav' : ∀ p ∈ m, Avail c p.op := by
    intro p hp
    exact hav _ (by rw [← mgr_ops h]; exact List.mem_map_of_mem hp)
  have e : rows = rows.map id := by simp
  have e' : trips = trips.map (fun t => (t.1, t.2.1, t.2.2)) := by simp
  refine ⟨⟨_, byFilter_ok hm row⟩, ?_, ⟨_, onAcrossByFilter_ok hm hav' row row row row⟩, ?_, ?_, ?_, ?_⟩
  · rw [e]; exact ⟨_, genericFilter_ok hm hav' row rows id⟩
  · rw [e]; exact ⟨_, aFilter_ok hm hav' row rows id row row⟩
  · rw [e]; exact ⟨_, bFilter_ok hm hav' row rows id row row⟩
  · rw [e]; exact ⟨_, xFilter_ok hm hav' row rows id row row⟩
  · rw [e']; exact ⟨_, abxFilter_ok hm hav' row trips (·.1) (·.2.1) (·.2.2)⟩

/-- C51 (partial): the value an operation gets for each of its variables, at the A, B, X and ABX stages and at the
block stage, is the meaning of the extended name (`Spec.sem`), as soon as the row used for the block has the values of
the triplet for the columns determined by by, on and across. -/
theorem C51_values_partial {g : Bool} {c : Cols} {f : DBFun β} {p : Placed β} (h : place g c f = .ok p)
    (hs1 : p.stage ≠ .by) (hs2 : p.stage ≠ .generic) (hav : Avail c f) (row a b x : Row)
    (hby : ∀ r ∈ c.by_, row r = a r ∧ row r = b r ∧ row r = x r)
    (hon : ∀ r ∈ c.on, row r = a r ∧ row r = x r) (hac : ∀ r ∈ c.across, row r = a r) :
    f.fn (stageEnv c row a b x) = f.fn (Spec.sem c a b x) :=
  f.ext _ _ (stageEnv_sem (place_ok h) hs1 hs2 hav hby hon hac)

/-- a filter on one extended column -/
def colFilter (v : Var) (P : Val → Bool) : DBFun Bool := ⟨[v], fun e => P (e v), fun e e' h => by rw [h v (by simp)]⟩
/-- a filter on two extended columns -/
def colFilter2 (v w : Var) (P : Val → Val → Bool) : DBFun Bool :=
  ⟨[v, w], fun e => P (e v) (e w), fun e e' h => by rw [h v (by simp), h w (by simp)]⟩

def demoCols : Cols := ⟨["phone"], ["talker"], ["context"]⟩

/-- C51 is violated: a filter on `duration_AB` (a column not determined by on, across or by) is accepted, but its
variable is never made available: every block raises NameError. -/
theorem C51_violated_AB : ∀ row, ∃ m, mgr true demoCols [colFilter ("duration", .AB) truthy] = .ok m ∧
    m.onAcrossByFilter row = .error .nameError :=
  fun _ => ⟨_, rfl, rfl⟩

/-- C51 is violated: a filter that mixes a bare column and a column determined by 'by' is accepted as a generic filter,
but the 'by' variable is not made available: NameError. -/
theorem C51_violated_generic_by : ∀ row rows, ∃ m,
    mgr true demoCols [colFilter2 ("duration", .none) ("context", .none) (fun a b => a == b)] = .ok m ∧
    m.genericFilter row rows = .error .nameError :=
  fun _ _ => ⟨_, rfl, rfl⟩

/-- C51: `_AX` is accepted on the columns determined by across (whose value A and X do not share) and refused on the
columns determined by on (whose value A and X do share): the check on line 167 is inverted. -/
theorem C51_AX_inverted :
    (∃ p, place true demoCols (colFilter ("talker", .AX) truthy) = .ok p) ∧
    place true demoCols (colFilter ("phone", .AX) truthy) = .error .valueError :=
  ⟨⟨_, rfl⟩, rfl⟩

-- non-vacuity: a list of filters spread over six stages, accepted and available
example : ∃ m, mgr true demoCols [colFilter ("context", .A) truthy, colFilter ("duration", .none) truthy,
      colFilter ("talker", .one) truthy, colFilter ("duration", .A) truthy, colFilter ("phone", .two) truthy,
      colFilter2 ("duration", .B) ("duration", .X) (fun a b => a == b)] = .ok m ∧
    m.map Placed.stage = [.by, .generic, .onAcrossBy, .A, .B, .ABX] ∧ ∀ p ∈ m, Avail demoCols p.op := by
  refine ⟨_, rfl, rfl, ?_⟩
  simp [Avail, colFilter, colFilter2, demoCols]
  rintro a b (⟨_, rfl⟩ | ⟨_, rfl⟩) h <;> cases h

/-! ### C52 -/

/-- C52: `vectorial_filter` keeps exactly the positions on which every filter holds, in order, for every list of
filters and every context (a dict: keys are distinct) whose columns have one value per position and bind the variables
read. -/
theorem C52_conjunction (fs : List (DBFun Bool)) (ctx : Ctx) (kept : List Nat)
    (hkeys : (ctx.map (·.1)).Nodup) (hlen : ∀ p ∈ ctx, p.2.length = kept.length)
    (hb : ∀ f ∈ fs, f.inputs ≠ [] ∧ ∀ v ∈ f.inputs, v ∈ ctx.map (·.1)) :
    vectorialFilter fs ctx kept =
      .ok (((kept.zipIdx).filter (fun z => fs.all (fun f => f.fn (ctx.env z.2)))).map (·.1)) := by
  have h := vectorialFilter_ok (fun z : Nat × Nat => ctx.env z.2) (·.1) fs ctx kept.zipIdx ?_ hb
  · rw [List.zipIdx_map_fst] at h
    exact h
  · intro p hp
    apply List.ext_getElem
    · simp [hlen p hp]
    · intro i h1 h2
      have hg : ctx.get p.1 = some p.2 := by
        apply get_some (List.mem_map_of_mem hp)
        intro q hq hqp
        have : q = p := by
          by_contra hne
          have := List.inj_on_of_nodup_map hkeys hq hp hqp
          exact hne this
        rw [this]
      simp [Ctx.env, hg, List.getElem?_eq_getElem h1]

/-- C52: the result does not depend on the order of the filters. -/
theorem C52_order_independent (fs gs : List (DBFun Bool)) (hp : fs.Perm gs) (ctx : Ctx) (kept : List Nat)
    (hkeys : (ctx.map (·.1)).Nodup) (hlen : ∀ p ∈ ctx, p.2.length = kept.length)
    (hb : ∀ f ∈ fs, f.inputs ≠ [] ∧ ∀ v ∈ f.inputs, v ∈ ctx.map (·.1)) :
    vectorialFilter fs ctx kept = vectorialFilter gs ctx kept := by
  rw [C52_conjunction fs ctx kept hkeys hlen hb,
    C52_conjunction gs ctx kept hkeys hlen (fun f hf => hb f (hp.mem_iff.mpr hf))]
  have : ∀ z : Nat × Nat, fs.all (fun f => f.fn (ctx.env z.2)) = gs.all (fun f => f.fn (ctx.env z.2)) := by
    intro z
    rw [Bool.eq_iff_iff, List.all_eq_true, List.all_eq_true]
    exact ⟨fun h f hf => h f (hp.mem_iff.mpr hf), fun h f hf => h f (hp.mem_iff.mp hf)⟩
  simp only [this]

example : vectorialFilter [colFilter ("d", .A) truthy, colFilter2 ("d", .A) ("e", .A) (fun a b => a == b)]
    [(("d", .A), [.int 1, .int 0, .int 2, .int 3]), (("e", .A), [.int 1, .int 0, .int 7, .int 3])] [10, 11, 12, 13] = .ok [10, 13] := by
  rfl

/-! ### C53 -/

/-- specification: what python takes for true, among integers and strings -/
def PyTrue (v : Val) : Prop := v ≠ .int 0 ∧ v ≠ .str ""

instance (v : Val) : Decidable (PyTrue v) := inferInstanceAs (Decidable (_ ∧ _))

theorem truthy_eq : truthy = fun v => decide (PyTrue v) := by
  funext v
  cases v <;> simp [truthy, PyTrue] <;> rfl

/-- C53 (partial): what a column name used as a filter does: the first element is kept as many times as there are true
values.  It is the announced result (the elements with a true value) exactly when no element but the first has a true
value. -/
theorem C53_column_partial (values : List Val) (kept : List Nat) (hlen : values.length = kept.length) (hnd : kept.Nodup) :
    (∃ k0, columnVectorialFilter values kept = .ok (List.replicate (values.countP (fun v => decide (PyTrue v))) k0)) ∧
    (columnVectorialFilter values kept = .ok (((kept.zip values).filter (fun z => decide (PyTrue z.2))).map (·.1)) ↔
      ∀ i, 0 < i → ∀ v, values[i]? = some v → ¬ PyTrue v) := by
  have e : ∀ v, (¬ PyTrue v) = (truthy v = false) := by intro v; rw [truthy_eq]; simp
  have e' : ∀ v, decide (PyTrue v) = truthy v := by intro v; rw [truthy_eq]
  simp only [e, e']
  show (∃ k0, columnVectorialFilter values kept = .ok (List.replicate (values.countP truthy) k0)) ∧ _
  have hgat : ∀ (n : Nat) (k : Nat) (ks : List Nat), gather (k :: ks) (List.replicate n 0) = .ok (List.replicate n k) := by
    intro n k ks
    induction n with
    | zero => rfl
    | succ n ih => simp [List.replicate_succ, gather, ih]
  have hw : whereTrue2 (columnEvaluate values) = List.replicate (values.countP truthy) 0 := by
    simp [whereTrue2, columnEvaluate, List.countP_eq_length_filter]
  unfold columnVectorialFilter
  rw [hw]
  cases kept with
  | nil =>
    have : values = [] := List.length_eq_zero_iff.mp (by simpa using hlen)
    subst this
    simp [gather]
  | cons k ks =>
    cases values with
    | nil => simp at hlen
    | cons v vs =>
      refine ⟨⟨k, hgat _ _ _⟩, ?_⟩
      rw [hgat]
      have hk : k ∉ ks := (List.nodup_cons.mp hnd).1
      constructor
      · intro h i hi w hw
        cases i with
        | zero => omega
        | succ i =>
          simp at hw
          by_contra hc
          simp at hc
          have hil : i < vs.length := by
            rw [List.getElem?_eq_some_iff] at hw; exact hw.1
          have hik : i < ks.length := by simp at hlen; omega
          have hmem : (ks[i], w) ∈ ((k :: ks).zip (v :: vs)).filter (fun z => truthy z.2) := by
            simp only [List.zip_cons_cons, List.mem_filter, List.mem_cons]
            refine ⟨Or.inr ?_, hc⟩
            rw [List.mem_iff_getElem]
            refine ⟨i, by simp; omega, ?_⟩
            rw [List.getElem_zip]
            rw [List.getElem?_eq_getElem hil] at hw
            simp at hw
            simp [hw]
          have h2 := List.mem_map_of_mem (f := (·.1)) hmem
          rw [← Except.ok.inj h] at h2
          have := (List.mem_replicate.mp h2).2
          exact hk (this ▸ List.getElem_mem hik)
      · intro h
        have hvs : ∀ w ∈ vs, truthy w = false := by
          intro w hw
          obtain ⟨i, hi, rfl⟩ := List.mem_iff_getElem.mp hw
          exact h (i + 1) (by omega) _ (by simp [hi])
        have h1 : vs.countP truthy = 0 := by
          rw [List.countP_eq_zero]
          intro w hw; simp [hvs w hw]
        have h2 : (ks.zip vs).filter (fun z => truthy z.2) = [] := by
          rw [List.filter_eq_nil_iff]
          intro z hz
          simp [hvs z.2 (List.of_mem_zip hz).2]
        simp only [List.zip_cons_cons, List.filter_cons, h2, List.countP_cons, h1]
        cases truthy v <;> simp

/-- C53 is violated: filtering by a column that is true for the second item keeps the first one. -/
theorem C53_violated : columnVectorialFilter [.int 0, .int 1] [0, 1] = .ok [0] ∧
    ((([0, 1] : List Nat).zip [Val.int 0, Val.int 1]).filter (fun z => truthy z.2)).map (·.1) = [1] := by
  decide

/-- C53 is violated at block level: a column filter never rejects a block, even when the value is false. -/
theorem C53_violated_block (v : Val) : columnSingletonFilter v = .ok true := rfl

#print axioms C50_decode
#print axioms C50_injective
#print axioms C50_absent
#print axioms C51_one_stage
#print axioms C51_accepted_iff
#print axioms C51_available_partial
#print axioms C51_values_partial
#print axioms C51_violated_AB
#print axioms C51_violated_generic_by
#print axioms C51_AX_inverted
#print axioms C52_conjunction
#print axioms C52_order_independent
#print axioms C53_column_partial
#print axioms C53_violated
#print axioms C53_violated_block

end ABX.SideOps

#print axioms ABX.SideOps.C50_decode
#print axioms ABX.SideOps.C50_injective
#print axioms ABX.SideOps.C50_absent
#print axioms ABX.SideOps.C51_one_stage
#print axioms ABX.SideOps.C51_accepted_iff
#print axioms ABX.SideOps.C51_available_partial
#print axioms ABX.SideOps.C51_values_partial
#print axioms ABX.SideOps.C51_violated_AB
#print axioms ABX.SideOps.C51_violated_generic_by
#print axioms ABX.SideOps.C51_AX_inverted
#print axioms ABX.SideOps.C52_conjunction
#print axioms ABX.SideOps.C52_order_independent
#print axioms ABX.SideOps.C53_column_partial
#print axioms ABX.SideOps.C53_violated
#print axioms ABX.SideOps.C53_violated_block
