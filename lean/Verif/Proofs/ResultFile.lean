import Verif.Model.ResultFile
import Verif.Spec.ResultFile
import Verif.Properties.RegInfo
import Verif.Properties.Pipeline
/-!
Lemmas about `analyze` as it reads the task file.
-/
namespace ABX.ResultFile
open ExtSort ABX.Task SideOps RegInfo Analyze

/-- the columns of a table -/
theorem columnsOf_map {α τ : Type} (vars : List α) (S : List τ) (val : α → τ → Nat) :
    columnsOf vars.length (S.map (fun t => vars.map (fun v => val v t))) = vars.map (fun v => S.map (val v)) := by
  apply List.ext_getElem?
  intro j
  unfold columnsOf
  rw [List.getElem?_map, List.getElem?_map]
  by_cases hj : j < vars.length
  · rw [List.getElem?_range hj, List.getElem?_eq_getElem hj, Option.map_some, Option.map_some, List.filterMap_map]
    congr 1
    rw [← List.filterMap_eq_map]
    apply List.filterMap_congr
    intro t _
    simp [hj]
  · rw [List.getElem?_eq_none (by simpa using hj), List.getElem?_eq_none (by simpa using hj)]
    rfl

theorem rowsOf_nil {α : Type} (vars : List α) : rowsOf (vars.map (fun _ => ([] : List Nat))) = [] := by
  cases vars <;> simp [rowsOf]

/-- the groups of a file have what the columns of `F` have -/
def Same (f : H5IO.File Val) (indexes : List (List Val)) (F : Task.File) : Prop :=
  ∀ key ∈ F.bys, readIndexes f (groupName key) = .ok indexes ∧
    ∃ (τ : Type) (S : List τ) (vals : List (τ → Nat)), readRows f (groupName key) = .ok (S.map (fun t => vals.map (fun v => v t))) ∧ F.regs.lookup key = some (vals.map (fun v => S.map v))

theorem collapseGroup_eq {argsort : List Int → List Nat} {f : H5IO.File Val} {indexes : List (List Val)} {dt : Nat} (hdt : indexedBits indexes = .ok dt) {key : List Val} {scores : List Int}
    {τ : Type} {S : List τ} {vals : List (τ → Nat)} (h1 : readIndexes f (groupName key) = .ok indexes) (h2 : readRows f (groupName key) = .ok (S.map (fun t => vals.map (fun v => v t)))) :
    collapseGroup argsort f key scores = collapseLevel argsort dt indexes key (vals.map (fun v => S.map v)) scores := by
  unfold collapseGroup
  rw [h2]
  cases S with
  | nil =>
    unfold collapseLevel
    rw [show (vals.map (fun v => ([] : List τ).map v)) = vals.map (fun _ => []) from rfl, rowsOf_nil]
    rfl
  | cons t S =>
    have := columnsOf_map vals (t :: S) (fun v => v)
    rw [List.map_cons] at this ⊢
    dsimp only
    rw [h1]
    dsimp only
    rw [hdt]
    dsimp only
    rw [List.length_map, this]

/-- what `collapse` finds in the file is what it finds in `F` -/
theorem collapse_eq {argsort : List Int → List Nat} {f : H5IO.File Val} {indexes : List (List Val)} {dt : Nat} (hdt : indexedBits indexes = .ok dt) {F : Task.File} (h : Same f indexes F) (scores : List Int) :
    collapse argsort f F.bys F.byIndex scores = Analyze.collapse argsort indexes F scores := by
  unfold collapse Analyze.collapse
  rw [hdt]
  dsimp only
  have key : ∀ ps : List (List Val × Nat), (∀ p ∈ ps, p.1 ∈ F.bys) → collapseGroups argsort f F.byIndex scores ps = (collapseLoop argsort dt indexes F scores ps).map List.flatten := by
    intro ps
    induction ps with
    | nil => intro _; rfl
    | cons p ps ih =>
      intro hps
      obtain ⟨h1, τ, S, vals, h2, h3⟩ := h p.1 (hps p (by simp))
      unfold collapseGroups collapseLoop
      rw [ih (fun q hq => hps q (by simp [hq])), h3]
      cases F.byIndex[p.2]? with
      | none => rfl
      | some iv =>
        dsimp only
        rw [collapseGroup_eq hdt h1 h2]
        cases collapseLevel argsort dt indexes p.1 (vals.map (fun v => S.map v)) (npSlice scores iv.1.toNat iv.2.toNat) with
        | error e => rfl
        | ok out =>
          dsimp only
          cases collapseLoop argsort dt indexes F scores ps with
          | error e => rfl
          | ok outs => rfl
  rw [key _ (fun p hp => by
    exact List.mem_of_getElem? (List.mk_mem_zipIdx_iff_getElem?.mp hp))]
  cases collapseLoop argsort dt indexes F scores F.bys.zipIdx <;> rfl

/-! ### the groups written for a task -/

theorem rows_congr {α τ : Type} {vars : List α} (hv : vars ≠ []) {g : α → τ → Nat} {P Q : List τ} (h : ∀ v ∈ vars, P.map (g v) = Q.map (g v)) :
    P.map (fun t => vars.map (fun v => g v t)) = Q.map (fun t => vars.map (fun v => g v t)) := by
  have hl : P.length = Q.length := by
    obtain ⟨v, hv⟩ := List.exists_mem_of_ne_nil _ hv
    simpa using congrArg List.length (h v hv)
  apply List.ext_getElem (by simp [hl])
  intro i h1 h2
  rw [List.getElem_map, List.getElem_map]
  apply List.map_congr_left
  intro v hv
  have := congrArg (fun l => l[i]?) (h v hv)
  rw [List.length_map] at h1 h2
  simpa [h1, h2] using this

variable {ρ φ δ : Type}

/-- the product of the numbers of labels of the regressors is at most 2^53 -/
def FewCombinations (e : Env) (a : Args ρ) : Prop := ((allRegs e a).map (fun f => (f.inputs.map (fun v => (a.db.map (fun p => p.2 v.1)).dedup.length)).prod)).prod ≤ 2 ^ 53

theorem ixOf_nodup {e : Env} (he : e.Lawful) (a : Args ρ) (v : Var) : (ixOf e a v).Nodup := by
  unfold ixOf columnIndex
  exact (he.sort _).nodup_iff.mpr (List.nodup_dedup _)

theorem ixOf_card {e : Env} (he : e.Lawful) (a : Args ρ) (v : Var) : (ixOf e a v).length = (a.db.map (fun p => p.2 v.1)).dedup.length := by
  unfold ixOf columnIndex
  exact (he.sort _).length_eq

theorem idxOf_column {e : Env} {a : Args ρ} (v : Var) : Pipeline.idxOf e a (columnReg e a.db v) = ixOf e a v := rfl

theorem few_idx {e : Env} (he : e.Lawful) {a : Args ρ} (hcol : ∀ f ∈ allRegs e a, ∃ v, f = columnReg e a.db v) (h : FewCombinations e a) :
    ((allRegs e a).map (fun f => (Pipeline.idxOf e a f).length)).prod ≤ 2 ^ 53 := by
  refine le_of_eq_of_le (congrArg List.prod (List.map_congr_left fun f hf => ?_)) h
  obtain ⟨v, rfl⟩ := hcol f hf
  rw [idxOf_column, ixOf_card he]
  simp [columnReg]

/-- labels instead of indices -/
theorem labelResults {α : Type} {vars : List α} {ix : α → List Val} {val : α → Tri → Nat} {lab : α → Tri → Val} {key : List Val} {abx : Tri → ℚ} {Q : List Tri} {out : List OutRow}
    (h : ABX.Spec.Results (vars.map ix) key (fun t => vars.map (fun v => val v t)) abx Q out) (hn : ∀ v ∈ vars, (ix v).Nodup) (hl : ∀ v ∈ vars, ∀ t ∈ Q, (ix v)[val v t]? = some (lab v t)) :
    ABX.Spec.LabelResults (fun t => vars.map (fun v => lab v t)) key abx Q out := by
  obtain ⟨combos, h1, h2, h3⟩ := h
  have hlab : ∀ t ∈ Q, ∀ ls, Spec.IsLabels (vars.map ix) (vars.map (fun v => val v t)) ls → ls = vars.map (fun v => lab v t) := by
    rintro t ht ls ⟨g1, g2⟩
    simp only [List.length_map] at g1
    apply List.ext_getElem?
    intro j
    by_cases h0 : j < vars.length
    · rw [g2 j (ix vars[j]) (val vars[j] t) (by simp [h0]) (by simp [h0]), hl _ (List.getElem_mem h0) t ht, List.getElem?_map, List.getElem?_eq_getElem h0]
      rfl
    · rw [List.getElem?_eq_none (by omega), List.getElem?_eq_none (by simp; omega)]
  have hval : ∀ t ∈ Q, ∀ u ∈ Q, (vars.map (fun v => val v u) == vars.map (fun v => val v t)) = (vars.map (fun v => lab v u) == vars.map (fun v => lab v t)) := by
    intro t ht u hu
    rw [Bool.eq_iff_iff, beq_iff_eq, beq_iff_eq, List.map_inj_left, List.map_inj_left]
    constructor
    · intro h v hv
      have e1 := hl v hv t ht
      have e2 := hl v hv u hu
      rw [h v hv] at e2
      exact Option.some.inj (e2.symm.trans e1)
    · intro h v hv
      have e1 := hl v hv t ht
      have e2 := hl v hv u hu
      rw [h v hv, ← e1] at e2
      have i1 := (List.getElem?_eq_some_iff.mp (hl v hv u hu)).1
      exact (List.getElem?_inj i1 (hn v hv)).mp e2
  have hrow : ∀ o ∈ out, ∃ t ∈ Q, o.labels = vars.map (fun v => lab v t) ∧ o.by_ = key ∧ o.n = (Q.filter (fun u => vars.map (fun v => lab v u) == o.labels)).length ∧
      |o.score - ((Q.filter (fun u => vars.map (fun v => lab v u) == o.labels)).map abx).sum / o.n| ≤ 2 ^ (-52 : ℤ) ∧ 0 ≤ o.score ∧ o.score ≤ 1 := by
    intro o ho
    obtain ⟨c, hc, r1, r2, r3, -, r5, r6⟩ := forall₂_mem_right h3 o ho
    obtain ⟨t, ht, rfl⟩ := (h2 c).mp hc
    have hlo := hlab t ht _ r1
    have hfil : Q.filter (fun u => vars.map (fun v => val v u) == vars.map (fun v => val v t)) = Q.filter (fun u => vars.map (fun v => lab v u) == o.labels) := by
      rw [hlo]
      exact List.filter_congr (fun u hu => hval t ht u hu)
    rw [hfil] at r3 r5
    exact ⟨t, ht, hlo, r2, r3, r5, r6⟩
  refine ⟨?_, ?_, fun o ho => ?_, fun o ho => ?_, fun o ho => ?_, fun o ho => ?_⟩
  · have hmem : List.Forall₂ (fun (c : List Nat) (o : OutRow) => c ∈ combos ∧ Spec.IsLabels (vars.map ix) c o.labels) combos out :=
      (List.forall₂_and_left combos out).mpr ⟨fun c hc => hc, h3.imp (fun _ _ h => h.1)⟩
    refine Pipeline.nodup_of_forall₂ hmem (h1.imp (fun h => ne_of_lt h)) OutRow.labels ?_
    rintro x y o o' ⟨hx, lx⟩ ⟨hy, ly⟩ heq
    obtain ⟨t, ht, rfl⟩ := (h2 x).mp hx
    obtain ⟨u, hu, rfl⟩ := (h2 y).mp hy
    rw [hlab t ht _ lx, hlab u hu _ ly, ← beq_iff_eq, ← hval u hu t ht, beq_iff_eq] at heq
    exact heq
  · intro c
    constructor
    · rintro ⟨o, ho, rfl⟩
      obtain ⟨t, ht, hlo, -⟩ := hrow o ho
      exact ⟨t, ht, hlo.symm⟩
    · rintro ⟨t, ht, rfl⟩
      obtain ⟨o, ho, r1, -⟩ := forall₂_mem_left h3 _ ((h2 _).mpr ⟨t, ht, rfl⟩)
      exact ⟨o, ho, hlab t ht _ r1⟩
  · obtain ⟨t, ht, -, r, -⟩ := hrow o ho; exact r
  · obtain ⟨t, ht, -, -, r, -⟩ := hrow o ho; exact r
  · obtain ⟨t, ht, -, -, -, r, -⟩ := hrow o ho; exact r
  · obtain ⟨t, ht, -, -, -, -, r⟩ := hrow o ho; exact r

end ABX.ResultFile
