import Verif.Proofs.RowLines
import Verif.Proofs.RegInfoFile
/-!
C114: the rows of the results of any task without threshold, in terms of the lines of the item table.
-/
namespace ABX.Pipeline
open ExtSort ABX.Task Pairs SideOps Sampler Distances Score EndToEnd Analyze F64 ABX.Spec
variable {ρ φ δ : Type}

section
variable {e : Env} (he : e.Lawful) {a : Args ρ} (ha : a.OK) (hf : Spec'.KeptFirst a) {T : Task.Task ρ} (h : init e a = .ok T)
    (hpos : ∀ (i : Nat) (p : Nat × Row), a.db[i]? = some p → p.1 = i) (hfeat : a.feat.length = a.db.length)
    (hA : (∀ f ∈ a.regressors, Spec.readsA a.cols f = false) ∨ (T.filters.ops .ABX ≠ [] ∧ a.on ∈ a.cols.on ∧ a.on ∉ a.cols.by_)) {idx : DBFun Nat → List Val}
    (hidx : ∀ f ∈ allRegs e a, 0 < (idx f).length ∧ ∀ L ∈ T.levels, ∀ t ∈ tripsSpec a L.key, Spec.regValue a.cols f t < (idx f).length)
    (hc : ((allRegs e a).map (fun f => (idx f).length)).prod ≤ 2 ^ 53) (hz : Sizes a T) {c : Choices} (hl : c.Lawful)
    {getFeat : ρ → Except Err φ} {distance : φ → φ → Except Err δ} {lt : δ → δ → Bool} (hlt : ∀ x y, lt x y = true → lt y x = false) {F : File} {S : List Int}
    (hr : Ran c e T getFeat distance lt F S)
include he ha hf h hpos hfeat hA hidx hc hz hl hlt hr

/-- C114: the results of a run without threshold have exactly one row for each combination of labels of 'by' and values of the regressors that some triplet of lines of the table has, and the row is that of all triplets of lines with this combination, each once.
The regressors are those of the user and the default ones, in some order.  Missing: as in C77. -/
theorem C114_rows_partial : ∃ rows, collapse c.sortRows ((colRegs T.regressors).map idx) F S = .ok rows ∧ (colRegs T.regressors).Perm (allRegs e a) ∧
    RowsOf a.cols a.on a.across a.by_ a.filters (colRegs T.regressors) (a.db.map (·.2)) lt (Spec.recDist getFeat distance) a.feat ((colRegs T.regressors).map idx) rows := by
  have hS := small_of he ha hf h hz hl.num hl.bl1 hl.bl2 hr.file
  obtain ⟨outs, a1, a2, a3, a4⟩ := level_scores he ha hf h hpos hfeat hA hidx hc hz hl hlt hr hS
  obtain ⟨total, t, tb, bouts, K⟩ := generate_ok hl.bl1 hl.bl2 hr.file
  have hbys := mem_bys he ha hf h hl.num hl.src K
  have hkey : List.Forall₂ (fun key out => ∃ cs : List (List Nat), cs.Nodup ∧ (∀ v, v ∈ cs ↔ ∃ u, RowTriplet a.cols a.on a.across a.by_ a.filters (colRegs T.regressors) (a.db.map (·.2)) (key, v) u) ∧
      List.Forall₂ (fun v o => IsRow (RowTriplet a.cols a.on a.across a.by_ a.filters (colRegs T.regressors) (a.db.map (·.2)) (key, v)) lt (Spec.recDist getFeat distance) a.feat ((colRegs T.regressors).map idx) (key, v) o) cs out) F.bys outs := by
    refine List.forall₂_iff_zip.mpr ⟨a4.length_eq, ?_⟩
    intro key out hm
    obtain ⟨Q, abx, d1, d2, -, d4, d5, -⟩ := (List.forall₂_iff_zip.mp a4).2 hm
    obtain ⟨⟨p, hp, rfl⟩, -⟩ := (hbys key).mp (List.of_mem_zip hm).1
    have hQ := d2 rfl
    obtain ⟨combos, c1, c2, c3⟩ := d5 Q (.refl _)
    have hex := line_scores hfeat d4
    choose w hw using hex
    refine ⟨combos, c1.imp (fun hlt => ne_of_lt hlt), ?_, ?_⟩
    · intro v
      rw [c2]
      constructor
      · rintro ⟨t, ht, e⟩
        exact ⟨_, rowTriplet_iff.mpr ⟨t, d1 t ht, e, rfl⟩⟩
      · rintro ⟨u, hu⟩
        obtain ⟨t, ht, e, -⟩ := rowTriplet_iff.mp hu
        exact ⟨t, hQ.mem_iff.mpr ht, e⟩
    · refine c3.imp ?_
      rintro v o ⟨r1, r2, r3, r4, -⟩
      refine ⟨(Q.filter (fun t => (colRegs T.regressors).map (fun f => Spec.regValue a.cols f t) == v)).map (fun t => (lineTri a (levelKey a p.2) t, w t)), ?_, ?_, ?_, r1, r2, ?_, ?_⟩
      · rw [List.map_map]
        refine List.Nodup.map_on ?_ ((hQ.nodup_iff.mpr (tripsSpec_nodup a _)).filter _)
        intro x hx y hy hxy
        exact lineTri_inj (d1 _ (List.mem_filter.mp hx).1) (d1 _ (List.mem_filter.mp hy).1) hxy
      · intro u
        rw [rowTriplet_iff, List.map_map, List.mem_map]
        constructor
        · rintro ⟨t, ht, e⟩
          obtain ⟨t1, t2⟩ := List.mem_filter.mp ht
          exact ⟨t, d1 t t1, by simpa using t2, e⟩
        · rintro ⟨t, ht, e, e'⟩
          exact ⟨t, List.mem_filter.mpr ⟨hQ.mem_iff.mpr ht, by simpa using e⟩, e'⟩
      · intro q hq
        obtain ⟨t, ht, rfl⟩ := List.mem_map.mp hq
        exact (hw t (List.mem_filter.mp ht).1).1
      · rw [List.length_map, r3]
      · rw [r4]
        have hs : ((Q.filter (fun t => (colRegs T.regressors).map (fun f => Spec.regValue a.cols f t) == v)).map (fun t => 2 * abx t - 1)).sum =
            ((((Q.filter (fun t => (colRegs T.regressors).map (fun f => Spec.regValue a.cols f t) == v)).map (fun t => (lineTri a (levelKey a p.2) t, w t))).map (·.2)).sum : Int) := by
          rw [List.map_map, Int.cast_list_sum, List.map_map]
          apply congrArg
          apply List.map_congr_left
          intro t ht
          exact (hw t (List.mem_filter.mp ht).1).2
        rw [← hs]
  obtain ⟨L, l1, l2, l3⟩ := rows_flatten a3 hkey
  refine ⟨outs.flatten, a1, a2, L, l1, ?_, l3⟩
  rintro ⟨key, v⟩
  rw [l2]
  constructor
  · exact fun h => h.2
  · rintro ⟨u, hu⟩
    exact ⟨(hbys key).mpr (key_of_rowTriplet hu), u, hu⟩

end

/-- C114 with a threshold: the rows are those of the same combinations, each of some of the triplets of lines with the combination: of all of them when there are at most `threshold`, else of `threshold` of them.  For groups that fit (C08) and tasks with an
across column, as in C79. -/
theorem C114_threshold_partial {e : Env} (he : e.Lawful) {a : Args ρ} (ha : a.OK) (hf : Spec'.KeptFirst a) {T : Task.Task ρ} (h : init e a = .ok T)
    (hpos : ∀ (i : Nat) (p : Nat × Row), a.db[i]? = some p → p.1 = i) (hfeat : a.feat.length = a.db.length)
    (hA : ∀ f ∈ a.regressors, Spec.readsA a.cols f = false) (hac : a.across ≠ []) (hsub : ∀ c ∈ a.across, c ∈ a.cols.across) {idx : DBFun Nat → List Val}
    (hidx : ∀ f ∈ allRegs e a, 0 < (idx f).length ∧ ∀ L ∈ T.levels, ∀ t ∈ tripsSpec a L.key, Spec.regValue a.cols f t < (idx f).length)
    (hc : ((allRegs e a).map (fun f => (idx f).length)).prod ≤ 2 ^ 53) (hz : Sizes a T) {threshold : Nat} (hthr : 0 < threshold)
    (hG : ∀ L ∈ T.levels, GroupFit threshold a.cols a.on a.across (allRegs e a) (tripsSpec a L.key)) {c : Choices} (hl : c.Lawful) (hE : c.num.Exact)
    {getFeat : ρ → Except Err φ} {distance : φ → φ → Except Err δ} {lt : δ → δ → Bool} (hlt : ∀ x y, lt x y = true → lt y x = false) {F : File} {S : List Int}
    (hr : RanT threshold c e T getFeat distance lt F S) : ∃ rows, collapse c.sortRows ((colRegs T.regressors).map idx) F S = .ok rows ∧ (colRegs T.regressors).Perm (allRegs e a) ∧
    ∃ K : List (List Val × List Nat), K.Nodup ∧ (∀ k, k ∈ K ↔ ∃ u, RowTriplet a.cols a.on a.across a.by_ a.filters (colRegs T.regressors) (a.db.map (·.2)) k u) ∧
      List.Forall₂ (fun k o => IsSampledRow threshold (RowTriplet a.cols a.on a.across a.by_ a.filters (colRegs T.regressors) (a.db.map (·.2)) k) lt (Spec.recDist getFeat distance) a.feat ((colRegs T.regressors).map idx) k o) K rows := by
  obtain ⟨outs, a1, a2, a3, hbys, a4⟩ := C79_results_partial he ha hf h hpos hfeat hA hac hsub hidx hc hz hthr hG hl hE hlt hr
  have hkey : List.Forall₂ (fun key out => ∃ cs : List (List Nat), cs.Nodup ∧ (∀ v, v ∈ cs ↔ ∃ u, RowTriplet a.cols a.on a.across a.by_ a.filters (colRegs T.regressors) (a.db.map (·.2)) (key, v) u) ∧
      List.Forall₂ (fun v o => IsSampledRow threshold (RowTriplet a.cols a.on a.across a.by_ a.filters (colRegs T.regressors) (a.db.map (·.2)) (key, v)) lt (Spec.recDist getFeat distance) a.feat ((colRegs T.regressors).map idx) (key, v) o) cs out) F.bys outs := by
    refine List.forall₂_iff_zip.mpr ⟨a4.length_eq, ?_⟩
    intro key out hm
    obtain ⟨Q, abx, ⟨s1, d1, s3⟩, d4, combos, c1, c2, c3⟩ := (List.forall₂_iff_zip.mp a4).2 hm
    obtain ⟨⟨p, hp, rfl⟩, -⟩ := (hbys key).mp (List.of_mem_zip hm).1
    have hscore := line_scores hfeat d4
    choose w hw using hscore
    refine ⟨combos, c1.imp (fun hlt => ne_of_lt hlt), ?_, ?_⟩
    · intro v
      rw [c2]
      constructor
      · rintro ⟨t, ht, e⟩
        exact ⟨_, rowTriplet_iff.mpr ⟨t, d1 t ht, e, rfl⟩⟩
      · rintro ⟨u, hu⟩
        obtain ⟨t, ht, e, -⟩ := rowTriplet_iff.mp hu
        have hp : 0 < (Q.filter (fun t => (colRegs T.regressors).map (fun f => Spec.regValue a.cols f t) == v)).length := by
          rw [s3]
          exact lt_min hthr (List.length_pos_of_mem (List.mem_filter.mpr ⟨ht, by simpa using e⟩))
        obtain ⟨s, hs⟩ := List.exists_mem_of_ne_nil _ (List.length_pos_iff.mp hp)
        obtain ⟨h1, h2⟩ := List.mem_filter.mp hs
        exact ⟨s, h1, by simpa using h2⟩
    · refine c3.imp ?_
      rintro v o ⟨r1, r2, r3, r4, -⟩
      refine ⟨(Q.filter (fun t => (colRegs T.regressors).map (fun f => Spec.regValue a.cols f t) == v)).map (lineTri a (levelKey a p.2)), ?_,
        ⟨(Q.filter (fun t => (colRegs T.regressors).map (fun f => Spec.regValue a.cols f t) == v)).map (fun t => (lineTri a (levelKey a p.2) t, w t)), ?_, ?_, ?_, r1, r2, ?_, ?_⟩, ?_⟩
      · intro u hu
        obtain ⟨t, ht, rfl⟩ := List.mem_map.mp hu
        obtain ⟨t1, t2⟩ := List.mem_filter.mp ht
        exact rowTriplet_iff.mpr ⟨t, d1 t t1, by simpa using t2, rfl⟩
      · rw [List.map_map]
        refine List.Nodup.map_on ?_ (s1.filter _)
        intro x hx y hy hxy
        exact lineTri_inj (d1 _ (List.mem_filter.mp hx).1) (d1 _ (List.mem_filter.mp hy).1) hxy
      · intro u
        rw [List.map_map]
        rfl
      · intro q hq
        obtain ⟨t, ht, rfl⟩ := List.mem_map.mp hq
        exact (hw t (List.mem_filter.mp ht).1).1
      · rw [List.length_map, r3]
      · rw [r4]
        have hs : ((Q.filter (fun t => (colRegs T.regressors).map (fun f => Spec.regValue a.cols f t) == v)).map (fun t => 2 * abx t - 1)).sum =
            ((((Q.filter (fun t => (colRegs T.regressors).map (fun f => Spec.regValue a.cols f t) == v)).map (fun t => (lineTri a (levelKey a p.2) t, w t))).map (·.2)).sum : Int) := by
          rw [List.map_map, Int.cast_list_sum, List.map_map]
          apply congrArg
          apply List.map_congr_left
          intro t ht
          exact (hw t (List.mem_filter.mp ht).1).2
        rw [← hs]
      · intro W hW hWm
        have hn : (((tripsSpec a (levelKey a p.2)).filter (fun t => (colRegs T.regressors).map (fun f => Spec.regValue a.cols f t) == v)).map (lineTri a (levelKey a p.2))).Nodup := by
          refine List.Nodup.map_on ?_ ((tripsSpec_nodup a _).filter _)
          intro x hx y hy hxy
          exact lineTri_inj (List.mem_filter.mp hx).1 (List.mem_filter.mp hy).1 hxy
        have : W.Perm (((tripsSpec a (levelKey a p.2)).filter (fun t => (colRegs T.regressors).map (fun f => Spec.regValue a.cols f t) == v)).map (lineTri a (levelKey a p.2))) := by
          rw [List.perm_ext_iff_of_nodup hW hn]
          intro u
          rw [hWm, rowTriplet_iff, List.mem_map]
          constructor
          · rintro ⟨t, ht, e, e'⟩
            exact ⟨t, List.mem_filter.mpr ⟨ht, by simpa using e⟩, e'⟩
          · rintro ⟨t, ht, e⟩
            obtain ⟨t1, t2⟩ := List.mem_filter.mp ht
            exact ⟨t, t1, by simpa using t2, e⟩
        rw [r3, s3, this.length_eq, List.length_map]
  obtain ⟨L, l1, l2, l3⟩ := rows_flatten a3 hkey
  refine ⟨outs.flatten, a1, a2, L, l1, ?_, l3⟩
  rintro ⟨key, v⟩
  rw [l2]
  constructor
  · exact fun h => h.2
  · rintro ⟨u, hu⟩
    exact ⟨(hbys key).mpr (key_of_rowTriplet hu), u, hu⟩

/-- `out` are the results of a complete run of the task `a` without threshold, with any order of groups and sets, buffers and numbers of cpus; the regressors are columns (as the default ones), `vars` are their names in the order of the columns of the results.
Sizes and filters as in C77 -/
def LineRun (a : Args ρ) (vars : List Var) (getFeat : ρ → Except Err φ) (distance : φ → φ → Except Err δ) (lt : δ → δ → Bool) (out : List OutRow) : Prop :=
  ∃ (e : Env) (T : Task.Task ρ) (c : Choices) (F : File) (S : List Int), e.Lawful ∧ a.OK ∧ Spec'.KeptFirst a ∧ init e a = .ok T ∧ (∀ (i : Nat) (p : Nat × Row), a.db[i]? = some p → p.1 = i) ∧ a.feat.length = a.db.length ∧ a.db ≠ [] ∧
    ((∀ f ∈ a.regressors, Spec.readsA a.cols f = false) ∨ (T.filters.ops .ABX ≠ [] ∧ a.on ∈ a.cols.on ∧ a.on ∉ a.cols.by_)) ∧ (∀ f ∈ a.regressors, ∃ v, f = columnReg e a.db v) ∧
    ((allRegs e a).map (fun f => (idxOf e a f).length)).prod ≤ 2 ^ 53 ∧ Sizes a T ∧ c.Lawful ∧ (∀ x y, lt x y = true → lt y x = false) ∧ Ran c e T getFeat distance lt F S ∧ vars = varsOf (colRegs T.regressors) ∧
    collapse c.sortRows ((colRegs T.regressors).map (idxOf e a)) F S = .ok out

theorem allRegs_column {e : Env} {a : Args ρ} (hcol : ∀ f ∈ a.regressors, ∃ v, f = columnReg e a.db v) : ∀ f ∈ allRegs e a, ∃ v, f = columnReg e a.db v := by
  intro f hf
  rcases List.mem_append.mp hf with hf | hf
  · exact hcol f hf
  · unfold defaultRegs at hf
    simp only [List.mem_append, List.mem_cons, List.not_mem_nil, or_false, List.mem_flatMap] at hf
    rcases hf with (hf | hf) | ⟨x, -, hf | hf⟩
    all_goals exact ⟨_, hf⟩

/-- every value of a column has a label -/
theorem idxOf_ok {e : Env} (he : e.Lawful) {a : Args ρ} (hdb : a.db ≠ []) (hcol : ∀ f ∈ a.regressors, ∃ v, f = columnReg e a.db v) :
    ∀ f ∈ allRegs e a, 0 < (idxOf e a f).length ∧ ∀ key, ∀ t ∈ tripsSpec a key, Spec.regValue a.cols f t < (idxOf e a f).length := by
  intro f hf
  obtain ⟨v, rfl⟩ := allRegs_column hcol f hf
  obtain ⟨p, hp⟩ := List.exists_mem_of_ne_nil _ hdb
  have hp' : p.2 ∈ a.db.map (·.2) := List.mem_map.mpr ⟨p, hp, rfl⟩
  constructor
  · have := column_label he v (c := a.cols) hp' hp' hp'
    exact lt_of_le_of_lt (Nat.zero_le _) (List.getElem?_eq_some_iff.mp this).1
  · intro key t ht
    obtain ⟨q1, q2, q3, -⟩ := lineTri_rows ht
    exact (List.getElem?_eq_some_iff.mp (column_label he v (c := a.cols) (List.mem_of_getElem? q1) (List.mem_of_getElem? q2) (List.mem_of_getElem? q3))).1

/-- the results of such a run are the rows of the lines -/
theorem LineRun.rows {a : Args ρ} {vars : List Var} {getFeat : ρ → Except Err φ} {distance : φ → φ → Except Err δ} {lt : δ → δ → Bool} {out : List OutRow} (h : LineRun a vars getFeat distance lt out) :
    ∃ e : Env, e.Lawful ∧ RowsOf a.cols a.on a.across a.by_ a.filters (vars.map (columnReg e a.db)) (a.db.map (·.2)) lt (Spec.recDist getFeat distance) a.feat ((vars.map (columnReg e a.db)).map (idxOf e a)) out := by
  obtain ⟨e, T, c, F, S, he, ha, hf, hT, hpos, hfeat, hdb, hA, hcol, hc, hz, hl, hlt, hr, rfl, ho⟩ := h
  obtain ⟨rows, r1, r2, r3⟩ := C114_rows_partial he ha hf hT hpos hfeat hA (fun f hf => ⟨(idxOf_ok he hdb hcol f hf).1, fun L _ => (idxOf_ok he hdb hcol f hf).2 L.key⟩) hc hz hl hlt hr
  rw [ho] at r1
  cases r1
  refine ⟨e, he, ?_⟩
  rw [← RegInfo.varsOf_map (fun f hf => allRegs_column hcol f (r2.mem_iff.mp hf))]
  exact r3

/-- C114: the results do not depend on the order of the lines of the item table (the line `i` of the one table is the line `σ i` of the other, with the same record): they have the same rows, in some order, if their columns are in the same order.  Runs
without threshold, in any two processes.  Missing: as in C77; regressors that are not columns. -/
theorem C114_order_partial {a a' : Args ρ} {vars : List Var} {getFeat : ρ → Except Err φ} {distance : φ → φ → Except Err δ} {lt : δ → δ → Bool} {out out' : List OutRow} (h : LineRun a vars getFeat distance lt out)
    (h' : LineRun a' vars getFeat distance lt out') (hc : a'.cols = a.cols) (hon : a'.on = a.on) (hac : a'.across = a.across) (hby : a'.by_ = a.by_) (hfs : a'.filters = a.filters)
    (σ : Equiv.Perm Nat) (hσ : ∀ i, (a'.db.map (·.2))[i]? = (a.db.map (·.2))[σ i]?) (hρ : ∀ i, a'.feat[i]? = a.feat[σ i]?) : out'.Perm out := by
  obtain ⟨e, he, h⟩ := h.rows
  obtain ⟨e', he', h'⟩ := h'.rows
  rw [hc, hon, hac, hby, hfs] at h'
  have hσ' : ∀ i, (a.db.map (·.2))[i]? = (a'.db.map (·.2))[σ.symm i]? := fun i => by rw [hσ]; simp
  have hρ' : ∀ i, a.feat[i]? = a'.feat[σ.symm i]? := fun i => by rw [hρ]; simp
  have mem : ∀ {l l' : List Row} {σ : Equiv.Perm Nat}, (∀ i, l'[i]? = l[σ i]?) → ∀ r ∈ l', r ∈ l := by
    intro l l' σ h r hr
    obtain ⟨i, hi⟩ := List.getElem?_of_mem hr
    rw [h] at hi
    exact List.mem_of_getElem? hi
  have hreg : ∀ {e e' : Env} {b b' : Args ρ}, e.Lawful → e'.Lawful → (∀ r ∈ b.db.map (·.2), r ∈ b'.db.map (·.2)) →
      List.Forall₂ (fun f f' => SameLabel a.cols (b.db.map (·.2)) (f, idxOf e b f) (f', idxOf e' b' f')) (vars.map (columnReg e b.db)) (vars.map (columnReg e' b'.db)) := by
    intro e e' b b' he he' hm
    rw [List.forall₂_map_left_iff, List.forall₂_map_right_iff, List.forall₂_same]
    exact fun v _ => sameLabel_column he he' hm a.cols v
  have r1 := hreg he he' (mem hσ')
  have r2 := hreg he' he (mem hσ)
  rw [List.perm_ext_iff_of_nodup (rowsOf_nodup r2 h') (rowsOf_nodup r1 h)]
  exact fun o => ⟨rowsOf_sub σ.symm hσ' hρ' r2 h' h o, rowsOf_sub σ hσ hρ r1 h h' o⟩

/-- the table of `ex2` with its first and last lines exchanged, with their records -/
def ex2Swap : Args Nat := { args0 [mk "a" 2 2, mk "a" 1, mk "a" 1, mk "b" 1, mk "b" 1, mk "a" 2, mk "a" 1 2, mk "b" 1 2, mk "c" 3 1] [] [] ["sp"] with feat := [8, 1, 2, 3, 4, 5, 6, 7, 0] }

theorem ex2Swap_ok : ex2Swap.OK := Args.OK.flat rfl (by decide +kernel) (by intro f hf; cases hf) (by intro f hf; cases hf) (by intro f hf; cases hf) (by intro f hf; cases hf) (by decide +kernel)

theorem lineRun_regs {a : Args Nat} (ha : a.OK) (hfl : ∀ f ∈ a.filters, Spec.bare a.cols f = false) (hrA : ∀ f ∈ a.regressors, Spec.readsA a.cols f = false) (hmix : ∀ f ∈ a.regressors, Spec.mixed a.cols f = false) (hcol : ∀ f ∈ a.regressors, ∃ v, f = columnReg E0 a.db v) (hpos : ∀ (i : Nat) (p : Nat × Row), a.db[i]? = some p → p.1 = i) (hft : a.feat.length = a.db.length) {vars : List Var}
    (hT : (match init E0 a with
      | .ok T => decide ((∀ L ∈ T.levels, (itemsOf a L.key).length ≤ 128) ∧ (T.levels.map (fun L => (tripsSpec a L.key).length)).sum ≤ 100 ∧ varsOf (colRegs T.regressors) = vars)
      | _ => false) = true) (hp : ((allRegs E0 a).map (fun f => (idxOf E0 a f).length)).prod ≤ 2 ^ 53) (hne : (a.db[1]?.map (fun p => decide (tripsSpec a (levelKey a p.2) = []))) = some false) (d : Nat → Nat → Nat) {n m : Nat} (hn : 0 < n) (hm : 0 < m) :
    ∃ out, out ≠ [] ∧ LineRun a vars (fun r => .ok r) (fun v w => .ok (d v w)) (fun x y => decide (x < y)) out := by
  cases h : init E0 a with
  | error e => rw [h] at hT; cases hT
  | ok T =>
    rw [h] at hT
    simp only [decide_eq_true_eq] at hT
    have hz : Sizes a T := ⟨fun L hL => le_max_of_le_left (hT.1 L hL), fun L hL => (hT.1 L hL).trans (by norm_num), hT.2.1.trans (by norm_num)⟩
    have hk : Spec'.KeptFirst a := .of_not_bare hfl
    have hlt : ∀ x y : Nat, decide (x < y) = true → decide (y < x) = false := by intro x y h; simp at h ⊢; omega
    rw [Option.map_eq_some_iff] at hne
    obtain ⟨p, hp1, hq⟩ := hne
    have hpm := List.mem_of_getElem? hp1
    have hc : (choices0 n m).Lawful := choices0_lawful (by omega)
    obtain ⟨F, S, r⟩ := C77_completes_partial E0_lawful ha hk h ⟨p, hpm, by simpa using hq⟩ hmix hz (.inl (hT.2.1.trans (by norm_num))) (c := choices0 n m) hc hn
      (getFeat := fun r => .ok r) (distance := fun v w => .ok (d v w)) (fun r _ => ⟨_, rfl⟩) (fun _ _ _ _ f g _ _ => ⟨_, rfl⟩) 0 hlt
    have hA : (∀ f ∈ a.regressors, Spec.readsA a.cols f = false) ∨ (T.filters.ops .ABX ≠ [] ∧ a.on ∈ a.cols.on ∧ a.on ∉ a.cols.by_) := .inl hrA
    have hidx := idxOf_ok E0_lawful (List.ne_nil_of_mem hpm) hcol
    obtain ⟨out, o1, o2, K, -, k2, k3⟩ := C114_rows_partial E0_lawful ha hk h hpos hft hA (fun f hf => ⟨(hidx f hf).1, fun L _ => (hidx f hf).2 L.key⟩) hp hz hc hlt r
    refine ⟨out, ?_, E0, T, choices0 n m, F, S, E0_lawful, ha, hk, h, hpos, hft, List.ne_nil_of_mem hpm, hA, hcol, hp, hz, hc, hlt, r, hT.2.2.symm, o1⟩
    rintro rfl
    cases k3
    obtain ⟨t, ht⟩ := List.exists_mem_of_ne_nil _ (show tripsSpec a (levelKey a p.2) ≠ [] by simpa using hq)
    have := (k2 _).mpr ⟨_, rowTriplet_iff.mpr ⟨t, ht, rfl, rfl⟩⟩
    cases this

theorem lineRun_filters {a : Args Nat} (ha : a.OK) (hfl : ∀ f ∈ a.filters, Spec.bare a.cols f = false) (hrg : a.regressors = []) (hpos : ∀ (i : Nat) (p : Nat × Row), a.db[i]? = some p → p.1 = i) (hft : a.feat.length = a.db.length) {vars : List Var}
    (hT : (match init E0 a with
      | .ok T => decide ((∀ L ∈ T.levels, (itemsOf a L.key).length ≤ 128) ∧ (T.levels.map (fun L => (tripsSpec a L.key).length)).sum ≤ 100 ∧ varsOf (colRegs T.regressors) = vars)
      | _ => false) = true) (hp : ((allRegs E0 a).map (fun f => (idxOf E0 a f).length)).prod ≤ 2 ^ 53) (hne : (a.db[1]?.map (fun p => decide (tripsSpec a (levelKey a p.2) = []))) = some false) (d : Nat → Nat → Nat) {n m : Nat} (hn : 0 < n) (hm : 0 < m) :
    ∃ out, out ≠ [] ∧ LineRun a vars (fun r => .ok r) (fun v w => .ok (d v w)) (fun x y => decide (x < y)) out :=
  lineRun_regs ha hfl (by rw [hrg]; intro f hf; cases hf) (by rw [hrg]; intro f hf; cases hf) (by rw [hrg]; intro f hf; cases hf) hpos hft hT hp hne d hn hm

theorem lineRun_exists {a : Args Nat} (ha : a.OK) (hfl : a.filters = []) (hrg : a.regressors = []) (hpos : ∀ (i : Nat) (p : Nat × Row), a.db[i]? = some p → p.1 = i) (hft : a.feat.length = a.db.length) {vars : List Var}
    (hT : (match init E0 a with
      | .ok T => decide ((∀ L ∈ T.levels, (itemsOf a L.key).length ≤ 128) ∧ (T.levels.map (fun L => (tripsSpec a L.key).length)).sum ≤ 100 ∧ varsOf (colRegs T.regressors) = vars)
      | _ => false) = true) (hp : ((allRegs E0 a).map (fun f => (idxOf E0 a f).length)).prod ≤ 2 ^ 53) (hne : (a.db[1]?.map (fun p => decide (tripsSpec a (levelKey a p.2) = []))) = some false) (d : Nat → Nat → Nat) {n m : Nat} (hn : 0 < n) (hm : 0 < m) :
    ∃ out, out ≠ [] ∧ LineRun a vars (fun r => .ok r) (fun v w => .ok (d v w)) (fun x y => decide (x < y)) out :=
  lineRun_filters ha (by rw [hfl]; intro f hf; cases hf) hrg hpos hft hT hp hne d hn hm

/-- C114, example: the table of `ex2` and the same table with its first and last lines exchanged, run with other numbers of cpus and other buffers: there are results, and they have the same rows -/
example : ∃ out out', out ≠ [] ∧ LineRun ex2 [("on", .one), ("ac", .one), ("on", .two), ("ac", .two)] (fun r => .ok r) (fun v w => .ok (v % (w + 2))) (fun x y : Nat => decide (x < y)) out ∧
    LineRun ex2Swap [("on", .one), ("ac", .one), ("on", .two), ("ac", .two)] (fun r => .ok r) (fun v w => .ok (v % (w + 2))) (fun x y : Nat => decide (x < y)) out' ∧ out'.Perm out := by
  obtain ⟨out, hne, h⟩ := lineRun_exists ex2_ok rfl rfl ex2_pos (by decide +kernel) (vars := [("on", .one), ("ac", .one), ("on", .two), ("ac", .two)]) (by decide +kernel) (by decide +kernel) (by decide +kernel) (fun v w => v % (w + 2)) (n := 2) (m := 3) (by omega) (by omega)
  obtain ⟨out', -, h'⟩ := lineRun_exists ex2Swap_ok rfl rfl (by
    intro i p hp
    have : ∀ i < 9, (ex2Swap.db[i]?.map (·.1)) = some i := by decide +kernel
    have hi : i < 9 := (List.getElem?_eq_some_iff.mp hp).1
    have := this i hi
    rw [hp] at this
    exact Option.some.inj this) (by decide +kernel) (vars := [("on", .one), ("ac", .one), ("on", .two), ("ac", .two)]) (by decide +kernel) (by decide +kernel) (by decide +kernel) (fun v w => v % (w + 2)) (n := 3) (m := 7) (by omega) (by omega)
  refine ⟨out, out', hne, h, h', C114_order_partial h h' rfl rfl rfl rfl rfl (Equiv.swap 0 8) ?_ ?_⟩
  · intro i
    match i with
    | 0 | 1 | 2 | 3 | 4 | 5 | 6 | 7 | 8 => rfl
    | n + 9 => rw [Equiv.swap_apply_of_ne_of_ne (by omega) (by omega)]; rfl
  · intro i
    match i with
    | 0 | 1 | 2 | 3 | 4 | 5 | 6 | 7 | 8 => rfl
    | n + 9 => rw [Equiv.swap_apply_of_ne_of_ne (by omega) (by omega)]; rfl

/-- C114 with a threshold, example: the task `ex2` with threshold 2: there are results, and their rows are those of at most two triplets of lines for each combination -/
example : ∃ (T : Task.Task Nat) (F : File) (S : List Int) (rows : List OutRow), init E0 ex2 = .ok T ∧
    RanT 2 (choices0 2 3) E0 T (fun r => .ok r) (fun v w => .ok (v % (w + 2))) (fun x y : Nat => decide (x < y)) F S ∧ collapse insArgsort ((colRegs T.regressors).map (fun _ => labels0)) F S = .ok rows ∧ rows ≠ [] ∧
    ∃ K : List (List Val × List Nat), K.Nodup ∧ (∀ k, k ∈ K ↔ ∃ u, RowTriplet ex2.cols ex2.on ex2.across ex2.by_ ex2.filters (colRegs T.regressors) (ex2.db.map (·.2)) k u) ∧
      List.Forall₂ (fun k o => IsSampledRow 2 (RowTriplet ex2.cols ex2.on ex2.across ex2.by_ ex2.filters (colRegs T.regressors) (ex2.db.map (·.2)) k) (fun x y : Nat => decide (x < y)) (Spec.recDist (fun r => .ok r) (fun v w => .ok (v % (w + 2))))
        ex2.feat ((colRegs T.regressors).map (fun _ => labels0)) k o) K rows := by
  obtain ⟨T, F, S, rows, h1, hr, o1, hne⟩ := ex2_runs (fun _ v w => v % (w + 2))
  have hlt : ∀ x y : Nat, decide (x < y) = true → decide (y < x) = false := by intro x y h; simp at h ⊢; omega
  obtain ⟨rows', r1, -, r3⟩ := C114_threshold_partial E0_lawful ex2_ok (.of_not_bare (by intro f hf; cases hf)) h1 ex2_pos (by decide +kernel) (by intro f hf; cases hf) (by decide) (by decide) (idx := fun _ => labels0)
    (fun f hf => ⟨by decide, fun L hL t ht => ex2_regs h1 f hf L hL t ht⟩) (by decide +kernel) (ex2_sizes h1) (threshold := 2) (by omega) (ex2_fit h1 2) (choices0_lawful (n := 2) (m := 3) (by omega)) N0_exact hlt (hr true)
  have := (o1 true).symm.trans r1
  cases this
  exact ⟨T, F true, S true, rows true, h1, hr true, o1 true, hne, r3⟩

end ABX.Pipeline

#print axioms ABX.Pipeline.C114_rows_partial
#print axioms ABX.Pipeline.C114_threshold_partial
#print axioms ABX.Pipeline.C114_order_partial
