import Verif.Proofs.RowLevels
/-!
C115: the rows of a level depend only on the lines of the level.
-/
namespace ABX.Pipeline
open ExtSort ABX.Task Pairs SideOps Sampler Distances Score EndToEnd Analyze F64 ABX.Spec
variable {ρ φ δ : Type}

/-- C115: two runs without threshold on tables that have the lines of the level `key` in common (the line `i` of the one is the line `σ i` of the other, with the same record; the other lines may be any): the results have the same rows of this level, in some
order, if their columns are in the same order.  Missing: as in C114_order_partial. -/
theorem C115_levels_partial {a a' : Args ρ} {vars : List Var} {getFeat : ρ → Except Err φ} {distance : φ → φ → Except Err δ} {lt : δ → δ → Bool} {out out' : List OutRow} (h : LineRun a vars getFeat distance lt out)
    (h' : LineRun a' vars getFeat distance lt out') (hc : a'.cols = a.cols) (hon : a'.on = a.on) (hac : a'.across = a.across) (hby : a'.by_ = a.by_) (hfs : a'.filters = a.filters) (key : List Val)
    (σ : Equiv.Perm Nat) (hσ : ∀ i r, byLabels a.by_ r = key → ((a'.db.map (·.2))[i]? = some r ↔ (a.db.map (·.2))[σ i]? = some r)) (hρ : ∀ i r, byLabels a.by_ r = key → (a'.db.map (·.2))[i]? = some r → a'.feat[i]? = a.feat[σ i]?) :
    (out'.filter (fun o => decide (o.by_ = key))).Perm (out.filter (fun o => decide (o.by_ = key))) := by
  obtain ⟨e, he, h⟩ := h.rows
  obtain ⟨e', he', h'⟩ := h'.rows
  rw [hc, hon, hac, hby, hfs] at h'
  have hσ' : ∀ i r, byLabels a.by_ r = key → ((a.db.map (·.2))[i]? = some r ↔ (a'.db.map (·.2))[σ.symm i]? = some r) := fun i r hk => by rw [hσ _ _ hk]; simp
  have hρ' : ∀ i r, byLabels a.by_ r = key → (a.db.map (·.2))[i]? = some r → a.feat[i]? = a'.feat[σ.symm i]? := fun i r hk hi => by rw [hρ _ _ hk ((hσ' _ _ hk).mp hi)]; simp
  have hreg : ∀ {e e' : Env} {b b' : Args ρ} {R : List Row}, e.Lawful → e'.Lawful → (∀ r ∈ R, r ∈ b.db.map (·.2)) → (∀ r ∈ R, r ∈ b'.db.map (·.2)) →
      List.Forall₂ (fun f f' => SameLabel a.cols R (f, idxOf e b f) (f', idxOf e' b' f')) (vars.map (columnReg e b.db)) (vars.map (columnReg e' b'.db)) := by
    intro e e' b b' R he he' hm hm'
    rw [List.forall₂_map_left_iff, List.forall₂_map_right_iff, List.forall₂_same]
    exact fun v _ => ⟨(he.sort _).nodup_iff.mpr (List.nodup_dedup _), (he'.sort _).nodup_iff.mpr (List.nodup_dedup _),
      fun _ hA _ hB _ hX => ⟨_, column_label he v (hm _ hA) (hm _ hB) (hm _ hX), column_label he' v (hm' _ hA) (hm' _ hB) (hm' _ hX)⟩⟩
  have mem : ∀ {l l' : List Row} {τ : Equiv.Perm Nat}, (∀ i r, byLabels a.by_ r = key → (l[i]? = some r ↔ l'[τ i]? = some r)) → ∀ r ∈ l.filter (fun r => decide (byLabels a.by_ r = key)), r ∈ l' := by
    intro l l' τ hl r hr
    obtain ⟨r1, r2⟩ := List.mem_filter.mp hr
    obtain ⟨i, hi⟩ := List.getElem?_of_mem r1
    exact List.mem_of_getElem? ((hl i r (by simpa using r2)).mp hi)
  have r1 := hreg (b := a) (b' := a') he he' (fun r hr => (List.mem_filter.mp hr).1) (mem hσ')
  have r2 := hreg (b := a') (b' := a) he' he (fun r hr => (List.mem_filter.mp hr).1) (mem hσ)
  have n1 := rowsOf_nodup (hreg (b := a) (b' := a) he he (fun _ h => h) (fun _ h => h)) h
  have n2 := rowsOf_nodup (hreg (b := a') (b' := a') he' he' (fun _ h => h) (fun _ h => h)) h'
  rw [List.perm_ext_iff_of_nodup (n2.filter _) (n1.filter _)]
  intro o
  simp only [List.mem_filter, decide_eq_true_eq]
  exact ⟨fun ⟨ho, hk⟩ => ⟨rowsOf_level σ.symm hσ' hρ' r2 h' h o ho hk, hk⟩, fun ⟨ho, hk⟩ => ⟨rowsOf_level σ hσ hρ r1 h h' o ho hk, hk⟩⟩

/-- a combination of a triplet has a row -/
theorem rowsOf_row {c : Cols} {on : String} {across by_ : List String} {filters : List (DBFun Bool)} {regs : List (DBFun Nat)} {rows : List Row} {recs : List ρ} {lt : δ → δ → Bool} {dist : ρ → ρ → Except Err δ} {L : List (List Val)} {out : List OutRow}
    (h : RowsOf c on across by_ filters regs rows lt dist recs L out) {k : List Val × List Nat} {u : Nat × Nat × Nat} (hu : RowTriplet c on across by_ filters regs rows k u) : ∃ o ∈ out, o.by_ = k.1 := by
  obtain ⟨K, -, k2, k3⟩ := h
  obtain ⟨i, hi⟩ := List.getElem?_of_mem ((k2 k).mpr ⟨u, hu⟩)
  obtain ⟨o, g3, -, -, -, -, -, b, -⟩ := Distances.forall₂_getElem k3 hi
  exact ⟨o, List.mem_of_getElem? g3, b⟩

/-- the table of `ex2` with other lines of the speakers 1 and 2 -/
def ex2Lev : Args Nat := { args0 [mk "d" 9 1, mk "a" 1, mk "a" 1, mk "b" 1, mk "b" 1, mk "a" 2, mk "e" 5 2] [] [] ["sp"] with feat := [50, 1, 2, 3, 4, 5, 60] }

theorem ex2Lev_ok : ex2Lev.OK := Args.OK.flat rfl (by decide +kernel) (by intro f hf; cases hf) (by intro f hf; cases hf) (by intro f hf; cases hf) (by intro f hf; cases hf) (by decide +kernel)

/- the rows of the speaker 0 in `ex2` and `ex2Lev` -/
example : ∃ out out', LineRun ex2 [("on", .one), ("ac", .one), ("on", .two), ("ac", .two)] (fun r => .ok r) (fun v w => .ok (v % (w + 2))) (fun x y : Nat => decide (x < y)) out ∧
    LineRun ex2Lev [("on", .one), ("ac", .one), ("on", .two), ("ac", .two)] (fun r => .ok r) (fun v w => .ok (v % (w + 2))) (fun x y : Nat => decide (x < y)) out' ∧
    out.filter (fun o => decide (o.by_ = [.int 0])) ≠ [] ∧ (out'.filter (fun o => decide (o.by_ = [.int 0]))).Perm (out.filter (fun o => decide (o.by_ = [.int 0]))) := by
  obtain ⟨out, -, h⟩ := lineRun_exists ex2_ok rfl rfl ex2_pos (by decide +kernel) (vars := [("on", .one), ("ac", .one), ("on", .two), ("ac", .two)]) (by decide +kernel) (by decide +kernel) (by decide +kernel) (fun v w => v % (w + 2)) (n := 2) (m := 3) (by omega) (by omega)
  obtain ⟨out', -, h'⟩ := lineRun_exists ex2Lev_ok rfl rfl (by
    intro i p hp
    have : ∀ i < 7, (ex2Lev.db[i]?.map (·.1)) = some i := by decide +kernel
    have hi : i < 7 := (List.getElem?_eq_some_iff.mp hp).1
    have := this i hi
    rw [hp] at this
    exact Option.some.inj this) (by decide +kernel) (vars := [("on", .one), ("ac", .one), ("on", .two), ("ac", .two)]) (by decide +kernel) (by decide +kernel) (by decide +kernel) (fun v w => v % (w + 2)) (n := 3) (m := 7) (by omega) (by omega)
  refine ⟨out, out', h, h', ?_, C115_levels_partial h h' rfl rfl rfl rfl rfl [.int 0] (Equiv.refl Nat) ?_ ?_⟩
  · obtain ⟨e, -, hr⟩ := h.rows
    obtain ⟨o, ho, hb⟩ := rowsOf_row hr (k := ([.int 0], _)) (u := (1, 3, 5)) (rowTriplet_rows.mpr ⟨mk "a" 1, mk "b" 1, mk "a" 2, rfl, rfl, rfl, ⟨by decide +kernel, by decide +kernel, by decide +kernel, by intro f hf; cases hf⟩,
      ⟨by decide +kernel, by decide +kernel, by decide +kernel⟩, rfl⟩)
    exact List.ne_nil_of_mem (List.mem_filter.mpr ⟨ho, by simpa using hb⟩)
  · intro i r hk
    have no : ∀ s : Row, decide (byLabels ["sp"] s = [.int 0]) = false → some s ≠ some r := by
      rintro s hs e
      cases e
      exact of_decide_eq_false hs hk
    match i with
    | 1 | 2 | 3 | 4 | 5 => exact Iff.rfl
    | 0 => exact ⟨fun q => absurd q (no (mk "d" 9 1) (by decide +kernel)), fun q => absurd q (no (mk "c" 3 1) (by decide +kernel))⟩
    | 6 => exact ⟨fun q => absurd q (no (mk "e" 5 2) (by decide +kernel)), fun q => absurd q (no (mk "a" 1 2) (by decide +kernel))⟩
    | 7 => exact ⟨fun q => absurd (show (none : Option Row) = some r from q) nofun, fun q => absurd q (no (mk "b" 1 2) (by decide +kernel))⟩
    | 8 => exact ⟨fun q => absurd (show (none : Option Row) = some r from q) nofun, fun q => absurd q (no (mk "a" 2 2) (by decide +kernel))⟩
    | n + 9 => exact ⟨fun q => absurd (show (none : Option Row) = some r from q) nofun, fun q => absurd (show (none : Option Row) = some r from q) nofun⟩
  · intro i r hk hi
    have no : ∀ s : Row, decide (byLabels ["sp"] s = [.int 0]) = false → some s ≠ some r := by
      rintro s hs e
      cases e
      exact of_decide_eq_false hs hk
    match i with
    | 1 | 2 | 3 | 4 | 5 => rfl
    | 0 => exact absurd hi (no (mk "d" 9 1) (by decide +kernel))
    | 6 => exact absurd hi (no (mk "e" 5 2) (by decide +kernel))
    | n + 7 => exact absurd (show (none : Option Row) = some r from hi) nofun

end ABX.Pipeline

#print axioms ABX.Pipeline.C115_levels_partial
