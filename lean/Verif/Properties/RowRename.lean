import Verif.Proofs.RowRename
/-!
C116: the names of the labels do not matter.
-/
namespace ABX.Pipeline
open ExtSort ABX.Task Pairs SideOps Sampler Distances Score EndToEnd Analyze F64 ABX.Spec
variable {ρ φ δ δ' : Type}

/-- C116: two runs without threshold, the second on the table with other names for the labels of every column (different labels keep different names), with filters that hold of the same triplets, and with distances that compare as those of the first: the
results have the same rows, with the new names, in some order, if their columns are in the same order.  Missing: as in C114_order_partial. -/
theorem C116_rename_partial {a a' : Args ρ} {vars : List Var} {getFeat : ρ → Except Err φ} {distance : φ → φ → Except Err δ} {distance' : φ → φ → Except Err δ'} {lt : δ → δ → Bool} {lt' : δ' → δ' → Bool} {out out' : List OutRow}
    (h : LineRun a vars getFeat distance lt out) (h' : LineRun a' vars getFeat distance' lt' out') (hc : a'.cols = a.cols) (hon : a'.on = a.on) (hac : a'.across = a.across) (hby : a'.by_ = a.by_) (hfeat : a'.feat = a.feat)
    {ren : String → Val → Val} (hren : ∀ c, Function.Injective (ren c)) (hrows : a'.db.map (·.2) = (a.db.map (·.2)).map (renLine ren))
    (hfs : ∀ rA ∈ a.db.map (·.2), ∀ rB ∈ a.db.map (·.2), ∀ rX ∈ a.db.map (·.2), ((∀ f ∈ a'.filters, holds a.cols f (renLine ren rA) (renLine ren rB) (renLine ren rX) = true) ↔ ∀ f ∈ a.filters, holds a.cols f rA rB rX = true))
    {g : δ → δ'} (hd : ∀ v w d, distance v w = .ok d → distance' v w = .ok (g d)) (hg : ∀ d d', lt' (g d) (g d') = lt d d') : out'.Perm (out.map (renOut ren a.by_ vars)) := by
  obtain ⟨e, he, h⟩ := h.rows
  obtain ⟨e', he', h'⟩ := h'.rows
  rw [hc, hon, hac, hby] at h'
  have same : ∀ {e : Env} (b : Args ρ), e.Lawful → List.Forall₂ (fun f f' => SameLabel a.cols (b.db.map (·.2)) (f, idxOf e b f) (f', idxOf e b f')) (vars.map (columnReg e b.db)) (vars.map (columnReg e b.db)) := by
    intro e b he
    rw [List.forall₂_map_left_iff, List.forall₂_map_right_iff, List.forall₂_same]
    exact fun v _ => ⟨(he.sort _).nodup_iff.mpr (List.nodup_dedup _), (he.sort _).nodup_iff.mpr (List.nodup_dedup _), fun _ hA _ hB _ hX => ⟨_, column_label he v hA hB hX, column_label he v hA hB hX⟩⟩
  have hdist : ∀ r s d, Spec.recDist getFeat distance r s = .ok d → Spec.recDist getFeat distance' r s = .ok (g d) := by
    intro r s d hrs
    unfold Spec.recDist at hrs ⊢
    cases h1 : getFeat r with
    | error x => rw [h1] at hrs; cases hrs
    | ok p =>
      cases h2 : getFeat s with
      | error x => rw [h1, h2] at hrs; cases hrs
      | ok q =>
        rw [h1, h2] at hrs
        exact hd p q d hrs
  refine rowsOf_ren hren he he' hrows hfs ?_ h h' (rowsOf_nodup (same a he) h) (rowsOf_nodup (same a' he') h')
  rintro u w ⟨rA, rB, rX, d, d', i1, i2, i3, d1, d2, rfl⟩
  rw [hfeat]
  exact ⟨rA, rB, rX, g d, g d', i1, i2, i3, hdist _ _ _ d1, hdist _ _ _ d2, by rw [hg, hg]⟩

/-! ### example -/

/-- new names: the letters a, b, c of "on" are rotated, the numbers of "sp" negated -/
def ex2Names (c : String) (x : Val) : Val :=
  if c = "on" then (if x = .str "a" then .str "b" else if x = .str "b" then .str "c" else if x = .str "c" then .str "a" else x) else
  if c = "sp" then (match x with | .int n => .int (-n) | y => y) else x

theorem ex2Names_inj (c : String) : Function.Injective (ex2Names c) := by
  intro x y h
  unfold ex2Names at h
  split at h
  · split_ifs at h <;> simp_all
  · split at h
    · cases x <;> cases y <;> simp_all
    · exact h

/-- the table of `ex2` with the new names -/
def ex2Ren : Args Nat := args0 [mk "a" 3 (-1), mk "b" 1, mk "b" 1, mk "c" 1, mk "c" 1, mk "b" 2, mk "b" 1 (-2), mk "c" 1 (-2), mk "b" 2 (-2)] [] [] ["sp"]

theorem ex2Ren_ok : ex2Ren.OK := Args.OK.flat rfl (by decide +kernel) (by intro f hf; cases hf) (by intro f hf; cases hf) (by intro f hf; cases hf) (by intro f hf; cases hf) (by decide +kernel)

theorem ren_mk (on : String) (ac sp : Int) : renLine ex2Names (mk on ac sp) = mk (if on = "a" then "b" else if on = "b" then "c" else if on = "c" then "a" else on) ac (-sp) := by
  funext c
  unfold renLine
  by_cases h1 : c = "on"
  · subst h1
    show (if Val.str on = .str "a" then Val.str "b" else if Val.str on = .str "b" then .str "c" else if Val.str on = .str "c" then .str "a" else .str on) = Val.str _
    simp only [Val.str.injEq]
    split_ifs <;> rfl
  · by_cases h2 : c = "sp"
    · subst h2
      rfl
    · unfold ex2Names mk rowOf
      rw [if_neg h1, if_neg h2]
      simp only [List.lookup_cons, beq_eq_false_iff_ne.mpr h1, beq_eq_false_iff_ne.mpr h2]

/- the results on `ex2Ren`, with distances 2d + 1, are those on `ex2` with the new names -/
example : ∃ out out', out ≠ [] ∧ LineRun ex2 [("on", .one), ("ac", .one), ("on", .two), ("ac", .two)] (fun r => .ok r) (fun v w => .ok (v % (w + 2))) (fun x y : Nat => decide (x < y)) out ∧
    LineRun ex2Ren [("on", .one), ("ac", .one), ("on", .two), ("ac", .two)] (fun r => .ok r) (fun v w => .ok (2 * (v % (w + 2)) + 1)) (fun x y : Nat => decide (x < y)) out' ∧
    out'.Perm (out.map (renOut ex2Names ["sp"] [("on", .one), ("ac", .one), ("on", .two), ("ac", .two)])) := by
  obtain ⟨out, hne, h⟩ := lineRun_exists ex2_ok rfl rfl ex2_pos (by decide +kernel) (vars := [("on", .one), ("ac", .one), ("on", .two), ("ac", .two)]) (by decide +kernel) (by decide +kernel) (by decide +kernel) (fun v w => v % (w + 2)) (n := 2) (m := 3) (by omega) (by omega)
  obtain ⟨out', -, h'⟩ := lineRun_exists ex2Ren_ok rfl rfl (by
    intro i p hp
    have : ∀ i < 9, (ex2Ren.db[i]?.map (·.1)) = some i := by decide +kernel
    have hi : i < 9 := (List.getElem?_eq_some_iff.mp hp).1
    have := this i hi
    rw [hp] at this
    exact Option.some.inj this) (by decide +kernel) (vars := [("on", .one), ("ac", .one), ("on", .two), ("ac", .two)]) (by decide +kernel) (by decide +kernel) (by decide +kernel) (fun v w => 2 * (v % (w + 2)) + 1) (n := 3) (m := 7) (by omega) (by omega)
  refine ⟨out, out', hne, h, h', C116_rename_partial h h' rfl rfl rfl rfl rfl ex2Names_inj ?_ (fun _ _ _ _ _ _ => ⟨fun _ f hf => absurd hf (List.not_mem_nil (a := f)), fun _ f hf => absurd hf (List.not_mem_nil (a := f))⟩) (g := fun d => 2 * d + 1) ?_ ?_⟩
  · show [mk "a" 3 (-1), mk "b" 1, mk "b" 1, mk "c" 1, mk "c" 1, mk "b" 2, mk "b" 1 (-2), mk "c" 1 (-2), mk "b" 2 (-2)] = [mk "c" 3 1, mk "a" 1, mk "a" 1, mk "b" 1, mk "b" 1, mk "a" 2, mk "a" 1 2, mk "b" 1 2, mk "a" 2 2].map (renLine ex2Names)
    simp only [List.map_cons, List.map_nil, ren_mk]
    rfl
  · rintro v w d ⟨⟩
    rfl
  · intro d d'
    rw [Bool.eq_iff_iff, decide_eq_true_eq, decide_eq_true_eq]
    omega

end ABX.Pipeline

#print axioms ABX.Pipeline.C116_rename_partial
