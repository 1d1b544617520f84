import Verif.Proofs.RowFilters
/-!
C117: what further filters do to the results.
-/
namespace ABX.Pipeline
open ExtSort ABX.Task Pairs SideOps Sampler Distances Score EndToEnd Analyze F64 ABX.Spec
variable {ρ φ δ : Type}

/-- C117: two runs without threshold on the same table, the second with further filters (triplets that pass its filters pass those of the first): every row of the second has a row of the first with the same labels, and at least as many triplets.
Missing: as in C114_order_partial. -/
theorem C117_fewer_partial {a a' : Args ρ} {vars : List Var} {getFeat : ρ → Except Err φ} {distance : φ → φ → Except Err δ} {lt : δ → δ → Bool} {out out' : List OutRow} (h : LineRun a vars getFeat distance lt out)
    (h' : LineRun a' vars getFeat distance lt out') (hc : a'.cols = a.cols) (hon : a'.on = a.on) (hac : a'.across = a.across) (hby : a'.by_ = a.by_) (hdb : a'.db = a.db)
    (hfs : ∀ rA ∈ a.db.map (·.2), ∀ rB ∈ a.db.map (·.2), ∀ rX ∈ a.db.map (·.2), (∀ f ∈ a'.filters, holds a.cols f rA rB rX = true) → ∀ f ∈ a.filters, holds a.cols f rA rB rX = true) :
    ∀ o' ∈ out', ∃ o ∈ out, o.by_ = o'.by_ ∧ o.labels = o'.labels ∧ o'.n ≤ o.n := by
  obtain ⟨e, he, h⟩ := h.rows
  obtain ⟨e', he', h'⟩ := h'.rows
  rw [hc, hon, hac, hby] at h'
  intro o' ho'
  obtain ⟨u, rA, rB, rX, i1, i2, i3, hu, g'⟩ := rowsOf_mem h' ho'
  have hA' := List.mem_of_getElem? i1
  have hB' := List.mem_of_getElem? i2
  have hX' := List.mem_of_getElem? i3
  have hA := hdb ▸ hA'
  have hB := hdb ▸ hB'
  have hX := hdb ▸ hX'
  have sub : ∀ u, RowTriplet a.cols a.on a.across a.by_ a'.filters (vars.map (columnReg e' a'.db)) (a'.db.map (·.2)) (combo e' a' vars a.cols a.by_ rA rB rX) u →
      RowTriplet a.cols a.on a.across a.by_ a.filters (vars.map (columnReg e a.db)) (a.db.map (·.2)) (combo e a vars a.cols a.by_ rA rB rX) u := by
    intro u
    rw [rowTriplet_labels he' hA' hB' hX', rowTriplet_labels he hA hB hX, hdb]
    rintro ⟨⟨sA, sB, sX, j1, j2, j3, e1, e2, l, f⟩, hk⟩
    exact ⟨⟨sA, sB, sX, j1, j2, j3, e1, e2, l, hfs _ (List.mem_of_getElem? j1) _ (List.mem_of_getElem? j2) _ (List.mem_of_getElem? j3) f⟩, hk⟩
  obtain ⟨o, ho, g⟩ := rowsOf_of h (sub u hu)
  obtain ⟨b1, l1⟩ := isRow_labels he hA hB hX g
  obtain ⟨b2, l2⟩ := isRow_labels he' hA' hB' hX' g'
  refine ⟨o, ho, b1.trans b2.symm, l1.trans l2.symm, ?_⟩
  obtain ⟨U, -, m, -, -, -, n, -⟩ := g
  obtain ⟨U', d', m', -, -, -, n', -⟩ := g'
  rw [n, n', ← List.length_map (f := (·.1)) (as := U'), ← List.length_map (f := (·.1)) (as := U)]
  exact (d'.subperm (fun u hu => (m u).mpr (sub u ((m' u).mp hu)))).length_le

/-- C117: two runs without threshold on the same table and records, the second with further filters that are a condition `keep` on the labels of the row of a triplet: its results are the rows of the first whose labels meet the condition, unchanged, in
some order.  Missing: as in C114_order_partial. -/
theorem C117_labels_partial {a a' : Args ρ} {vars : List Var} {getFeat : ρ → Except Err φ} {distance : φ → φ → Except Err δ} {lt : δ → δ → Bool} {out out' : List OutRow} (h : LineRun a vars getFeat distance lt out)
    (h' : LineRun a' vars getFeat distance lt out') (hc : a'.cols = a.cols) (hon : a'.on = a.on) (hac : a'.across = a.across) (hby : a'.by_ = a.by_) (hdb : a'.db = a.db) (hfeat : a'.feat = a.feat) (keep : List Val → List Val → Bool)
    (hfs : ∀ u rA rB rX, (a.db.map (·.2))[u.1]? = some rA → (a.db.map (·.2))[u.2.1]? = some rB → (a.db.map (·.2))[u.2.2]? = some rX → LineTriplet a.cols a.on a.across a.by_ [] (a.db.map (·.2)) u →
      ((∀ f ∈ a'.filters, holds a.cols f rA rB rX = true) ↔ (∀ f ∈ a.filters, holds a.cols f rA rB rX = true) ∧ keep (byLabels a.by_ rA) (vars.map (sem a.cols rA rB rX)) = true)) :
    out'.Perm (out.filter (fun o => keep o.by_ o.labels)) := by
  obtain ⟨e, he, h⟩ := h.rows
  obtain ⟨e', he', h'⟩ := h'.rows
  rw [hc, hon, hac, hby, hfeat] at h'
  have same : ∀ {e : Env} (b : Args ρ), e.Lawful → List.Forall₂ (fun f f' => SameLabel a.cols (b.db.map (·.2)) (f, idxOf e b f) (f', idxOf e b f')) (vars.map (columnReg e b.db)) (vars.map (columnReg e b.db)) := by
    intro e b he
    rw [List.forall₂_map_left_iff, List.forall₂_map_right_iff, List.forall₂_same]
    exact fun v _ => ⟨(he.sort _).nodup_iff.mpr (List.nodup_dedup _), (he.sort _).nodup_iff.mpr (List.nodup_dedup _), fun _ hA _ hB _ hX => ⟨_, column_label he v hA hB hX, column_label he v hA hB hX⟩⟩
  have line : ∀ u, LineTriplet a.cols a.on a.across a.by_ a'.filters (a.db.map (·.2)) u ↔ LineTriplet a.cols a.on a.across a.by_ a.filters (a.db.map (·.2)) u ∧
      ∀ sA sB sX, (a.db.map (·.2))[u.1]? = some sA → (a.db.map (·.2))[u.2.1]? = some sB → (a.db.map (·.2))[u.2.2]? = some sX → keep (byLabels a.by_ sA) (vars.map (sem a.cols sA sB sX)) = true := by
    intro u
    constructor
    · rintro ⟨sA, sB, sX, j1, j2, j3, e1, e2, l, f⟩
      have q := (hfs u sA sB sX j1 j2 j3 ⟨sA, sB, sX, j1, j2, j3, e1, e2, l, by intro f hf; cases hf⟩).mp f
      refine ⟨⟨sA, sB, sX, j1, j2, j3, e1, e2, l, q.1⟩, fun tA tB tX k1 k2 k3 => ?_⟩
      rw [j1] at k1; rw [j2] at k2; rw [j3] at k3
      cases k1; cases k2; cases k3
      exact q.2
    · rintro ⟨⟨sA, sB, sX, j1, j2, j3, e1, e2, l, f⟩, hk⟩
      exact ⟨sA, sB, sX, j1, j2, j3, e1, e2, l, (hfs u sA sB sX j1 j2 j3 ⟨sA, sB, sX, j1, j2, j3, e1, e2, l, by intro f hf; cases hf⟩).mpr ⟨f, hk _ _ _ j1 j2 j3⟩⟩
  have key : ∀ {rA rB rX : Row}, rA ∈ a.db.map (·.2) → rB ∈ a.db.map (·.2) → rX ∈ a.db.map (·.2) → keep (byLabels a.by_ rA) (vars.map (sem a.cols rA rB rX)) = true → ∀ u,
      (RowTriplet a.cols a.on a.across a.by_ a'.filters (vars.map (columnReg e' a'.db)) (a'.db.map (·.2)) (combo e' a' vars a.cols a.by_ rA rB rX) u ↔
      RowTriplet a.cols a.on a.across a.by_ a.filters (vars.map (columnReg e a.db)) (a.db.map (·.2)) (combo e a vars a.cols a.by_ rA rB rX) u) := by
    intro rA rB rX hA hB hX hk u
    rw [rowTriplet_labels he' (by rw [hdb]; exact hA) (by rw [hdb]; exact hB) (by rw [hdb]; exact hX), rowTriplet_labels he hA hB hX, hdb, line]
    constructor
    · rintro ⟨⟨p, -⟩, q⟩
      exact ⟨p, q⟩
    · rintro ⟨p, q⟩
      refine ⟨⟨p, fun sA sB sX j1 j2 j3 => ?_⟩, q⟩
      obtain ⟨q1, q2⟩ := q sA sB sX j1 j2 j3
      rw [q1, q2]
      exact hk
  rw [List.perm_ext_iff_of_nodup (rowsOf_nodup (same a' he') h') ((rowsOf_nodup (same a he) h).filter _)]
  intro o
  rw [List.mem_filter]
  constructor
  · intro ho
    obtain ⟨u, rA, rB, rX, i1, i2, i3, hu, g⟩ := rowsOf_mem h' ho
    have hA' := List.mem_of_getElem? i1
    have hB' := List.mem_of_getElem? i2
    have hX' := List.mem_of_getElem? i3
    have hA := hdb ▸ hA'
    have hB := hdb ▸ hB'
    have hX := hdb ▸ hX'
    have hk : keep (byLabels a.by_ rA) (vars.map (sem a.cols rA rB rX)) = true := by
      have := hu.1
      rw [hdb] at this i1 i2 i3
      exact ((line u).mp this).2 _ _ _ i1 i2 i3
    obtain ⟨b, l⟩ := isRow_labels he' hA' hB' hX' g
    obtain ⟨o1, ho1, g1⟩ := rowsOf_of h ((key hA hB hX hk u).mp hu)
    have := isRow_unique (isRow_codes he' he (fun u => (key hA hB hX hk u).symm) hA' hB' hX' hA hB hX g) g1 (by simp)
    rw [b, l]
    exact ⟨this ▸ ho1, hk⟩
  · rintro ⟨ho, hk⟩
    obtain ⟨u, rA, rB, rX, i1, i2, i3, hu, g⟩ := rowsOf_mem h ho
    have hA := List.mem_of_getElem? i1
    have hB := List.mem_of_getElem? i2
    have hX := List.mem_of_getElem? i3
    have hA' : rA ∈ a'.db.map (·.2) := by rw [hdb]; exact hA
    have hB' : rB ∈ a'.db.map (·.2) := by rw [hdb]; exact hB
    have hX' : rX ∈ a'.db.map (·.2) := by rw [hdb]; exact hX
    obtain ⟨b, l⟩ := isRow_labels he hA hB hX g
    rw [b, l] at hk
    obtain ⟨o1, ho1, g1⟩ := rowsOf_of h' ((key hA hB hX hk u).mpr hu)
    have := isRow_unique (isRow_codes he he' (key hA hB hX hk) hA hB hX hA' hB' hX' g) g1 (by simp)
    exact this ▸ ho1

/-! ### example -/

/-- the task of `ex2` with the filter sp == 0 -/
def ex2Zero : Args Nat := { ex2 with filters := [keepF] }

theorem ex2Zero_ok : ex2Zero.OK := by
  refine Args.OK.flat rfl (by decide +kernel) ?_ (by intro f hf; cases hf) ?_ (by intro f hf; cases hf) (by decide +kernel)
  · intro f hf
    rw [List.mem_singleton.mp hf]
    constructor <;> simp [keepF, ex2Zero, ex2, args0]
  · intro f hf v hv
    rw [List.mem_singleton.mp hf] at hv
    rw [List.mem_singleton.mp hv]
    decide +kernel

/- the results of `ex2Zero` are the rows of `ex2` of the speaker 0 -/
example : ∃ out out', out' ≠ [] ∧ LineRun ex2 [("on", .one), ("ac", .one), ("on", .two), ("ac", .two)] (fun r => .ok r) (fun v w => .ok (v % (w + 2))) (fun x y : Nat => decide (x < y)) out ∧
    LineRun ex2Zero [("on", .one), ("ac", .one), ("on", .two), ("ac", .two)] (fun r => .ok r) (fun v w => .ok (v % (w + 2))) (fun x y : Nat => decide (x < y)) out' ∧ out'.Perm (out.filter (fun o => o.by_ == [.int 0])) := by
  obtain ⟨out, -, h⟩ := lineRun_exists ex2_ok rfl rfl ex2_pos (by decide +kernel) (vars := [("on", .one), ("ac", .one), ("on", .two), ("ac", .two)]) (by decide +kernel) (by decide +kernel) (by decide +kernel) (fun v w => v % (w + 2)) (n := 2) (m := 3) (by omega) (by omega)
  obtain ⟨out', hne, h'⟩ := lineRun_filters ex2Zero_ok (by intro f hf; rw [List.mem_singleton.mp hf]; decide +kernel) rfl ex2_pos (by decide +kernel) (vars := [("on", .one), ("ac", .one), ("on", .two), ("ac", .two)]) (by decide +kernel) (by decide +kernel)
    (by decide +kernel) (fun v w => v % (w + 2)) (n := 3) (m := 7) (by omega) (by omega)
  refine ⟨out, out', hne, h, h', C117_labels_partial h h' rfl rfl rfl rfl rfl rfl (fun b _ => b == [.int 0]) ?_⟩
  rintro u rA rB rX i1 i2 i3 ⟨sA, sB, sX, j1, j2, j3, e1, e2, -, -⟩
  rw [i1] at j1; rw [i2] at j2; rw [i3] at j3
  cases j1; cases j2; cases j3
  have e1 : rB "sp" = rA "sp" := (List.cons.inj e1).1
  have e2 : rX "sp" = rA "sp" := (List.cons.inj e2).1
  have hp : perItem ex2.cols keepF := by decide +kernel
  show (∀ f ∈ [keepF], holds ex2.cols f rA rB rX = true) ↔ (∀ f ∈ ([] : List (DBFun Bool)), holds ex2.cols f rA rB rX = true) ∧ ([rA "sp"] == [Val.int 0]) = true
  simp only [List.mem_singleton, forall_eq, List.not_mem_nil, false_imp_iff, implies_true, true_and]
  unfold holds
  rw [if_pos hp]
  show ((rA "sp" == .int 0) && (rB "sp" == .int 0) && (rX "sp" == .int 0)) = true ↔ _
  rw [e1, e2]
  simp

end ABX.Pipeline

#print axioms ABX.Pipeline.C117_fewer_partial
#print axioms ABX.Pipeline.C117_labels_partial
