import Verif.Spec.RowMove
import Verif.Properties.RowSplit
/-!
C119: the columns of 'by' as regressors.
-/
namespace ABX.Pipeline
open ExtSort ABX.Task Pairs SideOps Sampler Distances Score EndToEnd Analyze F64 ABX.Spec
variable {ρ φ δ : Type}

theorem sem_cols {c c' : Cols} (h : c'.on = c.on) (rA rB rX : Row) : sem c' rA rB rX = sem c rA rB rX := by
  funext ⟨n, s⟩
  cases s <;> unfold sem <;> dsimp only
  rw [h]

/-- a column on which the three lines agree -/
theorem sem_same {c : Cols} {rA rB rX : Row} {b : String} (h1 : rB b = rX b) (h2 : rA b = rX b) (s : Ext) : sem c rA rB rX (b, s) = rX b := by
  cases s <;> unfold sem <;> dsimp only <;> first | rfl | exact h1 | exact h2 | (split <;> first | exact h1 | rfl)

/-- C119: a run without threshold with 'by' columns, and one on the same table and records without, with the filters that the three lines agree on these columns in addition and with regressors for the values of X in them (and other such
columns): the results are the same rows, up to their order, the labels of the level being among the labels of the regressors.  Missing: as in C114_order_partial. -/
theorem C119_by_partial {a a' : Args ρ} {vars vars' : List Var} {getFeat : ρ → Except Err φ} {distance : φ → φ → Except Err δ} {lt : δ → δ → Bool} {out out' : List OutRow} (h : LineRun a vars getFeat distance lt out)
    (h' : LineRun a' vars' getFeat distance lt out') (hc : a'.cols.on = a.cols.on) (hon : a'.on = a.on) (hac : a'.across = a.across) (hne : a.by_ ≠ []) (hby : a'.by_ = []) (hdb : a'.db = a.db) (hfeat : a'.feat = a.feat)
    (hfs : ∀ rA ∈ a.db.map (·.2), ∀ rB ∈ a.db.map (·.2), ∀ rX ∈ a.db.map (·.2), ((∀ f ∈ a'.filters, holds a'.cols f rA rB rX = true) ↔ (a.by_.map rB = a.by_.map rA ∧ a.by_.map rX = a.by_.map rA) ∧ ∀ f ∈ a.filters, holds a.cols f rA rB rX = true))
    (hv : ∀ v ∈ vars, v ∈ vars') (hb : ∀ b ∈ a.by_, (b, Ext.X) ∈ vars') (hv' : ∀ v ∈ vars', v ∈ vars ∨ v.1 ∈ a.by_) : out.Perm (out'.map (asLevel a.by_ vars vars')) := by
  obtain ⟨e, he, h⟩ := h.rows
  obtain ⟨e', he', h'⟩ := h'.rows
  rw [hon, hac, hby, hfeat] at h'
  have same : ∀ {vs : List Var} {c : Cols} {e : Env} (b : Args ρ), e.Lawful → List.Forall₂ (fun f f' => SameLabel c (b.db.map (·.2)) (f, idxOf e b f) (f', idxOf e b f')) (vs.map (columnReg e b.db)) (vs.map (columnReg e b.db)) := by
    intro vs c e b he
    rw [List.forall₂_map_left_iff, List.forall₂_map_right_iff, List.forall₂_same]
    exact fun v _ => ⟨(he.sort _).nodup_iff.mpr (List.nodup_dedup _), (he.sort _).nodup_iff.mpr (List.nodup_dedup _), fun _ hA _ hB _ hX => ⟨_, column_label he v hA hB hX, column_label he v hA hB hX⟩⟩
  have nd := rowsOf_nodup (same a he) h
  have nd' := rowsOf_nodup (same a' he') h'
  -- the triplets of lines are the same
  have line : ∀ u, LineTriplet a'.cols a.on a.across [] a'.filters (a.db.map (·.2)) u ↔ LineTriplet a.cols a.on a.across a.by_ a.filters (a.db.map (·.2)) u := by
    intro u
    refine exists_congr fun sA => exists_congr fun sB => exists_congr fun sX => and_congr_right fun j1 => and_congr_right fun j2 => and_congr_right fun j3 => ?_
    rw [hfs _ (List.mem_of_getElem? j1) _ (List.mem_of_getElem? j2) _ (List.mem_of_getElem? j3)]
    simp only [List.map_nil, true_and]
    tauto
  -- the labels of the one determine those of the other
  have agree : ∀ {u sA sB sX}, (a.db.map (·.2))[u.1]? = some sA → (a.db.map (·.2))[u.2.1]? = some sB → (a.db.map (·.2))[u.2.2]? = some sX → LineTriplet a.cols a.on a.across a.by_ a.filters (a.db.map (·.2)) u →
      ∀ b ∈ a.by_, sB b = sX b ∧ sA b = sX b := by
    rintro u sA sB sX j1 j2 j3 ⟨tA, tB, tX, k1, k2, k3, e1, e2, -⟩ b hb
    rw [j1] at k1; rw [j2] at k2; rw [j3] at k3
    cases k1; cases k2; cases k3
    rw [List.map_inj_left] at e1 e2
    exact ⟨(e1 b hb).trans (e2 b hb).symm, (e2 b hb).symm⟩
  have lab : ∀ {sA sB sX rA rB rX : Row}, (∀ b ∈ a.by_, sB b = sX b ∧ sA b = sX b) → (∀ b ∈ a.by_, rB b = rX b ∧ rA b = rX b) →
      ((byLabels a.by_ sA = byLabels a.by_ rA ∧ vars.map (sem a.cols sA sB sX) = vars.map (sem a.cols rA rB rX)) ↔ vars'.map (sem a'.cols sA sB sX) = vars'.map (sem a'.cols rA rB rX)) := by
    intro sA sB sX rA rB rX hs hr
    unfold byLabels
    rw [if_neg hne, if_neg hne, sem_cols hc, sem_cols hc, List.map_inj_left, List.map_inj_left, List.map_inj_left]
    constructor
    · rintro ⟨p, q⟩ ⟨n, s⟩ hvv
      rcases hv' _ hvv with g | g
      · exact q _ g
      · rw [sem_same (hs n g).1 (hs n g).2, sem_same (hr n g).1 (hr n g).2, ← (hs n g).2, ← (hr n g).2]
        exact p n g
    · intro p
      refine ⟨fun b g => ?_, fun v g => p v (hv v g)⟩
      rw [(hs b g).2, (hr b g).2]
      exact p _ (hb b g)
  have key : ∀ {u0 rA rB rX}, (a.db.map (·.2))[u0.1]? = some rA → (a.db.map (·.2))[u0.2.1]? = some rB → (a.db.map (·.2))[u0.2.2]? = some rX → LineTriplet a.cols a.on a.across a.by_ a.filters (a.db.map (·.2)) u0 → ∀ u,
      (RowTriplet a'.cols a.on a.across [] a'.filters (vars'.map (columnReg e' a'.db)) (a'.db.map (·.2)) (combo e' a' vars' a'.cols [] rA rB rX) u ↔
      RowTriplet a.cols a.on a.across a.by_ a.filters (vars.map (columnReg e a.db)) (a.db.map (·.2)) (combo e a vars a.cols a.by_ rA rB rX) u) := by
    intro u0 rA rB rX i1 i2 i3 h0 u
    have hA := List.mem_of_getElem? i1
    have hB := List.mem_of_getElem? i2
    have hX := List.mem_of_getElem? i3
    rw [rowTriplet_labels he' (by rw [hdb]; exact hA) (by rw [hdb]; exact hB) (by rw [hdb]; exact hX), rowTriplet_labels he hA hB hX, hdb, line]
    refine and_congr_right fun hu => forall_congr' fun sA => forall_congr' fun sB => forall_congr' fun sX => imp_congr_right fun j1 => imp_congr_right fun j2 => imp_congr_right fun j3 => ?_
    rw [lab (agree j1 j2 j3 hu) (agree i1 i2 i3 h0)]
    exact and_iff_right rfl
  -- the labels of a row of the second run
  have asl : ∀ {u0 rA rB rX} {p : OutRow}, (a.db.map (·.2))[u0.1]? = some rA → (a.db.map (·.2))[u0.2.1]? = some rB → (a.db.map (·.2))[u0.2.2]? = some rX → LineTriplet a.cols a.on a.across a.by_ a.filters (a.db.map (·.2)) u0 →
      p.labels = vars'.map (sem a'.cols rA rB rX) → (asLevel a.by_ vars vars' p).labels = vars.map (sem a.cols rA rB rX) ∧ (asLevel a.by_ vars vars' p).by_ = byLabels a.by_ rA := by
    intro u0 rA rB rX p i1 i2 i3 h0 hl
    unfold asLevel
    dsimp only
    rw [hl, pickLabels_map hv, pickLabels_map (fun v hvv => by obtain ⟨b, g, rfl⟩ := List.mem_map.mp hvv; exact hb b g), sem_cols hc]
    refine ⟨rfl, ?_⟩
    unfold byLabels
    rw [if_neg hne, List.map_map]
    exact List.map_congr_left fun b g => ((agree i1 i2 i3 h0 b g).2).symm
  -- a row of the second run as one of the first
  have conv : ∀ p ∈ out', ∃ u0 rA rB rX, (a.db.map (·.2))[u0.1]? = some rA ∧ (a.db.map (·.2))[u0.2.1]? = some rB ∧ (a.db.map (·.2))[u0.2.2]? = some rX ∧ LineTriplet a.cols a.on a.across a.by_ a.filters (a.db.map (·.2)) u0 ∧
      p.by_ = [.int 0] ∧ p.labels = vars'.map (sem a'.cols rA rB rX) ∧ asLevel a.by_ vars vars' p ∈ out := by
    intro p hp
    obtain ⟨u, rA, rB, rX, i1, i2, i3, hu, g⟩ := rowsOf_mem h' hp
    rw [hdb] at i1 i2 i3
    have hA := List.mem_of_getElem? i1
    have hB := List.mem_of_getElem? i2
    have hX := List.mem_of_getElem? i3
    have h0 : LineTriplet a.cols a.on a.across a.by_ a.filters (a.db.map (·.2)) u := by
      have := hu.1
      rw [hdb] at this
      exact (line u).mp this
    obtain ⟨b1, l1⟩ := isRow_labels he' (by rw [hdb]; exact hA) (by rw [hdb]; exact hB) (by rw [hdb]; exact hX) g
    refine ⟨u, rA, rB, rX, i1, i2, i3, h0, b1, l1, ?_⟩
    obtain ⟨o, ho, g1⟩ := rowsOf_of h ((key i1 i2 i3 h0 u).mp hu)
    obtain ⟨x1, x2⟩ := asl i1 i2 i3 h0 l1
    obtain ⟨U, n1, m1, s1, -, -, c1, r1⟩ := g
    have g2 : IsRow (RowTriplet a.cols a.on a.across a.by_ a.filters (vars.map (columnReg e a.db)) (a.db.map (·.2)) (combo e a vars a.cols a.by_ rA rB rX)) lt (Spec.recDist getFeat distance) a.feat ((vars.map (columnReg e a.db)).map (idxOf e a))
        (combo e a vars a.cols a.by_ rA rB rX) (asLevel a.by_ vars vars' p) :=
      ⟨U, n1, fun u => by rw [m1, key i1 i2 i3 h0], s1, (labels_iff he hA hB hX).mpr x1, x2, c1, r1⟩
    rw [isRow_unique g2 g1 (by simp)]
    exact ho
  have inj : ∀ p ∈ out', ∀ q ∈ out', asLevel a.by_ vars vars' p = asLevel a.by_ vars vars' q → p = q := by
    intro p hp q hq hpq
    obtain ⟨u, rA, rB, rX, i1, i2, i3, h0, b1, l1, -⟩ := conv p hp
    obtain ⟨u', sA, sB, sX, j1, j2, j3, h0', b2, l2, -⟩ := conv q hq
    obtain ⟨x1, x2⟩ := asl i1 i2 i3 h0 l1
    obtain ⟨y1, y2⟩ := asl j1 j2 j3 h0' l2
    have hl : p.labels = q.labels := by
      rw [l1, l2]
      refine (lab (agree i1 i2 i3 h0) (agree j1 j2 j3 h0')).mp ⟨?_, ?_⟩
      · rw [← x2, ← y2, hpq]
      · rw [← x1, ← y1, hpq]
    have hn : p.n = q.n := (congrArg OutRow.n hpq : _)
    have hs : p.score = q.score := (congrArg OutRow.score hpq : _)
    have hbb : p.by_ = q.by_ := b1.trans b2.symm
    obtain ⟨l, b, s, n⟩ := p
    obtain ⟨l', b', s', n'⟩ := q
    simp only at hl hn hs hbb
    rw [hl, hn, hs, hbb]
  rw [List.perm_ext_iff_of_nodup nd (List.Nodup.map_on inj nd')]
  intro o
  rw [List.mem_map]
  constructor
  · intro ho
    obtain ⟨u, rA, rB, rX, i1, i2, i3, hu, g⟩ := rowsOf_mem h ho
    have hA := List.mem_of_getElem? i1
    have hB := List.mem_of_getElem? i2
    have hX := List.mem_of_getElem? i3
    obtain ⟨p, hp, g1⟩ := rowsOf_of h' ((key i1 i2 i3 hu.1 u).mpr hu)
    refine ⟨p, hp, ?_⟩
    obtain ⟨b1, l1⟩ := isRow_labels he' (by rw [hdb]; exact hA) (by rw [hdb]; exact hB) (by rw [hdb]; exact hX) g1
    obtain ⟨x1, x2⟩ := asl i1 i2 i3 hu.1 l1
    obtain ⟨U, n1, m1, s1, -, -, c1, r1⟩ := g1
    have g2 : IsRow (RowTriplet a.cols a.on a.across a.by_ a.filters (vars.map (columnReg e a.db)) (a.db.map (·.2)) (combo e a vars a.cols a.by_ rA rB rX)) lt (Spec.recDist getFeat distance) a.feat ((vars.map (columnReg e a.db)).map (idxOf e a))
        (combo e a vars a.cols a.by_ rA rB rX) (asLevel a.by_ vars vars' p) :=
      ⟨U, n1, fun v => by rw [m1, key i1 i2 i3 hu.1], s1, (labels_iff he hA hB hX).mpr x1, x2, c1, r1⟩
    exact isRow_unique g2 g (by simp)
  · rintro ⟨p, hp, rfl⟩
    obtain ⟨-, -, -, -, -, -, -, -, -, -, r⟩ := conv p hp
    exact r

/-! ### example -/

/-- the task of `ex2` without the column "sp" as 'by', but with filters that the three lines agree on it and a regressor for its value -/
def ex2Moved : Args Nat := { ex2All with filters := [colFilter2 ("sp", .A) ("sp", .B) (· == ·), colFilter2 ("sp", .A) ("sp", .X) (· == ·)], regressors := [columnReg E0 ex2.db ("sp", .X)] }

theorem ex2Moved_ok : ex2Moved.OK := by
  refine Args.OK.flat rfl (by decide +kernel) ?_ ?_ ?_ ?_ (by decide +kernel)
  · intro f hf
    rcases List.mem_pair.mp hf with rfl | rfl <;> unfold Avail <;> decide +kernel
  · intro f hf
    rw [List.mem_singleton.mp hf]
    unfold Avail
    decide +kernel
  · intro f hf
    rcases List.mem_pair.mp hf with rfl | rfl <;> decide +kernel
  · intro f hf
    rw [List.mem_singleton.mp hf]
    decide +kernel

/- the results of `ex2` are those of `ex2Moved`, with the label of sp as that of the level -/
example : ∃ out out', out ≠ [] ∧ LineRun ex2 [("on", .one), ("ac", .one), ("on", .two), ("ac", .two)] (fun r => .ok r) (fun v w => .ok (v % (w + 2))) (fun x y : Nat => decide (x < y)) out ∧
    LineRun ex2Moved [("on", .one), ("ac", .one), ("on", .two), ("sp", .X), ("ac", .two)] (fun r => .ok r) (fun v w => .ok (v % (w + 2))) (fun x y : Nat => decide (x < y)) out' ∧
    out.Perm (out'.map (asLevel ["sp"] [("on", .one), ("ac", .one), ("on", .two), ("ac", .two)] [("on", .one), ("ac", .one), ("on", .two), ("sp", .X), ("ac", .two)])) := by
  have hcol : ∀ f ∈ ex2Moved.regressors, ∃ v, f = columnReg E0 ex2Moved.db v := fun f hf => ⟨("sp", .X), List.mem_singleton.mp hf⟩
  obtain ⟨out, hne, h⟩ := lineRun_exists ex2_ok rfl rfl ex2_pos (by decide +kernel) (vars := [("on", .one), ("ac", .one), ("on", .two), ("ac", .two)]) (by decide +kernel) (by decide +kernel) (by decide +kernel) (fun v w => v % (w + 2)) (n := 2) (m := 3) (by omega) (by omega)
  obtain ⟨out', -, h'⟩ := lineRun_regs ex2Moved_ok (by intro f hf; rcases List.mem_pair.mp hf with rfl | rfl <;> decide +kernel) (by intro f hf; rw [List.mem_singleton.mp hf]; decide +kernel) (by intro f hf; rw [List.mem_singleton.mp hf]; decide +kernel) hcol ex2_pos
    (by decide +kernel) (vars := [("on", .one), ("ac", .one), ("on", .two), ("sp", .X), ("ac", .two)]) (by decide +kernel) (by decide +kernel) (by decide +kernel) (fun v w => v % (w + 2)) (n := 3) (m := 7) (by omega) (by omega)
  refine ⟨out, out', hne, h, h', C119_by_partial h h' rfl rfl rfl (by decide) rfl rfl rfl ?_ (by decide) (by decide) (by decide)⟩
  intro rA _ rB _ rX _
  have p1 : ¬ perItem ex2Moved.cols (colFilter2 ("sp", .A) ("sp", .B) (· == ·)) := by decide +kernel
  have p2 : ¬ perItem ex2Moved.cols (colFilter2 ("sp", .A) ("sp", .X) (· == ·)) := by decide +kernel
  show (∀ f ∈ [colFilter2 ("sp", .A) ("sp", .B) (· == ·), colFilter2 ("sp", .A) ("sp", .X) (· == ·)], holds ex2Moved.cols f rA rB rX = true) ↔ ([rB "sp"] = [rA "sp"] ∧ [rX "sp"] = [rA "sp"]) ∧ ∀ f ∈ ([] : List (DBFun Bool)), holds ex2.cols f rA rB rX = true
  have q1 : holds ex2Moved.cols (colFilter2 ("sp", .A) ("sp", .B) (· == ·)) rA rB rX = (rA "sp" == rB "sp") := by unfold holds; rw [if_neg p1]; rfl
  have q2 : holds ex2Moved.cols (colFilter2 ("sp", .A) ("sp", .X) (· == ·)) rA rB rX = (rA "sp" == rX "sp") := by unfold holds; rw [if_neg p2]; rfl
  simp only [List.mem_cons, List.not_mem_nil, or_false, forall_eq_or_imp, forall_eq, q1, q2, beq_iff_eq, List.cons.injEq, and_true, false_imp_iff, implies_true]
  exact ⟨fun h => ⟨h.1.symm, h.2.symm⟩, fun h => ⟨h.1.symm, h.2.symm⟩⟩

end ABX.Pipeline

#print axioms ABX.Pipeline.C119_by_partial
