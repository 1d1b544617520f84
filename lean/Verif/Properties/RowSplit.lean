import Verif.Spec.RowSplit
import Verif.Proofs.RowFilters
import Verif.Properties.Total
/-!
C118: further regressors split the rows of the results.
-/
namespace ABX.Pipeline
open ExtSort ABX.Task Pairs SideOps Sampler Distances Score EndToEnd Analyze F64 ABX.Spec
variable {ρ φ δ : Type}

theorem pickLabels_map {vars vars' : List Var} (h : ∀ v ∈ vars, v ∈ vars') (f : Var → Val) : pickLabels vars vars' (vars'.map f) = vars.map f := by
  unfold pickLabels
  refine List.map_congr_left fun v hv => ?_
  have hi : vars'.idxOf v < vars'.length := List.idxOf_lt_length_iff.mpr (h v hv)
  rw [List.getD_eq_getElem?_getD, List.getElem?_map, List.getElem?_eq_getElem hi, List.getElem_idxOf]
  rfl

/-- C118: two runs without threshold on the same table and records with the same filters, the second with further regressors: every row of the first is split into the rows of the second with its labels.  Its number of triplets is the sum of theirs, and with
the total score `w p` of the triplets of each row `p` its score is the rounded mean of the sum of theirs.  Missing: as in C114_order_partial. -/
theorem C118_split_partial {a a' : Args ρ} {vars vars' : List Var} {getFeat : ρ → Except Err φ} {distance : φ → φ → Except Err δ} {lt : δ → δ → Bool} {out out' : List OutRow} (h : LineRun a vars getFeat distance lt out)
    (h' : LineRun a' vars' getFeat distance lt out') (hc : a'.cols = a.cols) (hon : a'.on = a.on) (hac : a'.across = a.across) (hby : a'.by_ = a.by_) (hdb : a'.db = a.db) (hfeat : a'.feat = a.feat) (hfs : a'.filters = a.filters)
    (hv : ∀ v ∈ vars, v ∈ vars') :
    ∃ w : OutRow → Int, (∀ p ∈ out', p.score = rnd (rnd ((w p : Int) / p.n) + 1) / 2) ∧ (∀ p ∈ out', ∃ o ∈ out, p ∈ partsOf vars vars' out' o) ∧
      ∀ o ∈ out, o.n = ((partsOf vars vars' out' o).map (·.n)).sum ∧ o.score = rnd (rnd ((((partsOf vars vars' out' o).map w).sum : Int) / o.n) + 1) / 2 := by
  obtain ⟨e, he, h⟩ := h.rows
  obtain ⟨e', he', h'⟩ := h'.rows
  rw [hc, hon, hac, hby, hfeat, hfs] at h'
  have same : ∀ {e : Env} (b : Args ρ), e.Lawful → List.Forall₂ (fun f f' => SameLabel a.cols (b.db.map (·.2)) (f, idxOf e b f) (f', idxOf e b f')) (vars'.map (columnReg e b.db)) (vars'.map (columnReg e b.db)) := by
    intro e b he
    rw [List.forall₂_map_left_iff, List.forall₂_map_right_iff, List.forall₂_same]
    exact fun v _ => ⟨(he.sort _).nodup_iff.mpr (List.nodup_dedup _), (he.sort _).nodup_iff.mpr (List.nodup_dedup _), fun _ hA _ hB _ hX => ⟨_, column_label he v hA hB hX, column_label he v hA hB hX⟩⟩
  have hnd := rowsOf_nodup (same a' he') h'
  -- the triplets of a row, by its labels
  have tri : ∀ {vs : List Var} {e : Env} {b : Args ρ} {out : List OutRow}, b.db = a.db → e.Lawful →
      RowsOf a.cols a.on a.across a.by_ a.filters (vs.map (columnReg e b.db)) (b.db.map (·.2)) lt (Spec.recDist getFeat distance) a.feat ((vs.map (columnReg e b.db)).map (idxOf e b)) out → ∀ o ∈ out,
      (∃ rA rB rX, o.by_ = byLabels a.by_ rA ∧ o.labels = vs.map (sem a.cols rA rB rX)) ∧
      ∃ U : List ((Nat × Nat × Nat) × Int), (U.map (·.1)).Nodup ∧ (∀ u, u ∈ U.map (·.1) ↔ LineTriplet a.cols a.on a.across a.by_ a.filters (a.db.map (·.2)) u ∧
        ∀ sA sB sX, (a.db.map (·.2))[u.1]? = some sA → (a.db.map (·.2))[u.2.1]? = some sB → (a.db.map (·.2))[u.2.2]? = some sX → byLabels a.by_ sA = o.by_ ∧ vs.map (sem a.cols sA sB sX) = o.labels) ∧
        (∀ q ∈ U, IsLineScore lt (Spec.recDist getFeat distance) a.feat q.1 q.2) ∧ o.n = U.length ∧ o.score = rnd (rnd (((U.map (·.2)).sum : Int) / o.n) + 1) / 2 := by
    intro vs e b out hb he h o ho
    obtain ⟨u, rA, rB, rX, i1, i2, i3, hu, g⟩ := rowsOf_mem h ho
    have hA := List.mem_of_getElem? i1
    have hB := List.mem_of_getElem? i2
    have hX := List.mem_of_getElem? i3
    obtain ⟨b1, l1⟩ := isRow_labels he hA hB hX g
    obtain ⟨U, n1, m1, s1, -, -, c1, r1⟩ := g
    refine ⟨⟨rA, rB, rX, b1, l1⟩, U, n1, fun u => ?_, s1, c1, r1⟩
    rw [m1, rowTriplet_labels he hA hB hX, hb, b1, l1]
  have all : ∀ p : OutRow, ∃ U : List ((Nat × Nat × Nat) × Int), p ∈ out' → ((U.map (·.1)).Nodup ∧ (∀ u, u ∈ U.map (·.1) ↔ LineTriplet a.cols a.on a.across a.by_ a.filters (a.db.map (·.2)) u ∧
        ∀ sA sB sX, (a.db.map (·.2))[u.1]? = some sA → (a.db.map (·.2))[u.2.1]? = some sB → (a.db.map (·.2))[u.2.2]? = some sX → byLabels a.by_ sA = p.by_ ∧ vars'.map (sem a.cols sA sB sX) = p.labels) ∧
        (∀ q ∈ U, IsLineScore lt (Spec.recDist getFeat distance) a.feat q.1 q.2) ∧ p.n = U.length ∧ p.score = rnd (rnd (((U.map (·.2)).sum : Int) / p.n) + 1) / 2) := by
    intro p
    by_cases hp : p ∈ out'
    · obtain ⟨-, U, hU⟩ := tri hdb he' h' p hp
      exact ⟨U, fun _ => hU⟩
    · exact ⟨[], fun q => absurd q hp⟩
  choose U hU using all
  -- every triplet is of some row of the second run
  have cover : ∀ u, LineTriplet a.cols a.on a.across a.by_ a.filters (a.db.map (·.2)) u → ∃ p ∈ out', u ∈ (U p).map (·.1) := by
    intro u hu
    obtain ⟨sA, sB, sX, j1, j2, j3, hrest⟩ := hu
    have kk : ∀ tA tB tX, (a.db.map (·.2))[u.1]? = some tA → (a.db.map (·.2))[u.2.1]? = some tB → (a.db.map (·.2))[u.2.2]? = some tX → byLabels a.by_ tA = byLabels a.by_ sA ∧ vars'.map (sem a.cols tA tB tX) = vars'.map (sem a.cols sA sB sX) := by
      intro tA tB tX k1 k2 k3
      rw [j1] at k1; rw [j2] at k2; rw [j3] at k3
      cases k1; cases k2; cases k3
      exact ⟨rfl, rfl⟩
    have hA : sA ∈ a'.db.map (·.2) := by rw [hdb]; exact List.mem_of_getElem? j1
    have hB : sB ∈ a'.db.map (·.2) := by rw [hdb]; exact List.mem_of_getElem? j2
    have hX : sX ∈ a'.db.map (·.2) := by rw [hdb]; exact List.mem_of_getElem? j3
    obtain ⟨p, hp, g⟩ := rowsOf_of h' (k := combo e' a' vars' a.cols a.by_ sA sB sX) (u := u) ((rowTriplet_labels he' hA hB hX u).mpr (by rw [hdb]; exact ⟨⟨sA, sB, sX, j1, j2, j3, hrest⟩, kk⟩))
    obtain ⟨b1, l1⟩ := isRow_labels he' hA hB hX g
    refine ⟨p, hp, ((hU p hp).2.1 u).mpr ⟨⟨sA, sB, sX, j1, j2, j3, hrest⟩, ?_⟩⟩
    rw [b1, l1]
    exact kk
  -- rows of the second run with a triplet in common are the same
  have disj : ∀ p ∈ out', ∀ q ∈ out', ∀ u, u ∈ (U p).map (·.1) → u ∈ (U q).map (·.1) → p = q := by
    intro p hp q hq u hu hu'
    obtain ⟨p1, p2, p3, p4, p5⟩ := hU p hp
    obtain ⟨q1, q2, q3, q4, q5⟩ := hU q hq
    obtain ⟨⟨sA, sB, sX, j1, j2, j3, -⟩, k⟩ := (p2 u).mp hu
    obtain ⟨x1, x2⟩ := k _ _ _ j1 j2 j3
    obtain ⟨y1, y2⟩ := ((q2 u).mp hu').2 _ _ _ j1 j2 j3
    have hb : p.by_ = q.by_ := x1.symm.trans y1
    have hl : p.labels = q.labels := x2.symm.trans y2
    have hperm : (U p).Perm (U q) := by
      rw [List.perm_ext_iff_of_nodup p1.of_map q1.of_map]
      have sub : ∀ {A B : List ((Nat × Nat × Nat) × Int)}, (∀ u, u ∈ A.map (·.1) → u ∈ B.map (·.1)) → (∀ q ∈ A, IsLineScore lt (Spec.recDist getFeat distance) a.feat q.1 q.2) → (∀ q ∈ B, IsLineScore lt (Spec.recDist getFeat distance) a.feat q.1 q.2) → ∀ q ∈ A, q ∈ B := by
        intro A B hm s1 s2 q hq
        obtain ⟨q', h1, h2⟩ := List.mem_map.mp (hm q.1 (List.mem_map.mpr ⟨q, hq, rfl⟩))
        rw [show q = q' from Prod.ext h2.symm ((s1 q hq).unique (h2 ▸ s2 q' h1))]
        exact h1
      exact fun x => ⟨sub (fun u hu => by rw [q2]; rw [p2, hb, hl] at hu; exact hu) p3 q3 x, sub (fun u hu => by rw [p2, hb, hl]; rw [q2] at hu; exact hu) q3 p3 x⟩
    have hn : p.n = q.n := by rw [p4, q4, hperm.length_eq]
    have hs : p.score = q.score := by rw [p5, q5, hn, (hperm.map (·.2)).sum_eq]
    obtain ⟨l, b, s, n⟩ := p
    obtain ⟨l', b', s', n'⟩ := q
    simp only at hb hl hn hs
    rw [hb, hl, hn, hs]
  refine ⟨fun p => ((U p).map (·.2)).sum, fun p hp => (hU p hp).2.2.2.2, ?_, ?_⟩
  · intro p hp
    obtain ⟨u, rA, rB, rX, i1, i2, i3, hu, g⟩ := rowsOf_mem h' hp
    have hA' := List.mem_of_getElem? i1
    have hB' := List.mem_of_getElem? i2
    have hX' := List.mem_of_getElem? i3
    have hA := hdb ▸ hA'
    have hB := hdb ▸ hB'
    have hX := hdb ▸ hX'
    have ht := ((rowTriplet_labels he' hA' hB' hX' u).mp hu)
    rw [hdb] at ht
    obtain ⟨o, ho, g1⟩ := rowsOf_of h (k := combo e a vars a.cols a.by_ rA rB rX) (u := u) ((rowTriplet_labels he hA hB hX u).mpr ⟨ht.1, fun sA sB sX j1 j2 j3 => ⟨(ht.2 sA sB sX j1 j2 j3).1, by
      have := (ht.2 sA sB sX j1 j2 j3).2
      rw [List.map_inj_left] at this ⊢
      exact fun v q => this v (hv v q)⟩⟩)
    obtain ⟨b1, l1⟩ := isRow_labels he hA hB hX g1
    obtain ⟨b2, l2⟩ := isRow_labels he' hA' hB' hX' g
    exact ⟨o, ho, List.mem_filter.mpr ⟨hp, by rw [decide_eq_true_eq, b1, b2, l1, l2]; exact ⟨rfl, pickLabels_map hv _⟩⟩⟩
  · intro o ho
    obtain ⟨-, V, v1, v2, v3, v4, v5⟩ := tri rfl he h o ho
    have hP : ∀ p ∈ partsOf vars vars' out' o, p ∈ out' ∧ p.by_ = o.by_ ∧ pickLabels vars vars' p.labels = o.labels := by
      intro p hp
      obtain ⟨p1, p2⟩ := List.mem_filter.mp hp
      exact ⟨p1, by simpa using p2⟩
    have hperm : V.Perm ((partsOf vars vars' out' o).flatMap U) := by
      have mem : ∀ u, u ∈ V.map (·.1) ↔ ∃ p ∈ partsOf vars vars' out' o, u ∈ (U p).map (·.1) := by
        intro u
        rw [v2]
        constructor
        · rintro ⟨hu, hk⟩
          obtain ⟨p, hp, hup⟩ := cover u hu
          refine ⟨p, List.mem_filter.mpr ⟨hp, ?_⟩, hup⟩
          obtain ⟨-, k⟩ := ((hU p hp).2.1 u).mp hup
          obtain ⟨sA, sB, sX, j1, j2, j3, -⟩ := hu
          obtain ⟨x1, x2⟩ := hk _ _ _ j1 j2 j3
          obtain ⟨y1, y2⟩ := k _ _ _ j1 j2 j3
          rw [decide_eq_true_eq, ← y2, pickLabels_map hv, x2, ← y1, x1]
          exact ⟨rfl, rfl⟩
        · rintro ⟨p, hp, hup⟩
          obtain ⟨p1, p2, p3⟩ := hP p hp
          obtain ⟨hu, k⟩ := ((hU p p1).2.1 u).mp hup
          refine ⟨hu, fun sA sB sX j1 j2 j3 => ?_⟩
          obtain ⟨y1, y2⟩ := k _ _ _ j1 j2 j3
          rw [← p2, ← p3, ← y2, pickLabels_map hv]
          exact ⟨y1, rfl⟩
      rw [List.perm_ext_iff_of_nodup v1.of_map]
      · intro x
        rw [List.mem_flatMap]
        constructor
        · intro hx
          obtain ⟨p, hp, hup⟩ := (mem x.1).mp (List.mem_map.mpr ⟨x, hx, rfl⟩)
          obtain ⟨y, y1, y2⟩ := List.mem_map.mp hup
          refine ⟨p, hp, ?_⟩
          rw [show x = y from Prod.ext y2.symm ((v3 x hx).unique (y2 ▸ (hU p (hP p hp).1).2.2.1 y y1))]
          exact y1
        · rintro ⟨p, hp, hx⟩
          obtain ⟨y, y1, y2⟩ := List.mem_map.mp ((mem x.1).mpr ⟨p, hp, List.mem_map.mpr ⟨x, hx, rfl⟩⟩)
          rw [show x = y from Prod.ext y2.symm (((hU p (hP p hp).1).2.2.1 x hx).unique (y2 ▸ v3 y y1))]
          exact y1
      · rw [List.nodup_flatMap]
        refine ⟨fun p hp => (hU p (hP p hp).1).1.of_map, ?_⟩
        refine (hnd.filter _).imp_of_mem ?_
        intro p q hp hq hne x hx hx'
        exact hne (disj p (hP p hp).1 q (hP q hq).1 x.1 (List.mem_map.mpr ⟨x, hx, rfl⟩) (List.mem_map.mpr ⟨x, hx', rfl⟩))
    have len : V.length = ((partsOf vars vars' out' o).map (·.n)).sum := by
      rw [hperm.length_eq, List.length_flatMap]
      exact congrArg _ (List.map_congr_left fun p hp => ((hU p (hP p hp).1).2.2.2.1).symm)
    have sum : (V.map (·.2)).sum = ((partsOf vars vars' out' o).map (fun p => ((U p).map (·.2)).sum)).sum := by
      rw [(hperm.map (·.2)).sum_eq]
      generalize partsOf vars vars' out' o = P
      induction P with
      | nil => rfl
      | cons p P ih => rw [List.flatMap_cons, List.map_append, List.sum_append, ih, List.map_cons, List.sum_cons]
    exact ⟨v4.trans len, by rw [v5, sum]⟩

/-! ### example -/

/- the results of `ex2Sp` split those of `ex2All` by the value of "sp" of B -/
example : ∃ out out', out ≠ [] ∧ LineRun ex2All [("on", .one), ("ac", .one), ("on", .two), ("ac", .two)] (fun r => .ok r) (fun v w => .ok (v % (w + 2))) (fun x y : Nat => decide (x < y)) out ∧
    LineRun ex2Sp [("on", .one), ("ac", .one), ("sp", .B), ("on", .two), ("ac", .two)] (fun r => .ok r) (fun v w => .ok (v % (w + 2))) (fun x y : Nat => decide (x < y)) out' ∧
    ∃ w : OutRow → Int, (∀ p ∈ out', p.score = rnd (rnd ((w p : Int) / p.n) + 1) / 2) ∧
      ∀ o ∈ out, o.n = ((partsOf [("on", .one), ("ac", .one), ("on", .two), ("ac", .two)] [("on", .one), ("ac", .one), ("sp", .B), ("on", .two), ("ac", .two)] out' o).map (·.n)).sum ∧
        o.score = rnd (rnd ((((partsOf [("on", .one), ("ac", .one), ("on", .two), ("ac", .two)] [("on", .one), ("ac", .one), ("sp", .B), ("on", .two), ("ac", .two)] out' o).map w).sum : Int) / o.n) + 1) / 2 := by
  have hcol : ∀ f ∈ ex2Sp.regressors, ∃ v, f = columnReg E0 ex2Sp.db v := fun f hf => ⟨("sp", .B), List.mem_singleton.mp hf⟩
  obtain ⟨out, hne, h⟩ := lineRun_exists ex2All_ok rfl rfl ex2_pos (by decide +kernel) (vars := [("on", .one), ("ac", .one), ("on", .two), ("ac", .two)]) (by decide +kernel) (by decide +kernel) (by decide +kernel) (fun v w => v % (w + 2)) (n := 2) (m := 3) (by omega) (by omega)
  obtain ⟨out', -, h'⟩ := lineRun_regs ex2Sp_ok (by intro f hf; cases hf) (by intro f hf; rw [List.mem_singleton.mp hf]; decide +kernel) (by intro f hf; rw [List.mem_singleton.mp hf]; decide +kernel) hcol ex2_pos (by decide +kernel)
    (vars := [("on", .one), ("ac", .one), ("sp", .B), ("on", .two), ("ac", .two)]) (by decide +kernel) (by decide +kernel) (by decide +kernel) (fun v w => v % (w + 2)) (n := 3) (m := 7) (by omega) (by omega)
  obtain ⟨w, w1, -, w3⟩ := C118_split_partial h h' rfl rfl rfl rfl rfl rfl rfl (by decide)
  exact ⟨out, out', hne, h, h', w, w1, w3⟩

end ABX.Pipeline

#print axioms ABX.Pipeline.C118_split_partial
