import Verif.Spec.RowLines
import Verif.Properties.Total
/-! Lemmas for C114. -/
namespace ABX.Pipeline
open ExtSort ABX.Task Pairs SideOps Sampler Distances Score EndToEnd Analyze F64 ABX.Spec
variable {ρ φ δ : Type}

/-- the lines of a triplet of items of a level -/
def lineTri (a : Args ρ) (key : List Val) (t : Tri) : Nat × Nat × Nat :=
  ((lineOf a.by_ (a.db.map (·.2)) (specKey a key) (t.1.1 : Int)).getD 0, (lineOf a.by_ (a.db.map (·.2)) (specKey a key) (t.2.1.1 : Int)).getD 0, (lineOf a.by_ (a.db.map (·.2)) (specKey a key) (t.2.2.1 : Int)).getD 0)

theorem lineTri_eq {a : Args ρ} {key : List Val} {t : Tri} {u : Nat × Nat × Nat} (h : (lineOf a.by_ (a.db.map (·.2)) (specKey a key) (t.1.1 : Int), lineOf a.by_ (a.db.map (·.2)) (specKey a key) (t.2.1.1 : Int), lineOf a.by_ (a.db.map (·.2)) (specKey a key) (t.2.2.1 : Int)) = lines u) : lineTri a key t = u := by
  unfold lines at h
  simp only [Prod.mk.injEq] at h
  unfold lineTri
  rw [h.1, h.2.1, h.2.2]
  rfl

theorem lineTri_lines {a : Args ρ} {key : List Val} {t : Tri} (ht : t ∈ tripsSpec a key) :
    (lineOf a.by_ (a.db.map (·.2)) (specKey a key) (t.1.1 : Int), lineOf a.by_ (a.db.map (·.2)) (specKey a key) (t.2.1.1 : Int), lineOf a.by_ (a.db.map (·.2)) (specKey a key) (t.2.2.1 : Int)) = lines (lineTri a key t) ∧
    LineTriplet a.cols a.on a.across a.by_ a.filters (a.db.map (·.2)) (lineTri a key t) := by
  obtain ⟨u, u1, -, hu⟩ := trips_lines (a := a) (key := key) (t := (t.1.1, t.2.1.1, t.2.2.1)) (List.mem_map.mpr ⟨t, ht, rfl⟩)
  rw [lineTri_eq hu]
  exact ⟨hu, u1⟩

/-- the rows of the lines of a triplet are those of its items -/
theorem lineTri_rows {a : Args ρ} {key : List Val} {t : Tri} (ht : t ∈ tripsSpec a key) : (a.db.map (·.2))[(lineTri a key t).1]? = some t.1.2 ∧ (a.db.map (·.2))[(lineTri a key t).2.1]? = some t.2.1.2 ∧
    (a.db.map (·.2))[(lineTri a key t).2.2]? = some t.2.2.2 ∧ a.by_.map t.1.2 = specKey a key := by
  obtain ⟨⟨A, rA⟩, ⟨B, rB⟩, ⟨X, rX⟩⟩ := t
  obtain ⟨hA, hB, hX⟩ := mem_prod3.mp (show _ ∈ prod3 _ _ _ from (List.mem_filter.mp ht).1)
  obtain ⟨i, hi⟩ := item_line.mp hA
  obtain ⟨j, hj⟩ := item_line.mp hB
  obtain ⟨k, hk⟩ := item_line.mp hX
  have : lineTri a key ((A, rA), (B, rB), (X, rX)) = (i, j, k) := by
    apply lineTri_eq
    unfold lineOf lines
    simp [hi, hj, hk]
  rw [this]
  exact ⟨(line_mem hi).1, (line_mem hj).1, (line_mem hk).1, (line_mem hi).2⟩

theorem lineTri_inj {a : Args ρ} {key : List Val} {t s : Tri} (ht : t ∈ tripsSpec a key) (hs : s ∈ tripsSpec a key) (h : lineTri a key t = lineTri a key s) : t = s := by
  have h1 := (lineTri_lines ht).1
  have h2 := (lineTri_lines hs).1
  rw [h] at h1
  unfold lines at h1 h2
  simp only [Prod.mk.injEq] at h1 h2
  refine tripsSpec_lab ht hs ?_
  unfold lab
  rw [line_inj' h1.1 h2.1, line_inj' h1.2.1 h2.2.1, line_inj' h1.2.2 h2.2.2]

theorem lineTri_surj {a : Args ρ} {key : List Val} {u : Nat × Nat × Nat} (h : LineTriplet a.cols a.on a.across a.by_ a.filters (a.db.map (·.2)) u) (hk : ∀ r, (a.db.map (·.2))[u.1]? = some r → a.by_.map r = specKey a key) :
    ∃ t ∈ tripsSpec a key, lineTri a key t = u := by
  obtain ⟨t, ht, e⟩ := lines_trips h hk
  unfold Spec.triplets at ht
  obtain ⟨x, hx, rfl⟩ := List.mem_map.mp ht
  exact ⟨x, hx, lineTri_eq e⟩

/-- the triplets of a level with given values of the regressors -/
theorem rowTriplet_iff {a : Args ρ} {regs : List (DBFun Nat)} {p : Nat × Row} {v : List Nat} {u : Nat × Nat × Nat} :
    RowTriplet a.cols a.on a.across a.by_ a.filters regs (a.db.map (·.2)) (levelKey a p.2, v) u ↔ ∃ t ∈ tripsSpec a (levelKey a p.2), regs.map (fun f => Spec.regValue a.cols f t) = v ∧ lineTri a (levelKey a p.2) t = u := by
  constructor
  · rintro ⟨h1, h2⟩
    obtain ⟨rA, rB, rX, i1, i2, i3, -⟩ := id h1
    obtain ⟨k1, k2⟩ := h2 _ _ _ i1 i2 i3
    have hk : a.by_.map rA = specKey a (levelKey a p.2) := by
      rw [← specKey_levelKey a rA, show levelKey a rA = levelKey a p.2 from k1]
    obtain ⟨t, ht, rfl⟩ := lineTri_surj (key := levelKey a p.2) h1 (by intro r hr; rw [i1] at hr; cases hr; exact hk)
    obtain ⟨j1, j2, j3, -⟩ := lineTri_rows ht
    refine ⟨t, ht, ?_, rfl⟩
    rw [i1] at j1; rw [i2] at j2; rw [i3] at j3
    cases j1; cases j2; cases j3
    exact k2
  · rintro ⟨t, ht, rfl, rfl⟩
    refine ⟨(lineTri_lines ht).2, ?_⟩
    intro rA rB rX i1 i2 i3
    obtain ⟨j1, j2, j3, j4⟩ := lineTri_rows ht
    rw [i1] at j1; rw [i2] at j2; rw [i3] at j3
    cases j1; cases j2; cases j3
    refine ⟨?_, rfl⟩
    rw [specKey_levelKey] at j4
    show levelKey a t.1.2 = levelKey a p.2
    unfold levelKey
    rw [j4]

theorem key_of_rowTriplet {a : Args ρ} {regs : List (DBFun Nat)} {key : List Val} {v : List Nat} {u : Nat × Nat × Nat} (hu : RowTriplet a.cols a.on a.across a.by_ a.filters regs (a.db.map (·.2)) (key, v) u) :
    (∃ p ∈ a.db, levelKey a p.2 = key) ∧ tripsSpec a key ≠ [] := by
  obtain ⟨rA, rB, rX, i1, i2, i3, -⟩ := hu.1
  obtain ⟨k1, -⟩ := hu.2 _ _ _ i1 i2 i3
  dsimp only at k1
  rw [List.getElem?_map, Option.map_eq_some_iff] at i1
  obtain ⟨p, hp, rfl⟩ := i1
  have hk : levelKey a p.2 = key := k1
  refine ⟨⟨p, List.mem_of_getElem? hp, hk⟩, ?_⟩
  subst hk
  obtain ⟨t, ht, -⟩ := rowTriplet_iff.mp hu
  exact List.ne_nil_of_mem ht

/-- the scores of triplets of items are those of their lines -/
theorem line_scores {a : Args ρ} (hfeat : a.feat.length = a.db.length) {key : List Val} {Q : List Tri} {lt : δ → δ → Bool} {dist : ρ → ρ → Except Err δ} {abx : Tri → ℚ}
    (h : ∀ t ∈ Q, Spec.IsAbx lt dist (Spec.records a.by_ (a.db.map (·.2)) a.feat (specKey a key)) t (abx t)) (t : Tri) :
    ∃ w : Int, t ∈ Q → IsLineScore lt dist a.feat (lineTri a key t) w ∧ 2 * abx t - 1 = w := by
  by_cases ht : t ∈ Q
  · obtain ⟨w, w1, w2⟩ := isAbx_iff.mp (h t ht)
    refine ⟨w, fun _ => ⟨?_, by rw [w2]; ring⟩⟩
    obtain ⟨rA, rB, rX, d, d', h1, h2, h3, h4⟩ := w1
    have hl : a.feat.length = (a.db.map (·.2)).length := by rw [List.length_map, hfeat]
    obtain ⟨iA, l1, m1⟩ := record_line hl h1
    obtain ⟨iB, l2, m2⟩ := record_line hl h2
    obtain ⟨iX, l3, m3⟩ := record_line hl h3
    rw [lineTri_eq (u := (iA, iB, iX)) (by rw [l1, l2, l3]; rfl)]
    exact ⟨rA, rB, rX, d, d', m1, m2, m3, h4⟩
  · exact ⟨0, fun h => absurd h ht⟩

/-- the rows of all levels -/
theorem rows_flatten {κ γ β : Type} {Q : κ → γ → β → Prop} {C : κ → γ → Prop} : ∀ {keys : List κ} {outs : List (List β)}, keys.Nodup →
    List.Forall₂ (fun key out => ∃ cs : List γ, cs.Nodup ∧ (∀ c, c ∈ cs ↔ C key c) ∧ List.Forall₂ (Q key) cs out) keys outs →
    ∃ L : List (κ × γ), L.Nodup ∧ (∀ p, p ∈ L ↔ p.1 ∈ keys ∧ C p.1 p.2) ∧ List.Forall₂ (fun p o => Q p.1 p.2 o) L outs.flatten
  | _, _, _, .nil => ⟨[], List.nodup_nil, by simp, .nil⟩
  | k :: ks, out :: outs, hn, .cons ⟨cs, c1, c2, c3⟩ hr => by
    rw [List.nodup_cons] at hn
    obtain ⟨L, l1, l2, l3⟩ := rows_flatten hn.2 hr
    refine ⟨cs.map (fun c => (k, c)) ++ L, ?_, ?_, ?_⟩
    · refine List.Nodup.append (c1.map (fun x y h => by cases h; rfl)) l1 ?_
      intro x hx hy
      obtain ⟨c, -, rfl⟩ := List.mem_map.mp hx
      exact hn.1 ((l2 _).mp hy).1
    · rintro ⟨k', c⟩
      rw [List.mem_append, l2, List.mem_map, List.mem_cons]
      constructor
      · rintro (⟨c', h1, h2⟩ | ⟨h1, h2⟩)
        · cases h2
          exact ⟨.inl rfl, (c2 _).mp h1⟩
        · exact ⟨.inr h1, h2⟩
      · rintro ⟨h1 | h1, h2⟩
        · dsimp only at h1 h2
          subst h1
          exact .inl ⟨c, (c2 _).mpr h2, rfl⟩
        · exact .inr ⟨h1, h2⟩
    · rw [List.flatten_cons]
      refine List.rel_append (R := fun (p : κ × γ) o => Q p.1 p.2 o) ?_ l3
      rw [List.forall₂_map_left_iff]
      exact c3

/-- a row is determined by its triplets of lines -/
theorem isRow_unique {P : Nat × Nat × Nat → Prop} {lt : δ → δ → Bool} {dist : ρ → ρ → Except Err δ} {recs : List ρ} {labels : List (List Val)} {k : List Val × List Nat} {o o' : OutRow} (h : IsRow P lt dist recs labels k o)
    (h' : IsRow P lt dist recs labels k o') (hk : labels.length ≤ k.2.length) : o = o' := by
  obtain ⟨U, n1, m1, s1, l1, b1, c1, r1⟩ := h
  obtain ⟨V, n2, m2, s2, l2, b2, c2, r2⟩ := h'
  have hp : U.Perm V := by
    rw [List.perm_ext_iff_of_nodup n1.of_map n2.of_map]
    have sub : ∀ {U V : List ((Nat × Nat × Nat) × Int)}, (∀ u, u ∈ U.map (·.1) ↔ P u) → (∀ u, u ∈ V.map (·.1) ↔ P u) → (∀ q ∈ U, IsLineScore lt dist recs q.1 q.2) → (∀ q ∈ V, IsLineScore lt dist recs q.1 q.2) → ∀ q ∈ U, q ∈ V := by
      intro U V m1 m2 s1 s2 q hq
      have := (m2 q.1).mpr ((m1 q.1).mp (List.mem_map.mpr ⟨q, hq, rfl⟩))
      obtain ⟨q', h1, h2⟩ := List.mem_map.mp this
      have hw := (s1 q hq).unique (h2 ▸ s2 q' h1)
      rw [show q = q' from Prod.ext h2.symm hw]
      exact h1
    exact fun q => ⟨sub m1 m2 s1 s2 q, sub m2 m1 s2 s1 q⟩
  have hn : o.n = o'.n := by rw [c1, c2, hp.length_eq]
  have hl : o.labels = o'.labels := by
    apply List.ext_getElem?
    intro j
    by_cases hj : j < labels.length
    · rw [l1.2 j _ _ (List.getElem?_eq_getElem hj) (List.getElem?_eq_getElem (hj.trans_le hk)), l2.2 j _ _ (List.getElem?_eq_getElem hj) (List.getElem?_eq_getElem (hj.trans_le hk))]
    · rw [List.getElem?_eq_none (by rw [l1.1]; omega), List.getElem?_eq_none (by rw [l2.1]; omega)]
  have hs : o.score = o'.score := by rw [r1, r2, hn, (hp.map _).sum_eq]
  cases o
  cases o'
  dsimp only at hn hl hs b1 b2
  rw [hn, hl, hs, b1, b2]

theorem map_iff {α α' β β' : Type} {g g0 : α → β} {g' g0' : α' → β'} : ∀ {l : List α} {l' : List α'}, List.Forall₂ (fun f f' => g f = g0 f ↔ g' f' = g0' f') l l' → (l.map g = l.map g0 ↔ l'.map g' = l'.map g0')
  | _, _, .nil => by simp
  | _, _, .cons h t => by
    simp only [List.map_cons, List.cons.injEq]
    rw [h, map_iff t]

theorem sameLabel_symm {c : Cols} {rows rows' : List Row} (hm : ∀ r, r ∈ rows' → r ∈ rows) {p p' : DBFun Nat × List Val} (h : SameLabel c rows p p') : SameLabel c rows' p' p :=
  ⟨h.2.1, h.1, fun rA hA rB hB rX hX => by
    obtain ⟨x, x1, x2⟩ := h.2.2 rA (hm _ hA) rB (hm _ hB) rX (hm _ hX)
    exact ⟨x, x2, x1⟩⟩

/-- the same label, the same value -/
theorem sameLabel_iff {c : Cols} {rows : List Row} {p p' : DBFun Nat × List Val} (h : SameLabel c rows p p') {rA rB rX sA sB sX : Row} (hA : rA ∈ rows) (hB : rB ∈ rows) (hX : rX ∈ rows) (iA : sA ∈ rows) (iB : sB ∈ rows) (iX : sX ∈ rows) :
    p.1.fn (sem c rA rB rX) = p.1.fn (sem c sA sB sX) ↔ p'.1.fn (sem c rA rB rX) = p'.1.fn (sem c sA sB sX) := by
  obtain ⟨x, x1, x2⟩ := h.2.2 rA hA rB hB rX hX
  obtain ⟨y, y1, y2⟩ := h.2.2 sA iA sB iB sX iX
  rw [← List.getElem?_inj (List.getElem?_eq_some_iff.mp x1).1 h.1, ← List.getElem?_inj (List.getElem?_eq_some_iff.mp x2).1 h.2.1, x1, x2, y1, y2]

section
variable {c : Cols} {on : String} {across by_ : List String} {filters : List (DBFun Bool)} {regs regs' : List (DBFun Nat)} {rows rows' : List Row} {recs recs' : List ρ} {lt : δ → δ → Bool} {dist : ρ → ρ → Except Err δ} {idx idx' : DBFun Nat → List Val}
  (σ : Equiv.Perm Nat) (hσ : ∀ i, rows'[i]? = rows[σ i]?) (hρ : ∀ i, recs'[i]? = recs[σ i]?)

include hσ in
theorem lineTriplet_perm (u : Nat × Nat × Nat) : LineTriplet c on across by_ filters rows' u ↔ LineTriplet c on across by_ filters rows (σ u.1, σ u.2.1, σ u.2.2) := by
  unfold LineTriplet
  rw [hσ, hσ, hσ]
  refine exists_congr fun rA => exists_congr fun rB => exists_congr fun rX => ?_
  rw [legal_lines (A := u.1) (B := u.2.1) (X := u.2.2) (i := σ u.1) (j := σ u.2.1) (k := σ u.2.2) ⟨fun e => by rw [e], fun e => σ.injective e⟩]

variable (hreg : List.Forall₂ (fun f f' => SameLabel c rows (f, idx f) (f', idx' f')) regs regs')
include hσ hreg

/-- the triplets of a combination, in the other table -/
theorem rowTriplet_perm {key : List Val} {rA rB rX : Row} (hA : rA ∈ rows) (hB : rB ∈ rows) (hX : rX ∈ rows) (u : Nat × Nat × Nat) :
    RowTriplet c on across by_ filters regs' rows' (key, regs'.map (fun f => f.fn (sem c rA rB rX))) u ↔ RowTriplet c on across by_ filters regs rows (key, regs.map (fun f => f.fn (sem c rA rB rX))) (σ u.1, σ u.2.1, σ u.2.2) := by
  unfold RowTriplet
  rw [lineTriplet_perm σ hσ, hσ, hσ, hσ]
  refine and_congr_right fun _ => forall_congr' fun sA => forall_congr' fun sB => forall_congr' fun sX => ?_
  refine imp_congr_right fun i1 => imp_congr_right fun i2 => imp_congr_right fun i3 => and_congr_right fun _ => ?_
  refine (map_iff ?_).symm
  exact hreg.imp (fun f f' h => sameLabel_iff h (List.mem_of_getElem? i1) (List.mem_of_getElem? i2) (List.mem_of_getElem? i3) hA hB hX)

omit hσ in
theorem isLabels_perm {rA rB rX : Row} (hA : rA ∈ rows) (hB : rB ∈ rows) (hX : rX ∈ rows) {l : List Val} (h : Spec.IsLabels (regs.map idx) (regs.map (fun f => f.fn (sem c rA rB rX))) l) :
    Spec.IsLabels (regs'.map idx') (regs'.map (fun f => f.fn (sem c rA rB rX))) l := by
  obtain ⟨h1, h2⟩ := h
  refine ⟨by rw [h1, List.length_map, List.length_map, hreg.length_eq], ?_⟩
  intro j ix x hj hx
  rw [List.getElem?_map, Option.map_eq_some_iff] at hj hx
  obtain ⟨f', f1, rfl⟩ := hj
  obtain ⟨f'', f2, rfl⟩ := hx
  rw [f1] at f2
  cases f2
  obtain ⟨f, g1, g2⟩ := Distances.forall₂_getElem hreg.flip f1
  rw [h2 j (idx f) (f.fn (sem c rA rB rX)) (by rw [List.getElem?_map, g1]; rfl) (by rw [List.getElem?_map, g1]; rfl)]
  obtain ⟨x, x1, x2⟩ := g2.2.2 rA hA rB hB rX hX
  exact x1.trans x2.symm

include hρ in
/-- the row of a combination is that of the other table -/
theorem isRow_perm {key : List Val} {rA rB rX : Row} (hA : rA ∈ rows) (hB : rB ∈ rows) (hX : rX ∈ rows) {o : OutRow}
    (h : IsRow (RowTriplet c on across by_ filters regs rows (key, regs.map (fun f => f.fn (sem c rA rB rX)))) lt dist recs (regs.map idx) (key, regs.map (fun f => f.fn (sem c rA rB rX))) o) :
    IsRow (RowTriplet c on across by_ filters regs' rows' (key, regs'.map (fun f => f.fn (sem c rA rB rX)))) lt dist recs' (regs'.map idx') (key, regs'.map (fun f => f.fn (sem c rA rB rX))) o := by
  obtain ⟨U, n1, m1, s1, l1, b1, c1, r1⟩ := h
  have hinv : ∀ u : Nat × Nat × Nat, (σ (σ.symm u.1), σ (σ.symm u.2.1), σ (σ.symm u.2.2)) = u := fun u => by simp
  refine ⟨U.map (fun q => ((σ.symm q.1.1, σ.symm q.1.2.1, σ.symm q.1.2.2), q.2)), ?_, ?_, ?_, isLabels_perm hreg hA hB hX l1, b1, by rw [List.length_map, c1], ?_⟩
  · have : (U.map (fun q => ((σ.symm q.1.1, σ.symm q.1.2.1, σ.symm q.1.2.2), q.2))).map (·.1) = (U.map (·.1)).map (fun u => (σ.symm u.1, σ.symm u.2.1, σ.symm u.2.2)) := by rw [List.map_map, List.map_map]; rfl
    rw [this]
    refine n1.map ?_
    intro u v huv
    simp only [Prod.mk.injEq, EmbeddingLike.apply_eq_iff_eq] at huv
    exact Prod.ext huv.1 (Prod.ext huv.2.1 huv.2.2)
  · intro u
    rw [rowTriplet_perm σ hσ hreg hA hB hX, ← m1]
    simp only [List.mem_map]
    constructor
    · rintro ⟨_, ⟨q, hq, rfl⟩, rfl⟩
      exact ⟨q, hq, (hinv q.1).symm⟩
    · rintro ⟨q, hq, e⟩
      refine ⟨_, ⟨q, hq, rfl⟩, ?_⟩
      rw [e]
      simp
  · intro q hq
    obtain ⟨p, hp, rfl⟩ := List.mem_map.mp hq
    obtain ⟨fA, fB, fX, d, d', j1, j2, j3, j4⟩ := s1 p hp
    exact ⟨fA, fB, fX, d, d', by rw [hρ]; simpa using j1, by rw [hρ]; simpa using j2, by rw [hρ]; simpa using j3, j4⟩
  · rw [r1, List.map_map]
    rfl

include hρ in
/-- all rows of the one are rows of the other -/
theorem rowsOf_sub {out out' : List OutRow} (h : RowsOf c on across by_ filters regs rows lt dist recs (regs.map idx) out) (h' : RowsOf c on across by_ filters regs' rows' lt dist recs' (regs'.map idx') out') : ∀ o ∈ out, o ∈ out' := by
  obtain ⟨K, -, k2, k3⟩ := h
  obtain ⟨K', -, k2', k3'⟩ := h'
  intro o ho
  obtain ⟨i, hi⟩ := List.getElem?_of_mem ho
  obtain ⟨⟨key, v⟩, g1, g2⟩ := Distances.forall₂_getElem k3.flip hi
  obtain ⟨u, hu⟩ := (k2 _).mp (List.mem_of_getElem? g1)
  obtain ⟨rA, rB, rX, i1, i2, i3, -⟩ := hu.1
  obtain ⟨e1, e2⟩ := hu.2 _ _ _ i1 i2 i3
  dsimp only at e1 e2
  subst e2
  have hA := List.mem_of_getElem? i1
  have hB := List.mem_of_getElem? i2
  have hX := List.mem_of_getElem? i3
  have hk : (key, regs'.map (fun f => f.fn (sem c rA rB rX))) ∈ K' := by
    rw [k2']
    refine ⟨(σ.symm u.1, σ.symm u.2.1, σ.symm u.2.2), ?_⟩
    rw [rowTriplet_perm σ hσ hreg hA hB hX]
    simpa using hu
  obtain ⟨j, hj⟩ := List.getElem?_of_mem hk
  obtain ⟨o', g3, g4⟩ := Distances.forall₂_getElem k3' hj
  have := isRow_unique (isRow_perm σ hσ hρ hreg hA hB hX g2) g4 (by simp)
  rw [this]
  exact List.mem_of_getElem? g3

omit hσ in
/-- no row twice -/
theorem rowsOf_nodup {out : List OutRow} (h : RowsOf c on across by_ filters regs rows lt dist recs (regs.map idx) out) : out.Nodup := by
  obtain ⟨K, k1, k2, k3⟩ := h
  rw [List.nodup_iff_getElem?_ne_getElem?]
  intro i j hij hj he
  have hi : i < out.length := hij.trans hj
  obtain ⟨⟨key, v⟩, g1, g2⟩ := Distances.forall₂_getElem k3.flip (List.getElem?_eq_getElem hi)
  obtain ⟨⟨key', v'⟩, g1', g2'⟩ := Distances.forall₂_getElem k3.flip (List.getElem?_eq_getElem hj)
  have ho : out[i] = out[j] := by rw [List.getElem?_eq_getElem hi, List.getElem?_eq_getElem hj] at he; exact Option.some.inj he
  rw [← ho] at g2'
  obtain ⟨u, hu⟩ := (k2 _).mp (List.mem_of_getElem? g1)
  obtain ⟨u', hu'⟩ := (k2 _).mp (List.mem_of_getElem? g1')
  obtain ⟨rA, rB, rX, i1, i2, i3, -⟩ := hu.1
  obtain ⟨sA, sB, sX, j1, j2, j3, -⟩ := hu'.1
  obtain ⟨-, e2⟩ := hu.2 _ _ _ i1 i2 i3
  obtain ⟨-, e2'⟩ := hu'.2 _ _ _ j1 j2 j3
  dsimp only at e2 e2'
  subst e2 e2'
  obtain ⟨-, -, -, -, l1, b1, -⟩ := g2
  obtain ⟨-, -, -, -, l2, b2, -⟩ := g2'
  dsimp only at l1 l2 b1 b2
  have hv : regs.map (fun f => f.fn (sem c rA rB rX)) = regs.map (fun f => f.fn (sem c sA sB sX)) := by
    apply List.map_congr_left
    intro f hf
    obtain ⟨n, hn⟩ := List.getElem?_of_mem hf
    obtain ⟨f', -, q⟩ := Distances.forall₂_getElem hreg hn
    obtain ⟨x, x1, -⟩ := q.2.2 rA (List.mem_of_getElem? i1) rB (List.mem_of_getElem? i2) rX (List.mem_of_getElem? i3)
    refine (List.getElem?_inj (List.getElem?_eq_some_iff.mp x1).1 q.1).mp ?_
    have z1 := l1.2 n (idx f) (f.fn (sem c rA rB rX)) (by rw [List.getElem?_map, hn]; rfl) (by rw [List.getElem?_map, hn]; rfl)
    have z2 := l2.2 n (idx f) (f.fn (sem c sA sB sX)) (by rw [List.getElem?_map, hn]; rfl) (by rw [List.getElem?_map, hn]; rfl)
    exact z1.symm.trans z2
  have hKi := (List.getElem?_eq_some_iff.mp g1).1
  have := (List.getElem?_inj hKi k1).mp (g1.trans (by rw [g1', hv, ← b1, ← b2]))
  omega

end

theorem sem_mem {c : Cols} {rows : List Row} {rA rB rX : Row} (hA : rA ∈ rows) (hB : rB ∈ rows) (hX : rX ∈ rows) (v : Var) : ∃ r ∈ rows, sem c rA rB rX v = r v.1 := by
  obtain ⟨n, s⟩ := v
  cases s <;> unfold sem <;> dsimp only
  all_goals first
    | exact ⟨rA, hA, rfl⟩
    | exact ⟨rB, hB, rfl⟩
    | exact ⟨rX, hX, rfl⟩
    | (split
       · exact ⟨rB, hB, rfl⟩
       · exact ⟨rX, hX, rfl⟩)

/-- the label of a value of a column is the value, in every table with this line and whatever the order of the values -/
theorem column_label {e : Env} (he : e.Lawful) {db : Frame} (v : Var) {c : Cols} {rA rB rX : Row} (hA : rA ∈ db.map (·.2)) (hB : rB ∈ db.map (·.2)) (hX : rX ∈ db.map (·.2)) :
    (columnIndex e.sort (db.map (fun p => p.2 v.1)))[(columnReg e db v).fn (sem c rA rB rX)]? = some (sem c rA rB rX v) := by
  obtain ⟨r, hr, e1⟩ := sem_mem (c := c) hA hB hX v
  have hm : sem c rA rB rX v ∈ columnIndex e.sort (db.map (fun p => p.2 v.1)) := by
    unfold columnIndex
    rw [(he.sort _).mem_iff, List.mem_dedup, e1]
    obtain ⟨p, hp, rfl⟩ := List.mem_map.mp hr
    exact List.mem_map.mpr ⟨p, hp, rfl⟩
  have hlt : (columnIndex e.sort (db.map (fun p => p.2 v.1))).findIdx (· == sem c rA rB rX v) < (columnIndex e.sort (db.map (fun p => p.2 v.1))).length := List.findIdx_lt_length.mpr ⟨_, hm, by simp⟩
  show (columnIndex e.sort (db.map (fun p => p.2 v.1)))[(columnIndex e.sort (db.map (fun p => p.2 v.1))).findIdx (· == sem c rA rB rX v)]? = _
  rw [List.getElem?_eq_getElem hlt]
  have := List.findIdx_getElem (p := (· == sem c rA rB rX v)) (w := hlt)
  simpa using this

theorem sameLabel_column {e e' : Env} (he : e.Lawful) (he' : e'.Lawful) {db db' : Frame} (hm : ∀ r, r ∈ db.map (·.2) → r ∈ db'.map (·.2)) (c : Cols) (v : Var) :
    SameLabel c (db.map (·.2)) (columnReg e db v, columnIndex e.sort (db.map (fun p => p.2 v.1))) (columnReg e' db' v, columnIndex e'.sort (db'.map (fun p => p.2 v.1))) :=
  ⟨(he.sort _).nodup_iff.mpr (List.nodup_dedup _), (he'.sort _).nodup_iff.mpr (List.nodup_dedup _), fun _ hA _ hB _ hX => ⟨_, column_label he v hA hB hX, column_label he' v (hm _ hA) (hm _ hB) (hm _ hX)⟩⟩

end ABX.Pipeline
