import Verif.Spec.RowRename
import Verif.Proofs.RowLevels
/-! Lemmas for C116. -/
namespace ABX.Pipeline
open ExtSort ABX.Task Pairs SideOps Sampler Distances Score EndToEnd Analyze F64 ABX.Spec
variable {ρ φ δ δ' : Type}

theorem sem_ren (ren : String → Val → Val) (c : Cols) (rA rB rX : Row) (v : Var) : sem c (renLine ren rA) (renLine ren rB) (renLine ren rX) v = ren v.1 (sem c rA rB rX v) := by
  obtain ⟨n, s⟩ := v
  cases s <;> unfold sem renLine <;> dsimp only
  split <;> rfl

theorem zipWith_labels {α : Type} (g : α → Val → Val) (f : α → Val) (l : List α) : List.zipWith g l (l.map f) = l.map (fun x => g x (f x)) := by
  induction l with
  | nil => rfl
  | cons x l ih => rw [List.map_cons, List.zipWith_cons_cons, ih, List.map_cons]

/-- the names of a level -/
theorem byLabels_ren (ren : String → Val → Val) (by_ : List String) (r : Row) : byLabels by_ (renLine ren r) = if by_ = [] then byLabels by_ r else List.zipWith ren by_ (byLabels by_ r) := by
  unfold byLabels
  split
  · rfl
  · rw [zipWith_labels]
    rfl

section
variable {ren : String → Val → Val} (hren : ∀ c, Function.Injective (ren c))
include hren

theorem map_ren (l : List String) (r s : Row) : l.map (renLine ren r) = l.map (renLine ren s) ↔ l.map r = l.map s := by
  rw [List.map_inj_left, List.map_inj_left]
  exact forall_congr' fun c => imp_congr_right fun _ => (hren c).eq_iff

theorem byLabels_ren_iff (by_ : List String) (r s : Row) : byLabels by_ (renLine ren r) = byLabels by_ (renLine ren s) ↔ byLabels by_ r = byLabels by_ s := by
  unfold byLabels
  split
  · simp
  · exact map_ren hren by_ r s

theorem legal_ren (on : String) (across : List String) (A B X : Nat) (rA rB rX : Row) :
    legal on across (A, renLine ren rA) (B, renLine ren rB) (X, renLine ren rX) = legal on across (A, rA) (B, rB) (X, rX) := by
  have hb : ∀ (c : String) (r s : Row), (renLine ren r c == renLine ren s c) = (r c == s c) := by
    intro c r s
    rw [Bool.eq_iff_iff, beq_iff_eq, beq_iff_eq]
    exact (hren c).eq_iff
  unfold legal bne
  simp only [hb]

/-- rows with the same new names have the same names -/
theorem renOut_inj {by_ : List String} {vars : List Var} {o o' : OutRow} (hb : by_ ≠ [] → o.by_.length = by_.length ∧ o'.by_.length = by_.length) (hl : o.labels.length = vars.length) (hl' : o'.labels.length = vars.length)
    (h : renOut ren by_ vars o = renOut ren by_ vars o') : o = o' := by
  have zip : ∀ {α : Type} (g : α → Val → Val), (∀ x, Function.Injective (g x)) → ∀ (l : List α) (p q : List Val), p.length = l.length → q.length = l.length → List.zipWith g l p = List.zipWith g l q → p = q := by
    intro α g hg l
    induction l with
    | nil => intro p q hp hq _; rw [List.length_eq_zero_iff.mp hp, List.length_eq_zero_iff.mp hq]
    | cons x l ih =>
      intro p q hp hq e
      match p, q, hp, hq, e with
      | y :: p, z :: q, hp, hq, e =>
        rw [List.zipWith_cons_cons, List.zipWith_cons_cons, List.cons.injEq] at e
        rw [hg x e.1, ih p q (by simpa using hp) (by simpa using hq) e.2]
  obtain ⟨l, b, s, n⟩ := o
  obtain ⟨l', b', s', n'⟩ := o'
  unfold renOut at h
  simp only [OutRow.mk.injEq] at h ⊢
  obtain ⟨h1, h2, h3, h4⟩ := h
  refine ⟨zip _ (fun v => hren v.1) vars l l' hl hl' h1, ?_, h3, h4⟩
  split at h2
  · exact h2
  · next hne => exact zip _ hren by_ b b' (hb hne).1 (hb hne).2 h2

end

section
variable {e : Env} {db : Frame} {c : Cols}

/-- the codes of two lines agree when their labels do -/
theorem codes_iff (he : e.Lawful) {vars : List Var} {rA rB rX sA sB sX : Row} (hA : rA ∈ db.map (·.2)) (hB : rB ∈ db.map (·.2)) (hX : rX ∈ db.map (·.2)) (iA : sA ∈ db.map (·.2)) (iB : sB ∈ db.map (·.2)) (iX : sX ∈ db.map (·.2)) :
    (vars.map (columnReg e db)).map (fun f => f.fn (sem c rA rB rX)) = (vars.map (columnReg e db)).map (fun f => f.fn (sem c sA sB sX)) ↔ ∀ v ∈ vars, sem c rA rB rX v = sem c sA sB sX v := by
  rw [List.map_map, List.map_map, List.map_inj_left]
  refine forall_congr' fun v => imp_congr_right fun _ => ?_
  have x1 := column_label he v (c := c) hA hB hX
  have y1 := column_label he v (c := c) iA iB iX
  have hn : (columnIndex e.sort (db.map (fun p => p.2 v.1))).Nodup := (he.sort _).nodup_iff.mpr (List.nodup_dedup _)
  show (columnReg e db v).fn (sem c rA rB rX) = (columnReg e db v).fn (sem c sA sB sX) ↔ _
  rw [← List.getElem?_inj (List.getElem?_eq_some_iff.mp x1).1 hn, x1, y1, Option.some.injEq]

/-- the labels of a row are those of its triplets -/
theorem labels_iff {a : Args ρ} (he : e.Lawful) {vars : List Var} {rA rB rX : Row} (hA : rA ∈ a.db.map (·.2)) (hB : rB ∈ a.db.map (·.2)) (hX : rX ∈ a.db.map (·.2)) {l : List Val} :
    Spec.IsLabels ((vars.map (columnReg e a.db)).map (idxOf e a)) ((vars.map (columnReg e a.db)).map (fun f => f.fn (sem c rA rB rX))) l ↔ l = vars.map (sem c rA rB rX) := by
  have key : ∀ (j : Nat) (v : Var), vars[j]? = some v → ((vars.map (columnReg e a.db)).map (idxOf e a))[j]? = some (columnIndex e.sort (a.db.map (fun p => p.2 v.1))) ∧
      ((vars.map (columnReg e a.db)).map (fun f => f.fn (sem c rA rB rX)))[j]? = some ((columnReg e a.db v).fn (sem c rA rB rX)) := by
    intro j v hj
    rw [List.map_map, List.map_map, List.getElem?_map, List.getElem?_map, hj]
    exact ⟨rfl, rfl⟩
  constructor
  · rintro ⟨h1, h2⟩
    refine List.ext_getElem? fun j => ?_
    rw [List.getElem?_map]
    cases hj : vars[j]? with
    | none =>
      rw [List.getElem?_eq_none_iff] at hj
      rw [List.getElem?_eq_none_iff.mpr (by rw [h1]; simpa using hj)]
      rfl
    | some v =>
      rw [h2 j _ _ (key j v hj).1 (key j v hj).2, column_label he v hA hB hX]
      rfl
  · rintro rfl
    refine ⟨by simp, fun j ix x hj hx => ?_⟩
    cases hv : vars[j]? with
    | none => rw [List.getElem?_map, List.getElem?_map, hv] at hj; cases hj
    | some v =>
      rw [(key j v hv).1] at hj
      rw [(key j v hv).2] at hx
      cases hj
      cases hx
      rw [column_label he v hA hB hX, List.getElem?_map, hv]
      rfl

end

section
variable {a : Args ρ} {a' : Args ρ} {e e' : Env} {vars : List Var} {ren : String → Val → Val} (hren : ∀ c, Function.Injective (ren c)) (he : e.Lawful) (he' : e'.Lawful)
  (hrows : a'.db.map (·.2) = (a.db.map (·.2)).map (renLine ren)) {c : Cols} {on : String} {across by_ : List String} {filters filters' : List (DBFun Bool)}
  (hfs : ∀ rA ∈ a.db.map (·.2), ∀ rB ∈ a.db.map (·.2), ∀ rX ∈ a.db.map (·.2), ((∀ f ∈ filters', holds c f (renLine ren rA) (renLine ren rB) (renLine ren rX) = true) ↔ ∀ f ∈ filters, holds c f rA rB rX = true))

include hrows in
theorem row_ren {i : Nat} {r' : Row} : (a'.db.map (·.2))[i]? = some r' ↔ ∃ r, (a.db.map (·.2))[i]? = some r ∧ renLine ren r = r' := by
  rw [hrows, List.getElem?_map (l := a.db.map (·.2)), Option.map_eq_some_iff]

include hren he he' hrows hfs in
/-- the triplets of a combination are those of the renamed one -/
theorem rowTriplet_ren {rA rB rX : Row} (hA : rA ∈ a.db.map (·.2)) (hB : rB ∈ a.db.map (·.2)) (hX : rX ∈ a.db.map (·.2)) (u : Nat × Nat × Nat) :
    RowTriplet c on across by_ filters' (vars.map (columnReg e' a'.db)) (a'.db.map (·.2)) (byLabels by_ (renLine ren rA), (vars.map (columnReg e' a'.db)).map (fun f => f.fn (sem c (renLine ren rA) (renLine ren rB) (renLine ren rX)))) u ↔
    RowTriplet c on across by_ filters (vars.map (columnReg e a.db)) (a.db.map (·.2)) (byLabels by_ rA, (vars.map (columnReg e a.db)).map (fun f => f.fn (sem c rA rB rX))) u := by
  have mem' : ∀ {r : Row}, r ∈ a.db.map (·.2) → renLine ren r ∈ a'.db.map (·.2) := fun h => by rw [hrows]; exact List.mem_map_of_mem h
  have step : ∀ {sA sB sX : Row}, (a.db.map (·.2))[u.1]? = some sA → (a.db.map (·.2))[u.2.1]? = some sB → (a.db.map (·.2))[u.2.2]? = some sX →
      ((by_.map (renLine ren sB) = by_.map (renLine ren sA) ∧ by_.map (renLine ren sX) = by_.map (renLine ren sA) ∧ legal on across (u.1, renLine ren sA) (u.2.1, renLine ren sB) (u.2.2, renLine ren sX) = true ∧
        ∀ f ∈ filters', holds c f (renLine ren sA) (renLine ren sB) (renLine ren sX) = true) ↔
       (by_.map sB = by_.map sA ∧ by_.map sX = by_.map sA ∧ legal on across (u.1, sA) (u.2.1, sB) (u.2.2, sX) = true ∧ ∀ f ∈ filters, holds c f sA sB sX = true)) ∧
      ((vars.map (columnReg e' a'.db)).map (fun f => f.fn (sem c (renLine ren sA) (renLine ren sB) (renLine ren sX))) = (vars.map (columnReg e' a'.db)).map (fun f => f.fn (sem c (renLine ren rA) (renLine ren rB) (renLine ren rX))) ↔
       (vars.map (columnReg e a.db)).map (fun f => f.fn (sem c sA sB sX)) = (vars.map (columnReg e a.db)).map (fun f => f.fn (sem c rA rB rX))) := by
    intro sA sB sX i1 i2 i3
    have iA := List.mem_of_getElem? i1
    have iB := List.mem_of_getElem? i2
    have iX := List.mem_of_getElem? i3
    refine ⟨by rw [map_ren hren, map_ren hren, legal_ren hren, hfs _ iA _ iB _ iX], ?_⟩
    rw [codes_iff he' (mem' iA) (mem' iB) (mem' iX) (mem' hA) (mem' hB) (mem' hX), codes_iff he iA iB iX hA hB hX]
    refine forall_congr' fun v => imp_congr_right fun _ => ?_
    rw [sem_ren, sem_ren, (hren _).eq_iff]
  rw [rowTriplet_rows, rowTriplet_rows]
  constructor
  · rintro ⟨sA', sB', sX', j1, j2, j3, h, ⟨k1, k2, k3⟩, hv⟩
    obtain ⟨sA, i1, rfl⟩ := (row_ren hrows).mp j1
    obtain ⟨sB, i2, rfl⟩ := (row_ren hrows).mp j2
    obtain ⟨sX, i3, rfl⟩ := (row_ren hrows).mp j3
    rw [byLabels_ren_iff hren] at k1 k2 k3
    exact ⟨sA, sB, sX, i1, i2, i3, (step i1 i2 i3).1.mp h, ⟨k1, k2, k3⟩, (step i1 i2 i3).2.mp hv⟩
  · rintro ⟨sA, sB, sX, i1, i2, i3, h, ⟨k1, k2, k3⟩, hv⟩
    exact ⟨_, _, _, (row_ren hrows).mpr ⟨sA, i1, rfl⟩, (row_ren hrows).mpr ⟨sB, i2, rfl⟩, (row_ren hrows).mpr ⟨sX, i3, rfl⟩, (step i1 i2 i3).1.mpr h,
      ⟨(byLabels_ren_iff hren ..).mpr k1, (byLabels_ren_iff hren ..).mpr k2, (byLabels_ren_iff hren ..).mpr k3⟩, (step i1 i2 i3).2.mpr hv⟩

include hren he he' hrows hfs in
/-- the results on the renamed table are the renamed results -/
theorem rowsOf_ren {lt : δ → δ → Bool} {lt' : δ' → δ' → Bool} {dist : ρ → ρ → Except Err δ} {dist' : ρ → ρ → Except Err δ'} (hsc : ∀ u w, IsLineScore lt dist a.feat u w → IsLineScore lt' dist' a'.feat u w) {out out' : List OutRow}
    (h : RowsOf c on across by_ filters (vars.map (columnReg e a.db)) (a.db.map (·.2)) lt dist a.feat ((vars.map (columnReg e a.db)).map (idxOf e a)) out)
    (h' : RowsOf c on across by_ filters' (vars.map (columnReg e' a'.db)) (a'.db.map (·.2)) lt' dist' a'.feat ((vars.map (columnReg e' a'.db)).map (idxOf e' a')) out')
    (hn : out.Nodup) (hn' : out'.Nodup) : out'.Perm (out.map (renOut ren by_ vars)) := by
  have mem' : ∀ {r : Row}, r ∈ a.db.map (·.2) → renLine ren r ∈ a'.db.map (·.2) := fun h => by rw [hrows]; exact List.mem_map_of_mem h
  obtain ⟨K, -, k2, k3⟩ := h
  obtain ⟨K', -, k2', k3'⟩ := h'
  -- the row of a triplet
  have main : ∀ {rA rB rX : Row}, rA ∈ a.db.map (·.2) → rB ∈ a.db.map (·.2) → rX ∈ a.db.map (·.2) → ∀ {o o' : OutRow},
      IsRow (RowTriplet c on across by_ filters (vars.map (columnReg e a.db)) (a.db.map (·.2)) (byLabels by_ rA, (vars.map (columnReg e a.db)).map (fun f => f.fn (sem c rA rB rX)))) lt dist a.feat ((vars.map (columnReg e a.db)).map (idxOf e a))
        (byLabels by_ rA, (vars.map (columnReg e a.db)).map (fun f => f.fn (sem c rA rB rX))) o →
      IsRow (RowTriplet c on across by_ filters' (vars.map (columnReg e' a'.db)) (a'.db.map (·.2)) (byLabels by_ (renLine ren rA), (vars.map (columnReg e' a'.db)).map (fun f => f.fn (sem c (renLine ren rA) (renLine ren rB) (renLine ren rX))))) lt' dist' a'.feat
        ((vars.map (columnReg e' a'.db)).map (idxOf e' a')) (byLabels by_ (renLine ren rA), (vars.map (columnReg e' a'.db)).map (fun f => f.fn (sem c (renLine ren rA) (renLine ren rB) (renLine ren rX)))) o' → o' = renOut ren by_ vars o := by
    intro rA rB rX hA hB hX o o' g g'
    refine (isRow_unique (o := renOut ren by_ vars o) ?_ g' (by simp)).symm
    obtain ⟨U, n1, m1, s1, l1, b1, c1, r1⟩ := g
    refine ⟨U, n1, fun u => by rw [m1, rowTriplet_ren hren he he' hrows hfs hA hB hX], fun q hq => hsc _ _ (s1 q hq), ?_, ?_, c1, r1⟩
    · rw [labels_iff he' (mem' hA) (mem' hB) (mem' hX)]
      rw [labels_iff he hA hB hX] at l1
      show List.zipWith (fun v x => ren v.1 x) vars o.labels = _
      rw [l1, zipWith_labels]
      exact List.map_congr_left fun v _ => (sem_ren ..).symm
    · show (if by_ = [] then o.by_ else List.zipWith ren by_ o.by_) = _
      rw [b1, byLabels_ren]
  have row : ∀ o ∈ out, ∃ u rA rB rX, rA ∈ a.db.map (·.2) ∧ rB ∈ a.db.map (·.2) ∧ rX ∈ a.db.map (·.2) ∧
      RowTriplet c on across by_ filters (vars.map (columnReg e a.db)) (a.db.map (·.2)) (byLabels by_ rA, (vars.map (columnReg e a.db)).map (fun f => f.fn (sem c rA rB rX))) u ∧
      IsRow (RowTriplet c on across by_ filters (vars.map (columnReg e a.db)) (a.db.map (·.2)) (byLabels by_ rA, (vars.map (columnReg e a.db)).map (fun f => f.fn (sem c rA rB rX)))) lt dist a.feat ((vars.map (columnReg e a.db)).map (idxOf e a))
        (byLabels by_ rA, (vars.map (columnReg e a.db)).map (fun f => f.fn (sem c rA rB rX))) o := by
    intro o ho
    obtain ⟨i, hi⟩ := List.getElem?_of_mem ho
    obtain ⟨⟨key, v⟩, g1, g2⟩ := Distances.forall₂_getElem k3.flip hi
    obtain ⟨u, hu⟩ := (k2 _).mp (List.mem_of_getElem? g1)
    obtain ⟨rA, rB, rX, i1, i2, i3, -, ⟨rfl, -, -⟩, rfl⟩ := rowTriplet_rows.mp hu
    exact ⟨u, rA, rB, rX, List.mem_of_getElem? i1, List.mem_of_getElem? i2, List.mem_of_getElem? i3, hu, g2⟩
  have lens : ∀ o ∈ out, (by_ ≠ [] → o.by_.length = by_.length) ∧ o.labels.length = vars.length := by
    intro o ho
    obtain ⟨u, rA, rB, rX, hA, hB, hX, -, U, -, -, -, l1, b1, -⟩ := row o ho
    rw [labels_iff he hA hB hX] at l1
    rw [b1, l1]
    refine ⟨fun hne => ?_, by simp⟩
    show (byLabels by_ rA).length = _
    unfold byLabels
    rw [if_neg hne, List.length_map]
  have hnd : (out.map (renOut ren by_ vars)).Nodup :=
    List.Nodup.map_on (fun o ho o' ho' q => renOut_inj hren (fun hne => ⟨(lens o ho).1 hne, (lens o' ho').1 hne⟩) (lens o ho).2 (lens o' ho').2 q) hn
  rw [List.perm_ext_iff_of_nodup hn' hnd]
  intro o'
  rw [List.mem_map]
  constructor
  · intro ho'
    obtain ⟨i, hi⟩ := List.getElem?_of_mem ho'
    obtain ⟨⟨key, v⟩, g1, g2⟩ := Distances.forall₂_getElem k3'.flip hi
    obtain ⟨u, hu⟩ := (k2' _).mp (List.mem_of_getElem? g1)
    obtain ⟨rA', rB', rX', j1, j2, j3, -, ⟨rfl, -, -⟩, rfl⟩ := rowTriplet_rows.mp hu
    obtain ⟨rA, i1, rfl⟩ := (row_ren hrows).mp j1
    obtain ⟨rB, i2, rfl⟩ := (row_ren hrows).mp j2
    obtain ⟨rX, i3, rfl⟩ := (row_ren hrows).mp j3
    have hA := List.mem_of_getElem? i1
    have hB := List.mem_of_getElem? i2
    have hX := List.mem_of_getElem? i3
    rw [rowTriplet_ren hren he he' hrows hfs hA hB hX] at hu
    obtain ⟨j, hj⟩ := List.getElem?_of_mem ((k2 _).mpr ⟨u, hu⟩)
    obtain ⟨o, g3, g4⟩ := Distances.forall₂_getElem k3 hj
    exact ⟨o, List.mem_of_getElem? g3, (main hA hB hX g4 g2).symm⟩
  · rintro ⟨o, ho, rfl⟩
    obtain ⟨u, rA, rB, rX, hA, hB, hX, hu, g⟩ := row o ho
    obtain ⟨j, hj⟩ := List.getElem?_of_mem ((k2' _).mpr ⟨u, (rowTriplet_ren hren he he' hrows hfs hA hB hX u).mpr hu⟩)
    obtain ⟨o', g3, g4⟩ := Distances.forall₂_getElem k3' hj
    rw [← main hA hB hX g g4]
    exact List.mem_of_getElem? g3

end

end ABX.Pipeline
