import Verif.Proofs.RowRename
/-! Lemmas for C117. -/
namespace ABX.Pipeline
open ExtSort ABX.Task Pairs SideOps Sampler Distances Score EndToEnd Analyze F64 ABX.Spec
variable {ρ φ δ : Type}

section
variable {a : Args ρ} {e : Env} {vars : List Var} {c : Cols} {on : String} {across by_ : List String} {filters : List (DBFun Bool)} {lt : δ → δ → Bool} {dist : ρ → ρ → Except Err δ} {recs : List ρ}

/-- the combination of the labels of a triplet of rows -/
abbrev combo (e : Env) (a : Args ρ) (vars : List Var) (c : Cols) (by_ : List String) (rA rB rX : Row) : List Val × List Nat := (byLabels by_ rA, (vars.map (columnReg e a.db)).map (fun f => f.fn (sem c rA rB rX)))

/-- a row of the results is that of the labels of some triplet -/
theorem rowsOf_mem {out : List OutRow} {L : List (List Val)} (h : RowsOf c on across by_ filters (vars.map (columnReg e a.db)) (a.db.map (·.2)) lt dist recs L out) {o : OutRow} (ho : o ∈ out) :
    ∃ u rA rB rX, (a.db.map (·.2))[u.1]? = some rA ∧ (a.db.map (·.2))[u.2.1]? = some rB ∧ (a.db.map (·.2))[u.2.2]? = some rX ∧ RowTriplet c on across by_ filters (vars.map (columnReg e a.db)) (a.db.map (·.2)) (combo e a vars c by_ rA rB rX) u ∧
      IsRow (RowTriplet c on across by_ filters (vars.map (columnReg e a.db)) (a.db.map (·.2)) (combo e a vars c by_ rA rB rX)) lt dist recs L (combo e a vars c by_ rA rB rX) o := by
  obtain ⟨K, -, k2, k3⟩ := h
  obtain ⟨i, hi⟩ := List.getElem?_of_mem ho
  obtain ⟨⟨key, v⟩, g1, g2⟩ := Distances.forall₂_getElem k3.flip hi
  obtain ⟨u, hu⟩ := (k2 _).mp (List.mem_of_getElem? g1)
  obtain ⟨rA, rB, rX, i1, i2, i3, -, ⟨rfl, -, -⟩, rfl⟩ := rowTriplet_rows.mp hu
  exact ⟨u, rA, rB, rX, i1, i2, i3, hu, g2⟩

/-- a combination of a triplet has its row -/
theorem rowsOf_of {regs : List (DBFun Nat)} {rows : List Row} {out : List OutRow} {L : List (List Val)} (h : RowsOf c on across by_ filters regs rows lt dist recs L out) {k : List Val × List Nat} {u : Nat × Nat × Nat}
    (hu : RowTriplet c on across by_ filters regs rows k u) : ∃ o ∈ out, IsRow (RowTriplet c on across by_ filters regs rows k) lt dist recs L k o := by
  obtain ⟨K, -, k2, k3⟩ := h
  obtain ⟨i, hi⟩ := List.getElem?_of_mem ((k2 k).mpr ⟨u, hu⟩)
  obtain ⟨o, g3, g4⟩ := Distances.forall₂_getElem k3 hi
  exact ⟨o, List.mem_of_getElem? g3, g4⟩

/-- the labels of a row -/
theorem isRow_labels (he : e.Lawful) {P : Nat × Nat × Nat → Prop} {rA rB rX : Row} (hA : rA ∈ a.db.map (·.2)) (hB : rB ∈ a.db.map (·.2)) (hX : rX ∈ a.db.map (·.2)) {o : OutRow}
    (h : IsRow P lt dist recs ((vars.map (columnReg e a.db)).map (idxOf e a)) (combo e a vars c by_ rA rB rX) o) : o.by_ = byLabels by_ rA ∧ o.labels = vars.map (sem c rA rB rX) := by
  obtain ⟨U, -, -, -, l1, b1, -⟩ := h
  exact ⟨b1, (labels_iff he hA hB hX).mp l1⟩

/-- the same row, with other codes of the labels -/
theorem isRow_codes {a' : Args ρ} {e' : Env} (he : e.Lawful) (he' : e'.Lawful) {P P' : Nat × Nat × Nat → Prop} (hP : ∀ u, P' u ↔ P u) {rA rB rX : Row} (hA : rA ∈ a.db.map (·.2)) (hB : rB ∈ a.db.map (·.2)) (hX : rX ∈ a.db.map (·.2)) (hA' : rA ∈ a'.db.map (·.2))
    (hB' : rB ∈ a'.db.map (·.2)) (hX' : rX ∈ a'.db.map (·.2)) {o : OutRow} (h : IsRow P lt dist recs ((vars.map (columnReg e a.db)).map (idxOf e a)) (combo e a vars c by_ rA rB rX) o) :
    IsRow P' lt dist recs ((vars.map (columnReg e' a'.db)).map (idxOf e' a')) (combo e' a' vars c by_ rA rB rX) o := by
  obtain ⟨U, n1, m1, s1, l1, b1, c1, r1⟩ := h
  exact ⟨U, n1, fun u => by rw [m1, hP], s1, (labels_iff he' hA' hB' hX').mpr ((labels_iff he hA hB hX).mp l1), b1, c1, r1⟩

/-- the triplets of a combination, by labels -/
theorem rowTriplet_labels (he : e.Lawful) {rA rB rX : Row} (hA : rA ∈ a.db.map (·.2)) (hB : rB ∈ a.db.map (·.2)) (hX : rX ∈ a.db.map (·.2)) (u : Nat × Nat × Nat) :
    RowTriplet c on across by_ filters (vars.map (columnReg e a.db)) (a.db.map (·.2)) (combo e a vars c by_ rA rB rX) u ↔ LineTriplet c on across by_ filters (a.db.map (·.2)) u ∧
      ∀ sA sB sX, (a.db.map (·.2))[u.1]? = some sA → (a.db.map (·.2))[u.2.1]? = some sB → (a.db.map (·.2))[u.2.2]? = some sX → byLabels by_ sA = byLabels by_ rA ∧ vars.map (sem c sA sB sX) = vars.map (sem c rA rB rX) := by
  refine and_congr_right fun _ => ?_
  refine forall_congr' fun sA => forall_congr' fun sB => forall_congr' fun sX => imp_congr_right fun i1 => imp_congr_right fun i2 => imp_congr_right fun i3 => and_congr_right fun _ => ?_
  rw [codes_iff he (List.mem_of_getElem? i1) (List.mem_of_getElem? i2) (List.mem_of_getElem? i3) hA hB hX, List.map_inj_left]

end

end ABX.Pipeline
