import Verif.Properties.RowLines
/-! Lemmas for C115. -/
namespace ABX.Pipeline
open ExtSort ABX.Task Pairs SideOps Sampler Distances Score EndToEnd Analyze F64 ABX.Spec
variable {ρ φ δ : Type}

theorem byLabels_eq {by_ : List String} {r s : Row} (h : by_.map s = by_.map r) : byLabels by_ s = byLabels by_ r := by
  unfold byLabels
  rw [h]

section
variable {c : Cols} {on : String} {across by_ : List String} {filters : List (DBFun Bool)} {regs regs' : List (DBFun Nat)} {rows rows' : List Row} {recs recs' : List ρ} {lt : δ → δ → Bool} {dist : ρ → ρ → Except Err δ} {idx idx' : DBFun Nat → List Val}
  {key : List Val} (σ : Equiv.Perm Nat) (hσ : ∀ i r, byLabels by_ r = key → (rows'[i]? = some r ↔ rows[σ i]? = some r)) (hρ : ∀ i r, byLabels by_ r = key → rows'[i]? = some r → recs'[i]? = recs[σ i]?)

/-- the rows of the lines of a triplet of a level -/
theorem rowTriplet_rows {v : List Nat} {u : Nat × Nat × Nat} : RowTriplet c on across by_ filters regs rows (key, v) u ↔ ∃ rA rB rX, rows[u.1]? = some rA ∧ rows[u.2.1]? = some rB ∧ rows[u.2.2]? = some rX ∧
    (by_.map rB = by_.map rA ∧ by_.map rX = by_.map rA ∧ legal on across (u.1, rA) (u.2.1, rB) (u.2.2, rX) = true ∧ ∀ f ∈ filters, holds c f rA rB rX = true) ∧
    (byLabels by_ rA = key ∧ byLabels by_ rB = key ∧ byLabels by_ rX = key) ∧ regs.map (fun f => f.fn (sem c rA rB rX)) = v := by
  constructor
  · rintro ⟨⟨rA, rB, rX, i1, i2, i3, e1, e2, h⟩, hk⟩
    obtain ⟨k1, k2⟩ := hk _ _ _ i1 i2 i3
    exact ⟨rA, rB, rX, i1, i2, i3, ⟨e1, e2, h⟩, ⟨k1, (byLabels_eq e1).trans k1, (byLabels_eq e2).trans k1⟩, k2⟩
  · rintro ⟨rA, rB, rX, i1, i2, i3, ⟨e1, e2, h⟩, ⟨k1, -, -⟩, k2⟩
    refine ⟨⟨rA, rB, rX, i1, i2, i3, e1, e2, h⟩, fun sA sB sX j1 j2 j3 => ?_⟩
    rw [i1] at j1; rw [i2] at j2; rw [i3] at j3
    cases j1; cases j2; cases j3
    exact ⟨k1, k2⟩

variable (hreg : List.Forall₂ (fun f f' => SameLabel c (rows.filter (fun r => decide (byLabels by_ r = key))) (f, idx f) (f', idx' f')) regs regs')
include hσ hreg

/-- the triplets of a combination, in the other table -/
theorem rowTriplet_level {rA rB rX : Row} (hA : rA ∈ rows.filter (fun r => decide (byLabels by_ r = key))) (hB : rB ∈ rows.filter (fun r => decide (byLabels by_ r = key))) (hX : rX ∈ rows.filter (fun r => decide (byLabels by_ r = key))) (u : Nat × Nat × Nat) :
    RowTriplet c on across by_ filters regs' rows' (key, regs'.map (fun f => f.fn (sem c rA rB rX))) u ↔ RowTriplet c on across by_ filters regs rows (key, regs.map (fun f => f.fn (sem c rA rB rX))) (σ u.1, σ u.2.1, σ u.2.2) := by
  rw [rowTriplet_rows, rowTriplet_rows]
  have mem : ∀ {i : Nat} {r : Row}, rows[i]? = some r → byLabels by_ r = key → r ∈ rows.filter (fun r => decide (byLabels by_ r = key)) :=
    fun h k => List.mem_filter.mpr ⟨List.mem_of_getElem? h, by simpa using k⟩
  refine exists_congr fun sA => exists_congr fun sB => exists_congr fun sX => ?_
  rw [legal_lines (A := u.1) (B := u.2.1) (X := u.2.2) (i := σ u.1) (j := σ u.2.1) (k := σ u.2.2) ⟨fun e => by rw [e], fun e => σ.injective e⟩]
  constructor
  · rintro ⟨i1, i2, i3, h, ⟨k1, k2, k3⟩, hv⟩
    have j1 := (hσ _ _ k1).mp i1
    have j2 := (hσ _ _ k2).mp i2
    have j3 := (hσ _ _ k3).mp i3
    exact ⟨j1, j2, j3, h, ⟨k1, k2, k3⟩, (map_iff (hreg.imp (fun f f' q => sameLabel_iff q (mem j1 k1) (mem j2 k2) (mem j3 k3) hA hB hX))).mpr hv⟩
  · rintro ⟨j1, j2, j3, h, ⟨k1, k2, k3⟩, hv⟩
    exact ⟨(hσ _ _ k1).mpr j1, (hσ _ _ k2).mpr j2, (hσ _ _ k3).mpr j3, h, ⟨k1, k2, k3⟩, (map_iff (hreg.imp (fun f f' q => sameLabel_iff q (mem j1 k1) (mem j2 k2) (mem j3 k3) hA hB hX))).mp hv⟩

include hρ in
/-- the row of a combination is that of the other table -/
theorem isRow_level {rA rB rX : Row} (hA : rA ∈ rows.filter (fun r => decide (byLabels by_ r = key))) (hB : rB ∈ rows.filter (fun r => decide (byLabels by_ r = key))) (hX : rX ∈ rows.filter (fun r => decide (byLabels by_ r = key))) {o : OutRow}
    (h : IsRow (RowTriplet c on across by_ filters regs rows (key, regs.map (fun f => f.fn (sem c rA rB rX)))) lt dist recs (regs.map idx) (key, regs.map (fun f => f.fn (sem c rA rB rX))) o) :
    IsRow (RowTriplet c on across by_ filters regs' rows' (key, regs'.map (fun f => f.fn (sem c rA rB rX)))) lt dist recs' (regs'.map idx') (key, regs'.map (fun f => f.fn (sem c rA rB rX))) o := by
  obtain ⟨U, n1, m1, s1, l1, b1, c1, r1⟩ := h
  have hinv : ∀ u : Nat × Nat × Nat, (σ (σ.symm u.1), σ (σ.symm u.2.1), σ (σ.symm u.2.2)) = u := fun u => by simp
  refine ⟨U.map (fun q => ((σ.symm q.1.1, σ.symm q.1.2.1, σ.symm q.1.2.2), q.2)), ?_, ?_, ?_, isLabels_perm hreg hA hB hX l1, b1, by rw [List.length_map, c1], ?_⟩
  · have : (U.map (fun q => ((σ.symm q.1.1, σ.symm q.1.2.1, σ.symm q.1.2.2), q.2))).map (·.1) = (U.map (·.1)).map (fun u => (σ.symm u.1, σ.symm u.2.1, σ.symm u.2.2)) := by rw [List.map_map, List.map_map]; rfl
    rw [this]
    refine n1.map ?_
    intro u v huv
    simp only [Prod.mk.injEq, EmbeddingLike.apply_eq_iff_eq] at huv
    exact Prod.ext huv.1 (Prod.ext huv.2.1 huv.2.2)
  · intro u
    rw [rowTriplet_level σ hσ hreg hA hB hX, ← m1]
    simp only [List.mem_map]
    constructor
    · rintro ⟨_, ⟨q, hq, rfl⟩, rfl⟩
      exact ⟨q, hq, (hinv q.1).symm⟩
    · rintro ⟨q, hq, e⟩
      refine ⟨_, ⟨q, hq, rfl⟩, ?_⟩
      rw [e]
      simp
  · intro q hq
    obtain ⟨p, hp, rfl⟩ := List.mem_map.mp hq
    obtain ⟨fA, fB, fX, d, d', j1, j2, j3, j4⟩ := s1 p hp
    obtain ⟨sA, sB, sX, i1, i2, i3, -, ⟨k1, k2, k3⟩, -⟩ := rowTriplet_rows.mp ((m1 p.1).mp (List.mem_map.mpr ⟨p, hp, rfl⟩))
    refine ⟨fA, fB, fX, d, d', ?_, ?_, ?_, j4⟩
    · rw [hρ _ _ k1 ((hσ _ _ k1).mpr (by simpa using i1))]; simpa using j1
    · rw [hρ _ _ k2 ((hσ _ _ k2).mpr (by simpa using i2))]; simpa using j2
    · rw [hρ _ _ k3 ((hσ _ _ k3).mpr (by simpa using i3))]; simpa using j3
  · rw [r1, List.map_map]
    rfl

include hρ in
/-- all rows of a level of the one are rows of the other -/
theorem rowsOf_level {out out' : List OutRow} (h : RowsOf c on across by_ filters regs rows lt dist recs (regs.map idx) out) (h' : RowsOf c on across by_ filters regs' rows' lt dist recs' (regs'.map idx') out') :
    ∀ o ∈ out, o.by_ = key → o ∈ out' := by
  obtain ⟨K, -, k2, k3⟩ := h
  obtain ⟨K', -, k2', k3'⟩ := h'
  intro o ho hkey
  obtain ⟨i, hi⟩ := List.getElem?_of_mem ho
  obtain ⟨⟨key', v⟩, g1, g2⟩ := Distances.forall₂_getElem k3.flip hi
  obtain ⟨u, hu⟩ := (k2 _).mp (List.mem_of_getElem? g1)
  have hkk : key' = key := by
    obtain ⟨-, -, -, -, -, b, -⟩ := g2
    exact b.symm.trans hkey
  subst hkk
  obtain ⟨rA, rB, rX, i1, i2, i3, -, ⟨q1, q2, q3⟩, rfl⟩ := rowTriplet_rows.mp hu
  have mem : ∀ {i : Nat} {r : Row}, rows[i]? = some r → byLabels by_ r = key' → r ∈ rows.filter (fun r => decide (byLabels by_ r = key')) :=
    fun h k => List.mem_filter.mpr ⟨List.mem_of_getElem? h, by simpa using k⟩
  have hA := mem i1 q1
  have hB := mem i2 q2
  have hX := mem i3 q3
  have hk : (key', regs'.map (fun f => f.fn (sem c rA rB rX))) ∈ K' := by
    rw [k2']
    refine ⟨(σ.symm u.1, σ.symm u.2.1, σ.symm u.2.2), ?_⟩
    rw [rowTriplet_level σ hσ hreg hA hB hX]
    simpa using hu
  obtain ⟨j, hj⟩ := List.getElem?_of_mem hk
  obtain ⟨o', g3, g4⟩ := Distances.forall₂_getElem k3' hj
  have := isRow_unique (isRow_level σ hσ hρ hreg hA hB hX g2) g4 (by simp)
  rw [this]
  exact List.mem_of_getElem? g3

end

end ABX.Pipeline
