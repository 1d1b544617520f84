import Verif.Properties.RowOrder
/-!
The rows of a run with its columns in another order.
-/
namespace ABX.Pipeline
open ExtSort ABX.Task Pairs SideOps Sampler Distances Score EndToEnd Analyze F64 ABX.Spec
variable {ρ φ δ : Type}

/-- the codes of the columns `vars` among the codes `l` of the columns `vars'` -/
def pickCodes (vars vars' : List Var) (l : List Nat) : List Nat := vars.map (fun v => l.getD (vars'.idxOf v) 0)

theorem pickCodes_map {vars vars' : List Var} (h : ∀ v ∈ vars, v ∈ vars') (f : Var → Nat) : pickCodes vars vars' (vars'.map f) = vars.map f := by
  unfold pickCodes
  refine List.map_congr_left fun v hv => ?_
  have hi : vars'.idxOf v < vars'.length := List.idxOf_lt_length_iff.mpr (h v hv)
  rw [List.getD_eq_getElem?_getD, List.getElem?_map, List.getElem?_eq_getElem hi, List.getElem_idxOf]
  rfl

/-- the rows of a run with the columns `vars'`, each label put in its column of `vars`, are the rows of the table for `vars` -/
theorem LineRun.rows_order {a : Args ρ} {vars vars' : List Var} {getFeat : ρ → Except Err φ} {distance : φ → φ → Except Err δ} {lt : δ → δ → Bool} {out : List OutRow} (hv : ∀ v, v ∈ vars ↔ v ∈ vars') (h : LineRun a vars' getFeat distance lt out) :
    ∃ e : Env, e.Lawful ∧ RowsOf a.cols a.on a.across a.by_ a.filters (vars.map (columnReg e a.db)) (a.db.map (·.2)) lt (Spec.recDist getFeat distance) a.feat ((vars.map (columnReg e a.db)).map (idxOf e a))
      (out.map (fun p => { p with labels := pickLabels vars vars' p.labels })) := by
  obtain ⟨e, he, K, k1, k2, k3⟩ := h.rows
  have codes : ∀ {f g : Var → Nat}, vars'.map f = vars'.map g ↔ vars.map f = vars.map g := by
    intro f g
    rw [List.map_inj_left, List.map_inj_left]
    exact ⟨fun p v q => p v ((hv v).mp q), fun p v q => p v ((hv v).mpr q)⟩
  have trip : ∀ (key : List Val) (g : Var → Nat) (u : Nat × Nat × Nat), RowTriplet a.cols a.on a.across a.by_ a.filters (vars.map (columnReg e a.db)) (a.db.map (·.2)) (key, vars.map g) u ↔
      RowTriplet a.cols a.on a.across a.by_ a.filters (vars'.map (columnReg e a.db)) (a.db.map (·.2)) (key, vars'.map g) u := by
    intro key g u
    refine and_congr_right fun _ => forall_congr' fun sA => forall_congr' fun sB => forall_congr' fun sX => imp_congr_right fun _ => imp_congr_right fun _ => imp_congr_right fun _ => and_congr_right fun _ => ?_
    rw [List.map_map, List.map_map]
    exact codes.symm
  -- the combinations are those of lines
  have lines : ∀ k ∈ K, ∃ rA ∈ a.db.map (·.2), ∃ rB ∈ a.db.map (·.2), ∃ rX ∈ a.db.map (·.2), k.2 = vars'.map (fun v => (columnReg e a.db v).fn (sem a.cols rA rB rX)) := by
    rintro ⟨key, v⟩ hk
    obtain ⟨u, hu⟩ := (k2 _).mp hk
    obtain ⟨rA, rB, rX, i1, i2, i3, -, -, hv⟩ := rowTriplet_rows.mp hu
    refine ⟨rA, List.mem_of_getElem? i1, rB, List.mem_of_getElem? i2, rX, List.mem_of_getElem? i3, ?_⟩
    rw [← hv, List.map_map]
    rfl
  have pick : ∀ g : Var → Nat, pickCodes vars vars' (vars'.map g) = vars.map g := pickCodes_map (fun v q => (hv v).mp q)
  refine ⟨e, he, K.map (fun k => (k.1, pickCodes vars vars' k.2)), List.Nodup.map_on ?_ k1, ?_, ?_⟩
  · rintro ⟨x, v⟩ hx ⟨y, w⟩ hy hxy
    obtain ⟨_, -, _, -, _, -, h1⟩ := lines _ hx
    obtain ⟨_, -, _, -, _, -, h2⟩ := lines _ hy
    simp only at h1 h2
    subst h1 h2
    simp only [pick, Prod.mk.injEq] at hxy ⊢
    exact ⟨hxy.1, codes.mpr hxy.2⟩
  · rintro ⟨key, w⟩
    rw [List.mem_map]
    constructor
    · rintro ⟨⟨x, v⟩, hx, hxy⟩
      obtain ⟨_, -, _, -, _, -, h1⟩ := lines _ hx
      simp only at h1
      subst h1
      simp only [pick, Prod.mk.injEq] at hxy
      obtain ⟨rfl, rfl⟩ := hxy
      obtain ⟨u, hu⟩ := (k2 _).mp hx
      exact ⟨u, (trip ..).mpr hu⟩
    · rintro ⟨u, hu⟩
      obtain ⟨rA, rB, rX, -, -, -, -, -, hw⟩ := rowTriplet_rows.mp hu
      rw [List.map_map] at hw
      subst hw
      exact ⟨(key, vars'.map (fun v => (columnReg e a.db v).fn (sem a.cols rA rB rX))), (k2 _).mpr ⟨u, (trip ..).mp hu⟩, by rw [pick]; rfl⟩
  · rw [List.forall₂_map_left_iff, List.forall₂_map_right_iff]
    refine List.Forall₂.imp ?_ ((List.forall₂_and_left _ _).mpr ⟨lines, k3⟩)
    rintro ⟨key, v⟩ o ⟨⟨rA, hA, rB, hB, rX, hX, h1⟩, U, n1, m1, s1, l1, b1, c1, r1⟩
    simp only at h1
    subst h1
    refine ⟨U, n1, fun u => ?_, s1, ?_, b1, c1, r1⟩
    · rw [m1, pick, trip]
    · have ec : ∀ vs : List Var, (vs.map (columnReg e a.db)).map (fun f => f.fn (sem a.cols rA rB rX)) = vs.map (fun v => (columnReg e a.db v).fn (sem a.cols rA rB rX)) := by
        intro vs
        rw [List.map_map]
        rfl
      have l2 : o.labels = vars'.map (sem a.cols rA rB rX) := (labels_iff he hA hB hX).mp (by rw [ec]; exact l1)
      show Spec.IsLabels _ (pickCodes vars vars' _) (pickLabels vars vars' o.labels)
      rw [pick, l2, pickLabels_map (fun v q => (hv v).mp q), ← ec]
      exact (labels_iff he hA hB hX).mpr rfl

end ABX.Pipeline
