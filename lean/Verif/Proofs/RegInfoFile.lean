import Verif.Proofs.RegInfoTask
import Verif.Proofs.RegInfoRaw
import Verif.Properties.Task
/-!
The regressors of a task in its file: the pieces of C89.
-/
namespace ABX.RegInfo
open ExtSort ABX.Task SideOps H5IO

theorem varsOf_map {e : Env} {fr : Frame} {rs : List (DBFun Nat)} (h : ∀ f ∈ rs, ∃ v, f = columnReg e fr v) : rs = (Pipeline.varsOf rs).map (columnReg e fr) := by
  induction rs with
  | nil => rfl
  | cons f rs ih =>
    obtain ⟨v, rfl⟩ := h f (by simp)
    have hc : Pipeline.varsOf (columnReg e fr v :: rs) = v :: Pipeline.varsOf rs := List.filterMap_cons_some (by rfl)
    rw [hc, List.map_cons, ← ih (fun f hf => h f (by simp [hf]))]

/-- the variables of the regressors, field by field -/
def fieldVars (m : Mgr Nat) : List (List Var) := [m.ops .by, m.ops .onAcrossBy, m.ops .A, m.ops .B, m.ops .X, m.ops .ABX].map Pipeline.varsOf

theorem fieldVars_flatten {m : Mgr Nat} (h : m.ops .ABX = []) : (fieldVars m).flatten = Pipeline.varsOf (colRegs m) := by
  unfold fieldVars colRegs Pipeline.varsOf
  rw [h]
  simp [List.filterMap_append]

theorem ops_all {c : Cols} {fs : List (DBFun Nat)} {m : Mgr Nat} (hm : mgr false c fs = .ok m) {s : Stage} {f : DBFun Nat} (h : f ∈ m.ops s) : f ∈ fs := by
  obtain ⟨p, hp, -, rfl⟩ := mem_ops.mp h
  rw [← mgr_ops hm]
  exact List.mem_map_of_mem hp

theorem mem_fields {c : Cols} {fs : List (DBFun Nat)} {m : Mgr Nat} (hm : mgr false c fs = .ok m) {f : DBFun Nat} (h : f ∈ fs) :
    ∃ s ∈ ([.by, .onAcrossBy, .A, .B, .X, .ABX] : List Stage), f ∈ m.ops s := by
  rw [← mgr_ops hm] at h
  obtain ⟨p, hp, rfl⟩ := List.mem_map.mp h
  refine ⟨p.stage, ?_, mem_ops.mpr ⟨p, hp, rfl, rfl⟩⟩
  have hg : p.stage ≠ .generic := fun hs => by
    have := (mgr_ok hm p hp).hgen' hs
    cases this
  cases hs : p.stage <;> simp_all

theorem fieldsOf_columns {e : Env} {a : Args ρ} {c : Cols} {m : Mgr Nat} (hm : mgr false c (allRegs e a) = .ok m) (hcol : ∀ f ∈ allRegs e a, ∃ v, f = columnReg e a.db v)
    {kind : DBFun Nat → Kind} (hk : ∀ v, kind (columnReg e a.db v) = .column (extName v) (ixOf e a v)) :
    fieldsOf kind m = (fieldVars m).map (fun vs => vs.map (fun v => .column (extName v) (ixOf e a v))) := by
  unfold fieldsOf fieldVars
  rw [List.map_map]
  apply List.map_congr_left
  intro l hl
  have hmem : ∀ f ∈ l, f ∈ allRegs e a := by
    intro f hf
    simp only [List.mem_cons, List.not_mem_nil, or_false] at hl
    rcases hl with rfl | rfl | rfl | rfl | rfl | rfl <;> exact ops_all hm hf
  have h1 := varsOf_map (fun f hf => hcol f (hmem f hf))
  dsimp only [Function.comp]
  conv_lhs => rw [h1]
  rw [List.map_map]
  exact List.map_congr_left (fun v _ => hk v)

theorem allRegs_columns {e : Env} {a : Args ρ} (h : ∀ f ∈ a.regressors, ∃ v, f = columnReg e a.db v) : ∀ f ∈ allRegs e a, ∃ v, f = columnReg e a.db v := by
  intro f hf
  unfold allRegs at hf
  rcases List.mem_append.mp hf with hf | hf
  · exact h f hf
  · unfold defaultRegs at hf
    simp only [List.mem_append, List.mem_flatMap, List.mem_cons, List.not_mem_nil, or_false] at hf
    rcases hf with (rfl | rfl) | ⟨c, -, rfl | rfl⟩ <;> exact ⟨_, rfl⟩

theorem prep_length (a : Args ρ) : (prep a).2.2.length = a.db.length := by
  unfold prep dummyAcross dummyBy
  dsimp only
  split <;> split <;> simp

theorem no_underscore {a : Args ρ} (h : checkDatabase a = .ok ()) : ∀ c ∈ a.columns, '_' ∉ c.toList := by
  unfold checkDatabase at h
  split at h
  · cases h
  split at h
  · cases h
  split at h
  · cases h
  split at h
  · cases h
  rename_i h4
  intro c hc hu
  apply h4
  rw [List.any_eq_true]
  exact ⟨c, hc, by simp [hu]⟩

theorem columnReg_inj {e : Env} {fr : Frame} {v w : Var} (h : columnReg e fr v = columnReg e fr w) : v = w := by
  have := congrArg DBFun.inputs h
  simpa [columnReg] using this

theorem allRegs_in {e : Env} (he : e.Lawful) {a : Args ρ} (ha : a.OK) (hc : checkDatabase a = .ok ()) {v : Var} (h : columnReg e a.db v ∈ allRegs e a) : v.1 ∈ a.columns := by
  unfold allRegs at h
  rcases List.mem_append.mp h with h | h
  · exact ha.inR _ h v (by simp [columnReg])
  · exact defaultRegs_in he hc ha _ h v (by simp [columnReg])

end ABX.RegInfo
