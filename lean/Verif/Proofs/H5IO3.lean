import Verif.Proofs.H5IO2
import Verif.Proofs.TaskReg
/-!
Lemmas for Properties/H5IO.lean: the writers that are added and the rows they get.
-/
namespace ABX.H5IO
open ExtSort NP2H5 Task Spec
open Lookup (indexOf fusedType fusedLevels keyWeights keyOf cap m64 fusedKey expand InRange)

variable {ν : Type} [DecidableEq ν]

/-- rows that can be stored -/
structure ValidM (g : Group ν) (dims : String → Nat) (m : String → List (List Nat)) : Prop where
  rows : ∃ n, ∀ d ∈ g.managed, (m d).length = n
  cols : ∀ d ∈ g.managed, ∀ r ∈ m d, r.length = dims d
  lt : ∀ d ∈ keysOf g.indexed, ∀ r ∈ m d, ∀ x ∈ r, x < levels g d

theorem given_valid {g : Group ν} {dims : String → Nat} {flag : Bool} {d : String} {i : Input ν} {m : List (List Nat)} (h : Given g dims flag d i m) :
    i.cols = dims d ∧ (∀ r ∈ m, r.length = dims d) ∧ (d ∈ keysOf g.indexed → ∀ r ∈ m, ∀ x ∈ r, x < levels g d) := by
  cases h with
  | raw _ hd hm => exact ⟨rfl, hm, fun h => absurd h hd⟩
  | numbers _ i l hf hd hi hm => exact ⟨rfl, fun r hr => (hm r hr).1, fun _ r hr x hx => by rw [levels_eq hd hi]; exact (hm r hr).2 x hx⟩
  | values vs i l hf hd hi h1 hv =>
    refine ⟨h1.symm, ?_, ?_⟩
    · intro r hr
      obtain ⟨v, -, rfl⟩ := List.mem_map.mp hr
      simp [h1]
    · intro _ r hr x hx
      obtain ⟨v, hv', rfl⟩ := List.mem_map.mp hr
      obtain rfl := List.mem_singleton.mp hx
      rw [levels_eq hd hi]
      exact List.idxOf_lt_length_iff.mpr (hv v hv')

theorem call_lookup {g : Group ν} {dims : String → Nat} {c : Bool × List (String × Input ν)} {m : String → List (List Nat)} (h : Call g dims c m) {d : String} (hd : d ∈ g.managed) :
    ∃ i, c.2.lookup d = some i ∧ Given g dims c.1 d i (m d) := by
  obtain ⟨i, hi⟩ := lookup_of_mem_keys ((h.keys d).mpr hd)
  exact ⟨i, hi, h.given _ (lookup_mem hi)⟩

theorem call_valid {g : Group ν} (hw : Wf g) {dims : String → Nat} {c : Bool × List (String × Input ν)} {m : String → List (List Nat)} (h : Call g dims c m) : ValidM g dims m := by
  refine ⟨h.rows, fun d hd => ?_, fun d hd => ?_⟩
  · obtain ⟨i, -, hg⟩ := call_lookup h hd
    exact (given_valid hg).2.1
  · obtain ⟨i, -, hg⟩ := call_lookup h (hw.sub d hd)
    exact (given_valid hg).2.2 hd

theorem dimsOf_ok {g : Group ν} {dims : String → Nat} {c : Bool × List (String × Input ν)} {m : String → List (List Nat)} (h : Call g dims c m) {ds : List String} (hd : ∀ d ∈ ds, d ∈ g.managed) :
    dimsOf c.2 ds = .ok (ds.map dims) := by
  unfold dimsOf
  apply sequence_map_ok
  intro d hd'
  obtain ⟨i, hi, hg⟩ := call_lookup h (hd d hd')
  rw [get_ok hi]
  dsimp only
  rw [(given_valid hg).1]

/-- the numbers that are written -/
def Numbers (g : Group ν) (dims : String → Nat) (m : String → List (List Nat)) (data : List (String × Input ν)) : Prop :=
  ∀ d ∈ g.managed, data.lookup d = some (.numbers ⟨dims d, m d⟩)

omit [DecidableEq ν] in
theorem matOf_ok {g : Group ν} {dims : String → Nat} {m : String → List (List Nat)} {data : List (String × Input ν)} (h : Numbers g dims m data) {d : String} (hd : d ∈ g.managed) :
    matOf data d = .ok ⟨dims d, m d⟩ := by
  unfold matOf
  rw [get_ok (h d hd)]

theorem lookup_map_snd {β γ : Type} (f : String × β → γ) (l : List (String × β)) (k : String) {x : β} (h : l.lookup k = some x) :
    (l.map (fun p => (p.1, f p))).lookup k = some (f (k, x)) := by
  induction l with
  | nil => simp at h
  | cons p l ih =>
    rw [List.lookup_cons] at h
    rw [List.map_cons, List.lookup_cons]
    by_cases hk : k = p.1
    · subst hk; simp at h; simp [← h]
    · have : (k == p.1) = false := by simpa using hk
      rw [this] at h ⊢
      exact ih h

theorem indexAll_ok {g : Group ν} (hw : Wf g) {dims : String → Nat} {c : Bool × List (String × Input ν)} {m : String → List (List Nat)} (h : Call g dims c m) :
    ∃ data, (if c.1 then .ok c.2 else indexAll g c.2) = .ok data ∧ Numbers g dims m data := by
  by_cases hf : c.1 = true
  · refine ⟨c.2, by rw [if_pos hf], fun d hd => ?_⟩
    obtain ⟨i, hi, hg⟩ := call_lookup h hd
    rw [hi]
    generalize m d = md at hg ⊢
    cases hg with
    | raw _ _ _ => rfl
    | numbers _ _ _ _ _ _ _ => rfl
    | values _ _ _ hf' _ _ _ _ => rw [hf] at hf'; cases hf'
  · refine ⟨c.2.map (fun p => (p.1, .numbers ⟨dims p.1, m p.1⟩)), ?_, ?_⟩
    · rw [if_neg hf]
      unfold indexAll
      apply sequence_map_ok
      rintro ⟨d, i⟩ hp
      have hg := h.given _ hp
      dsimp only at hg ⊢
      have : computeIndexes g d i = .ok (.numbers ⟨dims d, m d⟩) := by
        generalize m d = md at hg ⊢
        cases hg with
        | raw _ hd _ => rw [computeIndexes, lookup_none hd]
        | numbers _ _ _ hf' _ _ _ => exact absurd hf' hf
        | values vs ix l _ hd hi h1 hv =>
          rw [computeIndexes, hd]
          dsimp only
          rw [get_ok hi]
          dsimp only
          rw [sequence_map_ok (g := fun v => l.idxOf v) (fun v hv' => by rw [indexOf, if_pos (hv v hv')])]
          dsimp only
          rw [h1, List.map_map]
          rfl
      rw [this]
    · intro d hd
      obtain ⟨i, hi, -⟩ := call_lookup h hd
      exact lookup_map_snd (fun p => (Input.numbers ⟨dims p.1, m p.1⟩ : Input ν)) c.2 d hi

/-- the rows of a writer -/
def R (m : String → List (List Nat)) (d : OutDecl) : List (List Nat) :=
  match d.src with
  | .raw n => m n
  | .indexed ds => joinRows (ds.map m)
  | .fused ds w => (joinRows (ds.map m)).map (fun row => [castNat d.type (keyOf (cap d.type) w row)])

theorem joined {g : Group ν} {dims : String → Nat} {m : String → List (List Nat)} {data : List (String × Input ν)} (hn : Numbers g dims m data) (hv : ValidM g dims m) {ds : List String}
    (hd : ∀ d ∈ ds, d ∈ g.managed) (hne : ds ≠ []) :
    ∃ ms, sequence (ds.map (matOf data)) = .ok ms ∧ concatCols ms = .ok ⟨(ds.map dims).sum, joinRows (ds.map m)⟩ := by
  obtain ⟨n, hn'⟩ := hv.rows
  refine ⟨ds.map (fun d => ⟨dims d, m d⟩), sequence_map_ok (fun d hd' => matOf_ok hn (hd d hd')), ?_⟩
  have := concatCols_ok (n := n) (l := ds.map (fun d => (dims d, m d))) (by simpa using hne) (by
    intro p hp
    obtain ⟨d, hd', rfl⟩ := List.mem_map.mp hp
    exact hn' d (hd d hd'))
  simpa [Function.comp_def] using this

omit [DecidableEq ν] in
/-- rows of joined parts, cell by cell -/
theorem joinRows_inRange {g : Group ν} {dims : String → Nat} {m : String → List (List Nat)} : ∀ {ds : List String}, (∀ d ∈ ds, ∀ r ∈ m d, r.length = dims d) →
    (∀ d ∈ ds, ∀ r ∈ m d, ∀ x ∈ r, x < levels g d) → ∀ row ∈ joinRows (ds.map m), InRange (expand (ds.map (levels g)) (ds.map dims)) row
  | [], _, _, row, h => by simp [joinRows] at h
  | d :: ds, h1, h2, row, h => by
    have hrep : ∀ r ∈ m d, InRange (List.replicate (dims d) (levels g d)) r := by
      intro r hr
      rw [← h1 d (by simp) r hr]
      have hlt := h2 d (by simp) r hr
      clear hr h1 h
      induction r with
      | nil => exact .nil
      | cons x r ih => exact .cons (hlt x (by simp)) (ih (fun y hy => hlt y (by simp [hy])))
    have hex : expand ((d :: ds).map (levels g)) ((d :: ds).map dims) = List.replicate (dims d) (levels g d) ++ expand (ds.map (levels g)) (ds.map dims) := by
      simp [expand]
    rw [hex]
    cases ds with
    | nil =>
      have : expand (([] : List String).map (levels g)) (([] : List String).map dims) = [] := rfl
      rw [this, List.append_nil]
      exact hrep row (by simpa [joinRows] using h)
    | cons e ds =>
      rw [List.map_cons, List.map_cons, joinRows_cons, ← List.map_cons] at h
      obtain ⟨i, hi, rfl⟩ := List.mem_iff_getElem.mp h
      rw [List.getElem_zipWith]
      apply List.rel_append
      · exact hrep _ (List.getElem_mem _)
      · exact joinRows_inRange (ds := e :: ds) (fun d hd => h1 d (by simp only [List.mem_cons] at hd ⊢; tauto)) (fun d hd => h2 d (by simp only [List.mem_cons] at hd ⊢; tauto)) _ (List.getElem_mem _)

end ABX.H5IO
