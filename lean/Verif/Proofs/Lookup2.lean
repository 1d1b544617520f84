import Verif.Proofs.Lookup
/-!
Specification and lemmas of Properties/Lookup.lean.
-/
namespace ABX.Lookup
open ExtSort

section
variable {ν δ : Type} [DecidableEq ν] {nd : Nat}

/-- a stored row: inputs and outputs -/
abbrev Row (ν δ : Type) (nd : Nat) := List ν × (Fin nd → δ)

/-- the datasets of outputs of a list of rows -/
def cols (rows : List (Row ν δ nd)) : List (List δ) := (List.finRange nd).map (fun d => rows.map (fun r => r.2 d))

/-- several calls of `fill(append=True)` -/
def fillAll (zero : δ) : Table ν δ → List (List (Row ν δ nd)) → Except Err (Table ν δ)
  | t, [] => .ok t
  | t, b :: bs => match t.fill zero true (b.map Prod.fst) (cols b) with
    | .error e => .error e
    | .ok t => fillAll zero t bs

/-- `order` sorts the keys: what `argsort` returns, which of the equal keys comes first is not specified -/
def IsArgsort (keys order : List Nat) : Prop := order.Perm (List.range keys.length) ∧ (order.filterMap (fun i => keys[i]?)).Pairwise (· ≤ ·)

/-- the table holds the rows, in this order -/
structure Holds (indexes : List (List ν)) (rows : List (Row ν δ nd)) (t : Table ν δ) : Prop where
  ix : t.indexes = indexes
  keys : t.keys = rows.map (fun r => rank indexes r.1)
  data : t.data = cols rows

theorem keys_ok {indexes : List (List ν)} (hp : (indexes.map List.length).prod ≤ m64) {qs : List (List ν)} (h : ∀ q ∈ qs, Valid indexes q) :
    sequence (qs.map (getKey indexes)) = .ok (qs.map (rank indexes)) := sequence_map_ok (fun q hq => getKey_ok hp (h q hq))

theorem append_ok {α : Type} (zero : α) (d o : List α) : h5Assign (h5Resize zero d (d.length + o.length)) d.length (d.length + o.length) o = .ok (d ++ o) := by
  have e : h5Resize zero d (d.length + o.length) = d ++ List.replicate o.length zero := by
    unfold h5Resize
    rw [List.take_of_length_le (by omega), Nat.add_sub_cancel_left]
  rw [e]
  unfold h5Assign
  simp only [List.length_append, List.length_replicate]
  rw [show min d.length (d.length + o.length) = d.length by omega, show max d.length (min (d.length + o.length) (d.length + o.length)) = d.length + o.length by omega,
    Nat.add_sub_cancel_left]
  split
  · rename_i h
    rw [List.length_eq_zero_iff.mp h]
    simp
  · simp

theorem fill_holds (zero : δ) {indexes : List (List ν)} (hp : (indexes.map List.length).prod ≤ m64) {rows b : List (Row ν δ nd)} {t : Table ν δ} (h : Holds indexes rows t)
    (hb : ∀ r ∈ b, Valid indexes r.1) : ∃ t', t.fill zero true (b.map Prod.fst) (cols b) = .ok t' ∧ Holds indexes (rows ++ b) t' := by
  unfold Table.fill
  rw [if_neg (by simp)]
  unfold Table.write
  dsimp only
  rw [h.ix, keys_ok hp (by intro q hq; obtain ⟨r, hr, rfl⟩ := List.mem_map.mp hq; exact hb r hr)]
  dsimp only
  rw [h.data]
  unfold cols
  rw [List.zip_map', List.map_map, sequence_map_ok (g := fun d => rows.map (fun r => r.2 d) ++ b.map (fun r => r.2 d))]
  · refine ⟨_, rfl, rfl, ?_, ?_⟩
    · dsimp only
      rw [h.keys, List.map_append, List.map_map]
      rfl
    · unfold cols
      simp
  · intro d _
    dsimp only [Function.comp]
    have e1 : t.keys.length = (rows.map (fun r => r.2 d)).length := by rw [h.keys]; simp
    have e2 : (List.map (rank indexes) (List.map Prod.fst b)).length = (b.map (fun r => r.2 d)).length := by simp
    rw [e1, e2]
    exact append_ok zero _ _

theorem fillAll_holds (zero : δ) {indexes : List (List ν)} (hp : (indexes.map List.length).prod ≤ m64) : ∀ (bs : List (List (Row ν δ nd))) (rows : List (Row ν δ nd)) (t : Table ν δ),
    Holds indexes rows t → (∀ r ∈ bs.flatten, Valid indexes r.1) → ∃ t', fillAll zero t bs = .ok t' ∧ Holds indexes (rows ++ bs.flatten) t'
  | [], rows, t, h, _ => ⟨t, rfl, by simpa using h⟩
  | b :: bs, rows, t, h, hv => by
    obtain ⟨t1, e1, h1⟩ := fill_holds (b := b) zero hp h (fun r hr => hv r (by rw [List.flatten_cons, List.mem_append]; exact .inl hr))
    obtain ⟨t2, e2, h2⟩ := fillAll_holds zero hp bs _ t1 h1 (fun r hr => hv r (by rw [List.flatten_cons, List.mem_append]; exact .inr hr))
    refine ⟨t2, ?_, by simpa using h2⟩
    rw [fillAll, e1]
    exact e2

omit [DecidableEq ν] in
theorem cols_takeAt {order : List Nat} {rows rows' : List (Row ν δ nd)} (h : takeAt order rows = .ok rows') : sequence ((cols rows).map (takeAt order)) = .ok (cols rows') := by
  unfold cols
  rw [List.map_map]
  apply sequence_map_ok
  intro d _
  dsimp only [Function.comp]
  rw [takeAt_map, h]

theorem filterMap_range {α : Type} (l : List α) : (List.range l.length).filterMap (fun i => l[i]?) = l := by
  induction l using List.reverseRecOn with
  | nil => rfl
  | append_singleton l a ih =>
    rw [List.length_append, List.length_singleton, List.range_succ, List.filterMap_append]
    have : (List.range l.length).filterMap (fun i => (l ++ [a])[i]?) = (List.range l.length).filterMap (fun i => l[i]?) := by
      apply List.filterMap_congr
      intro i hi
      rw [List.getElem?_append_left (List.mem_range.mp hi)]
    rw [this, ih]
    simp

omit [DecidableEq ν] in
theorem picked_keys {P : Row ν δ nd → Prop} (f : List ν → Nat) {qs : List (List ν)} {picked : List (Row ν δ nd)} (h : List.Forall₂ (fun q r => P r ∧ r.1 = q) qs picked) :
    picked.map (fun r => f r.1) = qs.map f := by
  induction h with
  | nil => rfl
  | cons a _ ih => rw [List.map_cons, List.map_cons, a.2, ih]

theorem pack_holds {indexes : List (List ν)} {rows : List (Row ν δ nd)} {t : Table ν δ} (h : Holds indexes rows t) {order : List Nat} (ho : IsArgsort t.keys order) :
    ∃ t' rows', t.pack order = .ok t' ∧ Holds indexes rows' t' ∧ t'.isSorted = true ∧ t'.keys.Pairwise (· ≤ ·) ∧ rows'.Perm rows := by
  obtain ⟨hperm, hsort⟩ := ho
  have hlt : ∀ i ∈ order, i < rows.length := by
    intro i hi
    have := hperm.mem_iff.mp hi
    rw [h.keys] at this
    simpa using this
  have e := takeAt_ok hlt
  unfold Table.pack
  have ek : takeAt order t.keys = .ok ((order.filterMap (fun i => rows[i]?)).map (fun r => rank indexes r.1)) := by
    rw [h.keys, takeAt_map, e]
  rw [ek]
  dsimp only
  rw [h.data, cols_takeAt e]
  refine ⟨_, order.filterMap (fun i => rows[i]?), rfl, ⟨h.ix, rfl, rfl⟩, rfl, ?_, ?_⟩
  · dsimp only
    have : order.filterMap (fun i => t.keys[i]?) = (order.filterMap (fun i => rows[i]?)).map (fun r => rank indexes r.1) := by
      have := takeAt_ok (order := order) (l := t.keys) (by rw [h.keys]; simpa using hlt)
      rw [ek] at this
      exact (Except.ok.inj this).symm
    rw [← this]
    exact hsort
  · have h1 := hperm.filterMap (fun i => rows[i]?)
    refine h1.trans ?_
    rw [h.keys, List.length_map]
    rw [filterMap_range]

theorem seq_rows {keys : List Nat} {rows : List (Row ν δ nd)} {indexes : List (List ν)} (hk : keys = rows.map (fun r => rank indexes r.1)) (hs : keys.Pairwise (· ≤ ·))
    (hv : ∀ r ∈ rows, Valid indexes r.1) : ∀ (qs : List (List ν)), (∀ q ∈ qs, ∃ r ∈ rows, r.1 = q) →
    ∃ picked, takeAt ((qs.map (rank indexes)).map (insertionPoint keys)) rows = .ok picked ∧ List.Forall₂ (fun q r => r ∈ rows ∧ r.1 = q) qs picked
  | [], _ => ⟨[], rfl, .nil⟩
  | q :: qs, h => by
    obtain ⟨p, e, f⟩ := seq_rows hk hs hv qs (fun q hq => h q (by simp [hq]))
    obtain ⟨r, hr, hq⟩ := h q (by simp)
    have hm : rank indexes q ∈ keys := by rw [hk, ← hq]; exact List.mem_map_of_mem (f := fun r : Row ν δ nd => rank indexes r.1) hr
    obtain ⟨hlt, he⟩ := insertionPoint_mem hs hm
    have hlt' : insertionPoint keys (rank indexes q) < rows.length := by
      have : keys.length = rows.length := by rw [hk]; simp
      omega
    have hrow : rank indexes rows[insertionPoint keys (rank indexes q)].1 = rank indexes q := by
      have : keys[insertionPoint keys (rank indexes q)] = rank indexes rows[insertionPoint keys (rank indexes q)].1 := by
        have h3 : ∀ i (h : i < keys.length) (h' : i < rows.length), keys[i] = rank indexes rows[i].1 := by
          intro i h h'
          subst hk
          simp
        exact h3 _ hlt hlt'
      rw [← this, he]
    refine ⟨rows[insertionPoint keys (rank indexes q)] :: p, ?_, .cons ⟨List.getElem_mem hlt', ?_⟩ f⟩
    · unfold takeAt at e ⊢
      rw [List.map_cons, List.map_cons, List.map_cons, List.getElem?_eq_getElem hlt']
      dsimp only
      rw [sequence, e]
    · exact rank_inj (hv _ (List.getElem_mem hlt')) (hq ▸ hv r hr) hrow

/-- the insertion points are all below the length, or the look-up raises IndexError -/
theorem takeAt_error {α : Type} {order : List Nat} {l : List α} (h : ∃ i ∈ order, l.length ≤ i) : takeAt order l = .error .indexError := by
  unfold takeAt
  induction order with
  | nil => obtain ⟨i, hi, _⟩ := h; cases hi
  | cons i order ih =>
    rw [List.map_cons]
    cases hi : l[i]? with
    | none => rfl
    | some x =>
      have hlt := (List.getElem?_eq_some_iff.mp hi).1
      obtain ⟨j, hj, hjl⟩ := h
      have : j ∈ order := by
        rcases List.mem_cons.mp hj with e | e
        · omega
        · exact e
      simp only [sequence, ih ⟨j, this, hjl⟩]

theorem absent {indexes : List (List ν)} (hp : (indexes.map List.length).prod ≤ m64) {rows : List (Row ν δ nd)} {t : Table ν δ} (h : Holds indexes rows t) (hne : rows ≠ [])
    (hv : ∀ r ∈ rows, Valid indexes r.1) {order : List Nat} (ho : IsArgsort t.keys order) (qs : List (List ν)) (hq : ∀ q ∈ qs, Valid indexes q) (habs : ∃ q ∈ qs, ∀ r ∈ rows, r.1 ≠ q) :
    ∃ t', t.pack order = .ok t' ∧
      t'.evaluate qs = .error (if ∃ q ∈ qs, ∀ r ∈ rows, rank indexes r.1 < rank indexes q then .indexError else .runtimeError) := by
  obtain ⟨t', rows', e', h', hsorted, hpw, hperm⟩ := pack_holds h ho
  refine ⟨t', e', ?_⟩
  unfold Table.evaluate
  rw [if_neg (by simp [hsorted]), h'.ix, keys_ok hp hq]
  dsimp only
  have hkne : t'.keys ≠ [] := by
    intro h0
    rw [h'.keys] at h0
    have := List.map_eq_nil_iff.mp h0
    rw [this] at hperm
    exact hne hperm.nil_eq.symm
  rw [if_neg hkne]
  have hend : ∀ q, insertionPoint t'.keys (rank indexes q) = t'.keys.length ↔ ∀ r ∈ rows, rank indexes r.1 < rank indexes q := by
    intro q
    rw [insertionPoint_end hpw, h'.keys]
    constructor
    · intro a r hr
      exact a _ (List.mem_map.mpr ⟨r, hperm.mem_iff.mpr hr, rfl⟩)
    · intro a x hx
      obtain ⟨r, hr, rfl⟩ := List.mem_map.mp hx
      exact a r (hperm.mem_iff.mp hr)
  by_cases hb : ∃ q ∈ qs, ∀ r ∈ rows, rank indexes r.1 < rank indexes q
  · rw [if_pos hb]
    obtain ⟨q, hqm, hqb⟩ := hb
    rw [takeAt_error]
    exact ⟨_, List.mem_map.mpr ⟨_, List.mem_map.mpr ⟨q, hqm, rfl⟩, rfl⟩, Nat.le_of_eq ((hend q).mpr hqb).symm⟩
  · rw [if_neg hb]
    have hlt : ∀ i ∈ (qs.map (rank indexes)).map (insertionPoint t'.keys), i < t'.keys.length := by
      intro i hi
      obtain ⟨k, hk, rfl⟩ := List.mem_map.mp hi
      obtain ⟨q, hqm, rfl⟩ := List.mem_map.mp hk
      rcases Nat.lt_or_eq_of_le (insertionPoint_spec hpw (rank indexes q)).1 with hl | hl
      · exact hl
      · exact absurd ⟨q, hqm, (hend q).mp hl⟩ hb
    rw [takeAt_ok hlt]
    dsimp only
    rw [if_pos]
    intro heq
    obtain ⟨q, hqm, hqa⟩ := habs
    have hmem : rank indexes q ∈ t'.keys := by
      have h1 : rank indexes q ∈ qs.map (rank indexes) := List.mem_map.mpr ⟨q, hqm, rfl⟩
      rw [← heq] at h1
      obtain ⟨i, _, hi⟩ := List.mem_filterMap.mp h1
      exact List.mem_of_getElem? hi
    rw [h'.keys] at hmem
    obtain ⟨r, hr, hre⟩ := List.mem_map.mp hmem
    have hr' := hperm.mem_iff.mp hr
    exact hqa r hr' (rank_inj (hv r hr') (hq q hqm) hre)

end

end ABX.Lookup
