import Verif.Proofs.Lookup2
/-!
Properties C48 and C49: keys and lookup tables.

Specification: `Valid indexes row` says that the values of `row` are in the indexes of the inputs, `expand levels dims` is the list of the numbers of levels of the columns of a fused dataset,
`InRange ns row` that the indices of a row are below the numbers of levels (Verif/Proofs/Lookup.lean).
A stored row is a list of input values and the `nd` outputs.
-/
namespace ABX.Lookup
open ExtSort

/-! ### the keys of fused datasets -/

/-- C48, fused datasets: distinct rows have distinct keys, when there are at most 2^64 combinations. -/
theorem C48_fused_injective {levels dims v w : List Nat} (hp : (expand levels dims).prod ≤ m64) (hv : InRange (expand levels dims) v) (hw : InRange (expand levels dims) w)
    (e : fusedKey m64 levels dims v = fusedKey m64 levels dims w) : v = w := by
  rw [fusedKey_ok m64_eq hv hp, fusedKey_ok m64_eq hw hp] at e
  exact radix_inj hv hw (Except.ok.inj e)

/-- C48, fused datasets: with more than 2^64 combinations, nothing is raised and two rows have the same key.  The test of line 283 (`max_key >= 2 ** 64`) is done on a number computed modulo 2^64. -/
theorem C48_fused_violated {levels dims : List Nat} (hp : m64 < (expand levels dims).prod) :
    ∃ v w k, InRange (expand levels dims) v ∧ InRange (expand levels dims) w ∧ v ≠ w ∧ fusedKey m64 levels dims v = .ok k ∧ fusedKey m64 levels dims w = .ok k := by
  choose f hf hlt using fusedKey_some m64_eq levels dims
  obtain ⟨v, w, a, b, c, d⟩ := collision (expand levels dims) f hlt hp
  exact ⟨v, w, f w, a, b, c, by rw [hf v, d], hf w⟩

/-- such a dataset: 65 columns of a dataset with 2 values -/
example : m64 < (expand [2] [65]).prod := by
  unfold expand
  rw [prod_expand, m64_eq]
  norm_num

/-- concrete keys: two columns with 3 values and one with 2 -/
example : fusedKey m64 [3, 2] [2, 1] [2, 1, 1] = .ok 14 := by decide +kernel

/-- 256 combinations fit uint8, although the number of levels does not -/
example : fusedKey m64 [256, 1] [1, 1] [255, 0] = .ok 255 := by decide +kernel

/-! ### tables -/

section
variable {ν δ : Type} [DecidableEq ν] {nd : Nat}

/-- C48: after any number of `fill` and a `pack`, `evaluate` gives for every query the outputs of one stored row with these inputs, in the order of the queries; the same row for all outputs.
Whatever order `argsort` gives to equal keys. -/
theorem C48_lookup (zero : δ) {indexes : List (List ν)} (hp : (indexes.map List.length).prod ≤ m64) (bs : List (List (Row ν δ nd))) (hv : ∀ r ∈ bs.flatten, Valid indexes r.1)
    (qs : List (List ν)) (hne : qs ≠ []) (hq : ∀ q ∈ qs, ∃ r ∈ bs.flatten, r.1 = q) :
    ∃ t, fillAll zero (empty indexes nd) bs = .ok t ∧ ∀ order, IsArgsort t.keys order → ∃ t', t.pack order = .ok t' ∧
      ∃ picked, List.Forall₂ (fun q r => r ∈ bs.flatten ∧ r.1 = q) qs picked ∧ t'.evaluate qs = .ok (cols picked) := by
  obtain ⟨t, e, h⟩ := fillAll_holds zero hp bs [] (empty indexes nd) ⟨rfl, rfl, by unfold empty cols; simp⟩ hv
  rw [List.nil_append] at h
  refine ⟨t, e, fun order ho => ?_⟩
  obtain ⟨t', rows', e', h', hsorted, hpw, hperm⟩ := pack_holds h ho
  refine ⟨t', e', ?_⟩
  have hv' : ∀ r ∈ rows', Valid indexes r.1 := fun r hr => hv r (hperm.mem_iff.mp hr)
  obtain ⟨picked, ep, hpk⟩ := seq_rows h'.keys hpw hv' qs (fun q hq' => by
    obtain ⟨r, hr, e⟩ := hq q hq'
    exact ⟨r, hperm.mem_iff.mpr hr, e⟩)
  refine ⟨picked, hpk.imp (fun q r ⟨a, b⟩ => ⟨hperm.mem_iff.mp a, b⟩), ?_⟩
  unfold Table.evaluate
  rw [if_neg (by simp [hsorted]), h'.ix, keys_ok hp (by
    intro q hq'
    obtain ⟨r, hr, e⟩ := hq q hq'
    rw [← e]
    exact hv r hr)]
  dsimp only
  have hkne : t'.keys ≠ [] := by
    obtain ⟨q, hq'⟩ := List.exists_mem_of_ne_nil qs hne
    obtain ⟨r, hr, _⟩ := hq q hq'
    intro h0
    rw [h'.keys] at h0
    have := List.map_eq_nil_iff.mp h0
    rw [this] at hperm
    have := hperm.nil_eq
    rw [← this] at hr
    cases hr
  rw [if_neg hkne]
  have ek : takeAt ((qs.map (rank indexes)).map (insertionPoint t'.keys)) t'.keys = .ok (qs.map (rank indexes)) := by
    conv => lhs; rw [h'.keys]
    rw [takeAt_map, ← h'.keys, ep]
    dsimp only
    rw [picked_keys (rank indexes) hpk]
  rw [ek]
  dsimp only
  rw [if_neg (by simp), if_neg hne, h'.data, cols_takeAt ep]

/-- C48: when the inputs of the stored rows are distinct, `evaluate` gives the outputs stored for the queries. -/
theorem C48_lookup_unique (zero : δ) {indexes : List (List ν)} (hp : (indexes.map List.length).prod ≤ m64) (bs : List (List (Row ν δ nd))) (hv : ∀ r ∈ bs.flatten, Valid indexes r.1)
    (hd : (bs.flatten.map Prod.fst).Nodup) (qs : List (List ν)) (hne : qs ≠ []) (expected : List (Row ν δ nd)) (hq : List.Forall₂ (fun q r => r ∈ bs.flatten ∧ r.1 = q) qs expected) :
    ∃ t, fillAll zero (empty indexes nd) bs = .ok t ∧ ∀ order, IsArgsort t.keys order → ∃ t', t.pack order = .ok t' ∧ t'.evaluate qs = .ok (cols expected) := by
  have hq' : ∀ q ∈ qs, ∃ r ∈ bs.flatten, r.1 = q := by
    intro q hqm
    obtain ⟨i, hi, rfl⟩ := List.getElem_of_mem hqm
    have hlen := hq.length_eq
    have := hq.get (i := i) hi (by omega)
    exact ⟨_, this.1, this.2⟩
  obtain ⟨t, e, h⟩ := C48_lookup zero hp bs hv qs hne hq'
  refine ⟨t, e, fun order ho => ?_⟩
  obtain ⟨t', e', picked, hpk, ev⟩ := h order ho
  refine ⟨t', e', ?_⟩
  have : picked = expected := by
    clear ev hne hq' h
    induction hpk generalizing expected with
    | nil => cases hq; rfl
    | cons a _ ih =>
      cases hq with
      | cons b hb =>
        rw [ih _ hb]
        congr 1
        exact List.inj_on_of_nodup_map hd a.1 b.1 (a.2.trans b.2.symm)
  rw [← this]
  exact ev

/-- C48: the keys of distinct rows of inputs are distinct, when there are at most 2^64 combinations (otherwise lines 88-93 raise ValueError). -/
theorem C48_keys_injective {indexes : List (List ν)} (hp : (indexes.map List.length).prod ≤ m64) {r s : List ν} (hr : Valid indexes r) (hs : Valid indexes s)
    (e : getKey indexes r = getKey indexes s) : r = s := by
  rw [getKey_ok hp hr, getKey_ok hp hs] at e
  exact rank_inj hr hs (Except.ok.inj e)

/-- no table can be created with this version: line 97 tests a dictionary in a string -/
theorem C48_create_fails (ok : Bool) (levels : List Nat) : ∃ e, create ok levels = .error e := by
  unfold create
  split
  · exact ⟨_, rfl⟩
  split <;> exact ⟨_, rfl⟩

/-- C49, the exact behaviour on a packed table with at least one row: a query outside the table raises the RuntimeError only if no query comes after all the stored rows; otherwise IndexError.
The full property (RuntimeError in all cases) is false: `C49_violated`. -/
theorem C49_absent_partial (zero : δ) {indexes : List (List ν)} (hp : (indexes.map List.length).prod ≤ m64) (bs : List (List (Row ν δ nd))) (hne : bs.flatten ≠ [])
    (hv : ∀ r ∈ bs.flatten, Valid indexes r.1) (qs : List (List ν)) (hq : ∀ q ∈ qs, Valid indexes q) (habs : ∃ q ∈ qs, ∀ r ∈ bs.flatten, r.1 ≠ q) :
    ∃ t, fillAll zero (empty indexes nd) bs = .ok t ∧ ∀ order, IsArgsort t.keys order → ∃ t', t.pack order = .ok t' ∧
      t'.evaluate qs = .error (if ∃ q ∈ qs, ∀ r ∈ bs.flatten, rank indexes r.1 < rank indexes q then .indexError else .runtimeError) := by
  obtain ⟨t, e, h⟩ := fillAll_holds zero hp bs [] (empty indexes nd) ⟨rfl, rfl, by unfold empty cols; simp⟩ hv
  rw [List.nil_append] at h
  exact ⟨t, e, fun order ho => absent hp h hne hv ho qs hq habs⟩

/-- C49: a value that is not in the index of its input raises ValueError. -/
theorem C49_not_in_index (t : Table ν δ) (hs : t.isSorted = true) (q : List ν) (hl : q.length = t.indexes.length) (hq : ¬ Valid t.indexes q) (qs : List (List ν)) :
    t.evaluate (q :: qs) = .error .valueError := by
  have seq_err : ∀ (ix : List (List ν)) (q : List ν), q.length = ix.length → ¬ Valid ix q → sequence ((ix.zip q).map (fun p => indexOf p.1 p.2)) = .error .valueError := by
    intro ix
    induction ix with
    | nil =>
      intro q hl hn
      exact absurd (by rw [List.length_eq_zero_iff.mp hl]; exact .nil) hn
    | cons a ix ih =>
      intro q hl hn
      cases q with
      | nil => simp at hl
      | cons e q =>
        rw [List.zip_cons_cons, List.map_cons]
        unfold indexOf
        by_cases hm : e ∈ a
        · rw [if_pos hm, sequence]
          have := ih q (by simpa using hl) (fun hv => hn (.cons hm hv))
          unfold indexOf at this
          rw [this]
        · rw [if_neg hm]
          rfl
  unfold Table.evaluate
  rw [if_neg (by simp [hs]), List.map_cons]
  unfold getKey
  rw [if_neg (by omega), seq_err _ _ hl hq]
  rfl

/-- C49: a query with too few values raises -/
theorem C49_short (t : Table ν δ) (hs : t.isSorted = true) (q : List ν) (hl : q.length < t.indexes.length) (qs : List (List ν)) : t.evaluate (q :: qs) = .error .keyError := by
  unfold Table.evaluate
  rw [if_neg (by simp [hs]), List.map_cons]
  unfold getKey
  rw [if_pos hl]
  rfl

/-- C49: a table without rows raises AttributeError, a table that is not packed raises IOError. -/
theorem C49_no_rows (t : Table ν δ) (hk : t.keys = []) (hs : t.isSorted = true) (hp : (t.indexes.map List.length).prod ≤ m64) (qs : List (List ν)) (hq : ∀ q ∈ qs, Valid t.indexes q) :
    t.evaluate qs = .error .attributeError := by
  unfold Table.evaluate
  rw [if_neg (by simp [hs]), keys_ok hp hq]
  dsimp only
  rw [if_pos hk]

theorem C49_not_packed (t : Table ν δ) (hs : t.isSorted = false) (qs : List (List ν)) : t.evaluate qs = .error .ioError := by
  unfold Table.evaluate
  rw [if_pos (by simp [hs])]

/-- filling a table that was packed makes it not packed again -/
theorem C49_refilled (zero : δ) {t t' : Table ν δ} {append : Bool} {ins : List (List ν)} {outs : List (List δ)} (h : t.fill zero append ins outs = .ok t')
    (qs : List (List ν)) : t'.evaluate qs = .error .ioError := by
  apply C49_not_packed
  unfold Table.fill at h
  split at h
  · cases h
  · unfold Table.write at h
    split at h
    · cases h
    · dsimp only at h
      split at h
      · cases h
      · injection h with h; subst h; rfl

/-- C48: a new table can be filled without `append`, with the same result as with it; the rows must be valid, so that the result exists (`C48_lookup`).  After that, or after any filling, also when the table was packed, filling without
`append` is refused. -/
theorem C48_fill_once (zero : δ) (indexes : List (List ν)) (ins : List (List ν)) (outs : List (List δ)) :
    (empty indexes nd : Table ν δ).fill zero false ins outs = (empty indexes nd).fill zero true ins outs ∧
      ∀ (t t' : Table ν δ) (append : Bool), t.fill zero append ins outs = .ok t' → ∀ ins' outs', t'.fill zero false ins' outs' = .error .ioError ∧
        ∀ order t'', t'.pack order = .ok t'' → t''.fill zero false ins' outs' = .error .ioError := by
  refine ⟨rfl, ?_⟩
  intro t t' append h ins' outs'
  have he : t'.isEmpty = false := by
    unfold Table.fill at h
    split at h
    · cases h
    · unfold Table.write at h
      split at h
      · cases h
      · dsimp only at h
        split at h
        · cases h
        · injection h with h; subst h; rfl
  refine ⟨?_, ?_⟩
  · unfold Table.fill
    rw [if_pos ⟨by simp [he], by simp⟩]
  · intro order t'' hp
    have he' : t''.isEmpty = false := by
      unfold Table.pack at hp
      split at hp
      · cases hp
      · split at hp
        · cases hp
        · injection hp with hp; subst hp; exact he
    unfold Table.fill
    rw [if_pos ⟨by simp [he'], by simp⟩]

end

/-! ### concrete cases -/

/-- a table of the duration of words by talker: 2 talkers, 3 words, 3 stored rows, one output -/
def exIndexes : List (List String) := [["t1", "t2"], ["a", "b", "c"]]

def exTable : Except Err (Table String Nat) := fillAll (nd := 1) 0 (empty exIndexes 1)
  [[(["t2", "b"], fun _ => 30), (["t1", "a"], fun _ => 10)], [(["t1", "b"], fun _ => 20)]]

/-- packed, keys 0, 2, 3 -/
def exPacked : Except Err (Table String Nat) := match exTable with
  | .ok t => t.pack [1, 2, 0]
  | .error e => .error e

def exEval (qs : List (List String)) : Except Err (List (List Nat)) := match exPacked with
  | .ok t => t.evaluate qs
  | .error e => .error e

example : exEval [["t1", "b"], ["t2", "b"], ["t1", "a"]] = .ok [[20, 30, 10]] := by decide +kernel

/-- one filling without `append`, and a second one, which is refused -/
example : (match (empty exIndexes 1 : Table String Nat).fill 0 false [["t2", "b"]] [[30]] with
    | .ok t => some (t.data, (t.fill 0 false [["t1", "b"]] [[20]]).toOption.isNone)
    | .error _ => none) = some ([[30]], true) := by decide +kernel

/-- the RuntimeError of the property -/
theorem C49_example : exEval [["t2", "a"]] = .error .runtimeError := by decide +kernel

/-- C49 is false: a query after the last stored row raises IndexError. -/
theorem C49_violated : exEval [["t1", "c"]] = .error .indexError := by decide +kernel

example : exEval [["t3", "a"]] = .error .valueError := by decide +kernel

example : (exIndexes.map List.length).prod ≤ m64 := by decide +kernel

example : Valid exIndexes ["t2", "b"] := .cons (by simp) (.cons (by simp) .nil)

#print axioms C48_fused_injective
#print axioms C48_fused_violated
#print axioms C48_lookup
#print axioms C48_lookup_unique
#print axioms C48_keys_injective
#print axioms C48_fill_once
#print axioms C48_create_fails
#print axioms C49_absent_partial
#print axioms C49_not_in_index
#print axioms C49_short
#print axioms C49_no_rows
#print axioms C49_not_packed
#print axioms C49_refilled
#print axioms C49_example
#print axioms C49_violated

end ABX.Lookup
