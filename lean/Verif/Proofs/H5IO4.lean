import Verif.Proofs.H5IO3
import Verif.Proofs.TaskSort
/-!
Lemmas for Properties/H5IO.lean: the writers that are added.
-/
namespace ABX.H5IO
open ExtSort NP2H5 Task Spec
open Lookup (indexOf fusedType fusedLevels keyWeights keyOf cap m64 m64_eq fusedKey expand InRange radix)

variable {ν : Type} [DecidableEq ν]

attribute [local irreducible] m64 Lookup.keyOf

/-- a writer stores the rows of `R` -/
def Good (g : Group ν) (dims : String → Nat) (d : OutDecl) : Prop :=
  ∀ m data, ValidM g dims m → Numbers g dims m data → rowsFor d data = .ok (R m d)

theorem fit_bits {n : Int} {b : Bool} {t : IntType} (ht : fitIntegerType n b = .ok t) : 1 ≤ t.bits / 8 ∧ t.bits / 8 ≤ 8 := by
  unfold fitIntegerType at ht
  simp only [] at ht
  generalize (if b = true then 1 else 0) = k at ht
  split at ht
  · injection ht with ht; rw [← ht]; simp
  split at ht
  · injection ht with ht; rw [← ht]; simp
  split at ht
  · injection ht with ht; rw [← ht]; simp
  split at ht
  · injection ht with ht; rw [← ht]; simp
  · cases ht

theorem castNat_mod {t : IntType} (h : t.signed = false) (x : Nat) : castNat t x = x % cap t := by
  unfold castNat IntType.cast IntType.lo cap
  simp only [h, Bool.false_eq_true, if_false, Int.sub_zero, Int.add_zero]
  have : ((x : Int) % 2 ^ t.bits) = ((x % 2 ^ t.bits : Nat) : Int) := by push_cast; rfl
  rw [this, Int.toNat_natCast]

omit [DecidableEq ν] in
theorem mem_raw {g : Group ν} {d : String} : d ∈ g.raw ↔ d ∈ g.managed ∧ d ∉ keysOf g.indexed := by
  simp [Group.raw, keysOf]

omit [DecidableEq ν] in
theorem mem_nonFused {g : Group ν} {d : String} (h : d ∈ g.nonFused) : d ∈ keysOf g.indexed := by
  unfold Group.nonFused at h
  exact (List.mem_filter.mp h).1

theorem fitCols_self (c : Nat) (rows : List (List Nat)) : fitCols c ⟨c, rows⟩ = .ok rows := by simp [fitCols]

theorem rawDecl_ok {f : File ν} {group : String} {g : Group ν} {dims : String → Nat} (hr : Ready f group g dims) {c : Bool × List (String × Input ν)} {m : String → List (List Nat)}
    (hc : Call g dims c m) {d : String} (hd : d ∈ g.raw) :
    ∃ D, rawDecl c.2 d = .ok D ∧ D.path = ("/", d) ∧ D.src = .raw d ∧ Fits D ∧ Good g dims D := by
  have hm := (mem_raw.mp hd).1
  refine ⟨⟨("/", d), .raw d, ⟨64, true⟩, dims d⟩, ?_, rfl, rfl, ?_, ?_⟩
  · unfold rawDecl
    rw [dimsOf_ok hc (by simpa using hm)]
    rfl
  · have := hr.pos d hm
    have := hr.raw d hd
    constructor <;> simp <;> omega
  · intro m data _ hn
    simp only [rowsFor, matOf_ok hn hm, fitCols_self, R]

theorem foldl_max_ge (l : List Nat) (a : Nat) : a ≤ l.foldl max a ∧ ∀ x ∈ l, x ≤ l.foldl max a := by
  induction l generalizing a with
  | nil => simp
  | cons y l ih =>
    rw [List.foldl_cons]
    have h := ih (max a y)
    refine ⟨by omega, ?_⟩
    intro x hx
    rcases List.mem_cons.mp hx with rfl | hx
    · omega
    · exact h.2 x hx

theorem foldl_max_lt {l : List Nat} {a b : Nat} (ha : a < b) (h : ∀ x ∈ l, x < b) : l.foldl max a < b := by
  induction l generalizing a with
  | nil => simpa
  | cons y l ih =>
    rw [List.foldl_cons]
    exact ih (by have := h y (by simp); omega) (fun x hx => h x (by simp [hx]))

/-- every cell of joined rows is below the largest number of levels -/
theorem cells_lt {ns row : List Nat} {b : Nat} (h : InRange ns row) (hb : ∀ n ∈ ns, n ≤ b) : ∀ x ∈ row, x < b := by
  induction h with
  | nil => simp
  | cons h _ ih =>
    intro x hx
    rcases List.mem_cons.mp hx with rfl | hx
    · have := hb _ (List.mem_cons_self ..); omega
    · exact ih (fun n hn => hb n (by simp [hn])) x hx

theorem mem_expand {n : Nat} : ∀ {ls ds : List Nat}, n ∈ expand ls ds → n ∈ ls := by
  intro ls ds h
  unfold expand at h
  obtain ⟨p, hp, hn⟩ := List.mem_flatMap.mp h
  rw [List.eq_of_mem_replicate hn]
  exact (List.of_mem_zip hp).1

theorem pos_sum {l : List Nat} (hne : l ≠ []) (h : ∀ x ∈ l, 0 < x) : 0 < l.sum := by
  cases l with
  | nil => exact absurd rfl hne
  | cons x l => have := h x (by simp); simp; omega

theorem indexedDecl_ok {f : File ν} {group : String} {g : Group ν} (hw : Wf g) {dims : String → Nat} (hr : Ready f group g dims) {c : Bool × List (String × Input ν)} {m : String → List (List Nat)}
    (hc : Call g dims c m) (hne : g.nonFused ≠ []) :
    ∃ D, indexedDecl group g c.2 = .ok D ∧ D.path = (group, "indexed_data") ∧ D.src = .indexed g.nonFused ∧ Fits D ∧ Good g dims D := by
  have hsub : ∀ d ∈ g.nonFused, d ∈ g.managed := fun d hd => hw.sub d (mem_nonFused hd)
  have hix : ∀ d ∈ g.nonFused, ∃ l, g.indexes.lookup d = some l ∧ levels g d = l.length := by
    intro d hd
    obtain ⟨i, l, h1, h2⟩ := hw.index (mem_nonFused hd)
    rw [hr.same d hd] at h1
    obtain rfl := Option.some.inj h1
    exact ⟨l, h2, levels_eq (hr.same d hd) h2⟩
  obtain ⟨ixs, e1, e2⟩ := sequence_exists (f := get g.indexes) (Q := fun d l => g.indexes.lookup d = some l) (l := g.nonFused) (fun d hd => by
    obtain ⟨l, hl, -⟩ := hix d hd
    exact ⟨l, get_ok hl, hl⟩)
  have hlen : ixs.map List.length = g.nonFused.map (levels g) := by
    have : ∀ d ∈ g.nonFused, ∀ l, g.indexes.lookup d = some l → levels g d = l.length := by
      intro d hd l hl
      obtain ⟨l', hl', h⟩ := hix d hd
      rw [hl] at hl'
      obtain rfl := Option.some.inj hl'
      exact h
    clear e1 hix hsub hne
    generalize g.nonFused = ds at e2 this
    induction e2 with
    | nil => rfl
    | cons h _ ih => rw [List.map_cons, List.map_cons, ih (fun d hd => this d (by simp [hd])), this _ (by simp) _ h]
  have hmax : (g.nonFused.map (levels g)).foldl max 0 < m64 := by
    apply foldl_max_lt (by rw [m64_eq]; positivity)
    intro x hx
    obtain ⟨d, hd, rfl⟩ := List.mem_map.mp hx
    obtain ⟨l, hl, h⟩ := hix d hd
    rw [h, m64_eq]
    exact hr.len _ (lookup_mem hl)
  obtain ⟨t, ht, -⟩ := Lookup.fit_unsigned m64_eq _ hmax
  refine ⟨⟨(group, "indexed_data"), .indexed g.nonFused, t, (g.nonFused.map dims).sum⟩, ?_, rfl, rfl, ?_, ?_⟩
  · unfold indexedDecl
    rw [dimsOf_ok hc hsub]
    dsimp only
    rw [e1]
    dsimp only
    rw [hlen, ht]
  · have hb := fit_bits ht
    have hs : 0 < (g.nonFused.map dims).sum := pos_sum (by simpa using hne) (by
      intro x hx
      obtain ⟨d, hd, rfl⟩ := List.mem_map.mp hx
      exact hr.pos d (hsub d hd))
    refine ⟨Nat.mul_pos hb.1 hs, ?_⟩
    exact Nat.lt_of_le_of_lt (Nat.mul_le_mul_right _ hb.2) hr.wide
  · intro m data hv hn
    obtain ⟨ms, h1, h2⟩ := joined hn hv hsub hne
    simp only [rowsFor, h1, h2, fitCols_self, R]
    have : ∀ row ∈ joinRows (g.nonFused.map m), row.map (castNat t) = row := by
      intro row hrow
      have hin := joinRows_inRange (g := g) (dims := dims) (fun d hd => hv.cols d (hsub d hd)) (fun d hd => hv.lt d (mem_nonFused hd)) row hrow
      have hlt := cells_lt hin (b := (g.nonFused.map (levels g)).foldl max 0) (fun n hn => (foldl_max_ge _ 0).2 n (mem_expand hn))
      conv_rhs => rw [← List.map_id row]
      apply List.map_congr_left
      intro x hx
      exact castNat_fit ht (by have := hlt x hx; omega)
    rw [List.map_congr_left this, List.map_id']

theorem cumprod_length (m : Nat) : ∀ (l : List Nat) (a : Nat), (Lookup.cumprod m a l).length = l.length
  | [], _ => rfl
  | n :: l, a => by rw [Lookup.cumprod, List.length_cons, cumprod_length m l, List.length_cons]

theorem keyWeights_length {m : Nat} {l : List Nat} (h : l ≠ []) : (keyWeights m l).length = l.length := by
  unfold keyWeights
  rw [List.length_cons, List.length_dropLast, cumprod_length]
  have := List.length_pos_iff.mpr h
  omega

theorem expand_ne {ls ds : List Nat} (hl : ls.length = ds.length) (hne : ds ≠ []) (hp : ∀ d ∈ ds, 0 < d) : expand ls ds ≠ [] := by
  cases ds with
  | nil => exact absurd rfl hne
  | cons d ds =>
    cases ls with
    | nil => simp at hl
    | cons l ls =>
      have := hp d (by simp)
      obtain ⟨k, rfl⟩ := Nat.exists_eq_succ_of_ne_zero (by omega : d ≠ 0)
      simp [expand, List.replicate_succ]

omit [DecidableEq ν] in
theorem prod_expand_map (g : Group ν) (dims : String → Nat) (ds : List String) :
    (expand (ds.map (levels g)) (ds.map dims)).prod = (ds.map (fun d => levels g d ^ dims d)).prod := by
  unfold expand
  rw [Lookup.prod_expand, List.zip_map', List.map_map]
  rfl

theorem fusedType_fit {M : Nat} {ls ds : List Nat} {t : IntType} (ht : fusedType M ls ds = .ok t) : ∃ n : Nat, fitIntegerType n false = .ok t := by
  unfold fusedType at ht
  split at ht
  · cases ht
  · exact ⟨_, ht⟩

omit [DecidableEq ν] in
theorem fusedDecl_eq {M : Nat} {group : String} {data : List (String × Input ν)} {p : String × List String × List Nat} {dims : List Nat} {t : IntType} (h : dimsOf data p.2.1 = .ok dims)
    (ht : fusedType M p.2.2 dims = .ok t) (hne : p.2.1 ≠ []) :
    fusedDecl M group data p = .ok ⟨(group, p.1), .fused p.2.1 (keyWeights (cap t) (fusedLevels t p.2.2 dims)), t, 1⟩ := by
  unfold fusedDecl
  rw [h]
  dsimp only
  generalize fusedType M p.2.2 dims = x at ht ⊢
  subst ht
  dsimp only
  rw [if_neg hne]

omit [DecidableEq ν] in
theorem fused_rows {data : List (String × Input ν)} {ds : List String} {ms : List Mat} {k : Nat} {rows : List (List Nat)} (h1 : sequence (ds.map (matOf data)) = .ok ms)
    (h2 : concatCols ms = .ok ⟨k, rows⟩) (path : String × String) (w : List Nat) (t : IntType) (h : ∀ row ∈ rows, row.length = w.length) :
    rowsFor ⟨path, .fused ds w, t, 1⟩ data = .ok (rows.map (fun row => [castNat t (keyOf (cap t) w row)])) := by
  have hk : ∀ row ∈ rows, rowKey t w row = .ok (keyOf (cap t) w row) := by
    intro row hrow
    unfold rowKey
    rw [if_pos (h row hrow)]
  simp only [rowsFor, h1, h2, sequence_map_ok hk, List.map_map, Function.comp_def]

theorem fusedDecl_ok {M : Nat} (hM : M = 2 ^ 64) {f : File ν} {group : String} {g : Group ν} (hw : Wf g) {dims : String → Nat} (hr : Ready f group g dims) {c : Bool × List (String × Input ν)} {m : String → List (List Nat)}
    (hc : Call g dims c m) {p : String × List String × List Nat} (hp : p ∈ g.fused) :
    ∃ D w, fusedDecl M group c.2 p = .ok D ∧ D.path = (group, p.1) ∧ D.src = .fused p.2.1 w ∧ Fits D ∧ Good g dims D ∧
      ∀ row, InRange (expand (p.2.1.map (levels g)) (p.2.1.map dims)) row → castNat D.type (keyOf (cap D.type) w row) = radix (expand (p.2.1.map (levels g)) (p.2.1.map dims)) row := by
  obtain ⟨name, ds, ls⟩ := p
  obtain ⟨hmem, hls⟩ := hw.fused _ hp
  obtain ⟨hne, hprod⟩ := hr.fused _ hp
  dsimp only at hmem hls hne hprod ⊢
  subst hls
  have hsub : ∀ d ∈ ds, d ∈ g.managed := fun d hd => hw.sub d (hmem d hd)
  obtain ⟨t, ht, -, -, -⟩ := Lookup.fusedType_ok hM (ds.map (levels g)) (ds.map dims)
  obtain ⟨n, hfit⟩ := fusedType_fit ht
  have hsg := fit_signed hfit
  refine ⟨⟨(group, name), .fused ds (keyWeights (cap t) (fusedLevels t (ds.map (levels g)) (ds.map dims))), t, 1⟩, _, ?_, rfl, rfl, ?_, ?_, ?_⟩
  · exact fusedDecl_eq (p := (name, ds, ds.map (levels g))) (dimsOf_ok hc hsub) ht hne
  · have hb := fit_bits hfit
    constructor <;> simp <;> omega
  · intro m data hv hn
    obtain ⟨ms, h1, h2⟩ := joined hn hv hsub hne
    refine (fused_rows h1 h2 _ _ _ ?_).trans rfl
    intro row hrow
    have hin := joinRows_inRange (g := g) (dims := dims) (fun d hd => hv.cols d (hsub d hd)) (fun d hd => hv.lt d (hmem d hd)) row hrow
    have hex : expand (ds.map (levels g)) (ds.map dims) ≠ [] := expand_ne (by simp) (by simpa using hne) (by
      intro x hx
      obtain ⟨d, hd, rfl⟩ := List.mem_map.mp hx
      exact hr.pos d (hsub d hd))
    rw [Lookup.fusedLevels_eq, keyWeights_length (by simpa using hex), List.length_map, List.Forall₂.length_eq hin]
  · intro row hin
    have := Lookup.fusedKey_ok hM hin (by rw [prod_expand_map, hM]; exact hprod)
    unfold fusedKey at this
    rw [ht] at this
    rw [castNat_mod hsg]
    exact Except.ok.inj this

end ABX.H5IO
