import Verif.Proofs.Task2
import Verif.Proofs.TaskSort
import Mathlib.Data.List.Forall2
import Mathlib.Tactic.NormNum
/-! Regressors and the order of the triplets of a block. -/
namespace ABX.Task
open ExtSort SideOps Sampler
variable {α β γ ρ : Type}

abbrev Tri := Spec.Item × Spec.Item × Spec.Item

section
variable {c : Cols} {m : Mgr β} (hm : MgrOK g c m) (hav : ∀ p ∈ m, Avail c p.op)
include hm hav

theorem evalA (row : Row) (I : List Spec.Item) (b x : Row) {f : DBFun β} (hf : f ∈ m.ops .A) :
    evaluate f (bindRows (m.aCtx .A) (I.map (·.2)) ++ m.blockCtx .A row I.length) =
      .ok (I.map (fun p => f.fn (stageEnv c row p.2 b x))) := by
  obtain ⟨p, hp, hs, rfl⟩ := mem_ops.mp hf
  rw [evaluate_ok (es := I.map (fun p => stageEnv c row p.2 b x)) _ (inputs_ne hm hp (by simp [hs]))]
  · rw [List.map_map]; rfl
  · intro v hv
    rw [List.map_append, List.mem_append, bindRows_fst, blockCtx_fst]
    by_cases hk : v.1 ∈ c.by_ ∨ condition c v = false
    · exact Or.inr (block_bound hm hp hs (by simp) (by simp) (hav p hp) hv hk)
    · push Not at hk
      exact Or.inl ((mem_ctx hp hs).2.2.2.1 v ((hm p hp).hA hs v hv hk.1 (by simpa using hk.2)))
  · apply rep_append
    · apply rep_rows
      intro v hv z _
      have := aCtx_spec hm hv
      simp [stageEnv, this]
    · apply blockCtx_rep hm (by simp)
      intro e he
      obtain ⟨z, _, rfl⟩ := List.mem_map.mp he
      exact ⟨_, _, _, rfl⟩

theorem evalB (row : Row) (I : List Spec.Item) (a x : Row) {f : DBFun β} (hf : f ∈ m.ops .B) :
    evaluate f (bindRows (m.bCtx .B) (I.map (·.2)) ++ m.blockCtx .B row I.length) =
      .ok (I.map (fun p => f.fn (stageEnv c row a p.2 x))) := by
  obtain ⟨p, hp, hs, rfl⟩ := mem_ops.mp hf
  rw [evaluate_ok (es := I.map (fun p => stageEnv c row a p.2 x)) _ (inputs_ne hm hp (by simp [hs]))]
  · rw [List.map_map]; rfl
  · intro v hv
    rw [List.map_append, List.mem_append, bindRows_fst, blockCtx_fst]
    by_cases hk : v.1 ∈ c.by_ ∨ condition c v = false
    · exact Or.inr (block_bound hm hp hs (by simp) (by simp) (hav p hp) hv hk)
    · push Not at hk
      exact Or.inl ((mem_ctx hp hs).2.2.2.2.1 v ((hm p hp).hB hs v hv hk.1 (by simpa using hk.2)))
  · apply rep_append
    · apply rep_rows
      intro v hv z _
      have := bCtx_spec hm hv
      simp [stageEnv, this]
    · apply blockCtx_rep hm (by simp)
      intro e he
      obtain ⟨z, _, rfl⟩ := List.mem_map.mp he
      exact ⟨_, _, _, rfl⟩

theorem evalX (row : Row) (I : List Spec.Item) (a b : Row) {f : DBFun β} (hf : f ∈ m.ops .X) :
    evaluate f (bindRows (m.xCtx .X) (I.map (·.2)) ++ m.blockCtx .X row I.length) =
      .ok (I.map (fun p => f.fn (stageEnv c row a b p.2))) := by
  obtain ⟨p, hp, hs, rfl⟩ := mem_ops.mp hf
  rw [evaluate_ok (es := I.map (fun p => stageEnv c row a b p.2)) _ (inputs_ne hm hp (by simp [hs]))]
  · rw [List.map_map]; rfl
  · intro v hv
    rw [List.map_append, List.mem_append, bindRows_fst, blockCtx_fst]
    by_cases hk : v.1 ∈ c.by_ ∨ condition c v = false
    · exact Or.inr (block_bound hm hp hs (by simp) (by simp) (hav p hp) hv hk)
    · push Not at hk
      exact Or.inl ((mem_ctx hp hs).2.2.2.2.2.1 v ((hm p hp).hX hs v hv hk.1 (by simpa using hk.2)))
  · apply rep_append
    · apply rep_rows
      intro v hv z _
      have := xCtx_spec hm hv
      simp [stageEnv, this]
    · apply blockCtx_rep hm (by simp)
      intro e he
      obtain ⟨z, _, rfl⟩ := List.mem_map.mp he
      exact ⟨_, _, _, rfl⟩

end

section
variable {c : Cols} {m : Mgr Nat} (hm : MgrOK g c m) (hav : ∀ p ∈ m, Avail c p.op)
include hm

theorem byRegs_ok (row : Row) : byRegs m row = .ok ((m.ops .by).map (fun f => f.fn (fun v => row v.1))) := by
  unfold byRegs
  apply sequence_map_ok
  intro f hf
  obtain ⟨p, hp, hs, rfl⟩ := mem_ops.mp hf
  rw [evaluate_single (e := fun v => row v.1)]
  · rfl
  · exact rep_const (by simp) (by intro v _ e he; simp at he; subst he; rfl)
  · intro v hv
    rw [bindConst_fst]
    exact (mem_ctx hp hs).1 v ((hm p hp).hby (by simp [hs]) v hv ((hm p hp).hby' hs v hv))

include hav

theorem onAcrossByRegs_ok (row : Row) :
    onAcrossByRegs m row = .ok ((m.ops .onAcrossBy).map (fun f => f.fn (stageEnv c row row row row))) := by
  unfold onAcrossByRegs
  apply sequence_map_ok
  intro f hf
  obtain ⟨p, hp, hs, rfl⟩ := mem_ops.mp hf
  rw [evaluate_single (e := stageEnv c row row row row)]
  · rfl
  · exact blockCtx_rep hm (by simp) (by intro e he; simp at he; exact ⟨_, _, _, he⟩)
  · intro v hv
    rw [blockCtx_fst]
    apply block_bound hm hp hs (by simp) (by simp) (hav p hp) hv
    by_cases hby : v.1 ∈ c.by_
    · exact Or.inl hby
    · exact Or.inr ((hm p hp).hoab hs v hv hby)

theorem itemRegsA_ok {fr : Frame} (hd : Distinct fr) (row : Row) {I : Frame} (hI : ∀ p ∈ I, p ∈ fr) :
    itemRegs m .A (m.aCtx .A) fr row (I.map (·.1)) = .ok ((m.ops .A).map (fun f => I.map (fun p => f.fn (stageEnv c row p.2 row row)))) := by
  unfold itemRegs
  by_cases h : m.ops .A = []
  · simp [h]
  · rw [if_neg (by simpa using h), hd.locs hI]
    simp only [List.length_map]
    exact sequence_map_ok (fun f hf => evalA hm hav row I row row hf)

theorem itemRegsB_ok {fr : Frame} (hd : Distinct fr) (row : Row) {I : Frame} (hI : ∀ p ∈ I, p ∈ fr) :
    itemRegs m .B (m.bCtx .B) fr row (I.map (·.1)) = .ok ((m.ops .B).map (fun f => I.map (fun p => f.fn (stageEnv c row row p.2 row)))) := by
  unfold itemRegs
  by_cases h : m.ops .B = []
  · simp [h]
  · rw [if_neg (by simpa using h), hd.locs hI]
    simp only [List.length_map]
    exact sequence_map_ok (fun f hf => evalB hm hav row I row row hf)

theorem itemRegsX_ok {fr : Frame} (hd : Distinct fr) (row : Row) {I : Frame} (hI : ∀ p ∈ I, p ∈ fr) :
    itemRegs m .X (m.xCtx .X) fr row (I.map (·.1)) = .ok ((m.ops .X).map (fun f => I.map (fun p => f.fn (stageEnv c row row row p.2)))) := by
  unfold itemRegs
  by_cases h : m.ops .X = []
  · simp [h]
  · rw [if_neg (by simpa using h), hd.locs hI]
    simp only [List.length_map]
    exact sequence_map_ok (fun f hf => evalX hm hav row I row row hf)
end

theorem gatherAll_ok (F : List γ) (col : γ → List Nat) (ix : List Nat) (res : γ → List Nat) (h : ∀ f ∈ F, gather (col f) ix = .ok (res f)) :
    gatherAll (F.map col) ix = .ok (F.map res) := by
  unfold gatherAll
  rw [List.map_map]
  exact sequence_map_ok h

/-- a regressor of a stage as function of the triplet -/
def valA (c : Cols) (row : Row) (f : DBFun Nat) (t : Tri) : Nat := f.fn (stageEnv c row t.1.2 row row)
def valB (c : Cols) (row : Row) (f : DBFun Nat) (t : Tri) : Nat := f.fn (stageEnv c row row t.2.1.2 row)
def valX (c : Cols) (row : Row) (f : DBFun Nat) (t : Tri) : Nat := f.fn (stageEnv c row row row t.2.2.2)

/-- the functions by which a block is sorted -/
def sortFns (c : Cols) (m : Mgr Nat) (row : Row) : List (Tri → Nat) := (m.ops .B).map (valB c row) ++ (m.ops .X).map (valX c row)

/-- the triples of items of a block -/
def blkTri (c : Cols) (mf : Mgr Bool) (row : Row) (A B X : Frame) : List Tri := (prod3 A B X).filter (pABX c mf row)

theorem blkOf_abx_gather (c : Cols) (mf : Mgr Bool) (row : Row) (A B X : Frame) (F : List (Tri → Nat)) :
    filt (blkOf c mf row A B X).abx (F.map (fun f => (prod3 A B X).map f)) = .ok (F.map (fun f => (blkTri c mf row A B X).map f)) := by
  simp only [blkOf]
  by_cases h : mf.ops .ABX = []
  · have : blkTri c mf row A B X = prod3 A B X := by
      unfold blkTri; apply List.filter_eq_self.mpr; intro t _; simp [pABX, h]
    simp [h, filt, this]
  · have h' : (mf.ops .ABX).isEmpty = false := by simpa using h
    simp only [h', Bool.false_eq_true, if_false, filt]
    exact gatherAll_ok F _ _ _ (fun f _ => gather_positions _ _ f)

theorem sortCols_ok (c : Cols) (mf : Mgr Bool) (m : Mgr Nat) (row : Row) (A B X : Frame) :
    sortCols ((m.ops .B).map (fun f => B.map (fun p => f.fn (stageEnv c row row p.2 row))))
      ((m.ops .X).map (fun f => X.map (fun p => f.fn (stageEnv c row row row p.2)))) (blkOf c mf row A B X) =
      .ok ((sortFns c m row).map (fun k => (blkTri c mf row A B X).map k)) := by
  unfold sortCols
  have h1 : gatherAll ((m.ops .B).map (fun f => B.map (fun p => f.fn (stageEnv c row row p.2 row)))) (blkOf c mf row A B X).iB =
      .ok ((m.ops .B).map (fun f => (prod3 A B X).map (valB c row f))) :=
    gatherAll_ok _ _ _ _ (fun f _ => gather_facB A B X (fun p => f.fn (stageEnv c row row p.2 row)))
  have h2 : gatherAll ((m.ops .X).map (fun f => X.map (fun p => f.fn (stageEnv c row row row p.2)))) (blkOf c mf row A B X).iX =
      .ok ((m.ops .X).map (fun f => (prod3 A B X).map (valX c row f))) :=
    gatherAll_ok _ _ _ _ (fun f _ => gather_facX A B X (fun p => f.fn (stageEnv c row row row p.2)))
  rw [h1, h2]
  simp only []
  rw [← blkOf_abx_gather]
  simp [sortFns, Function.comp_def]

/-! ### rows of regressors -/

theorem rowsOf_map (K : List (Tri → Nat)) (S : List Tri) (hK : K ≠ []) :
    rowsOf (K.map (fun k => S.map k)) = S.map (fun t => K.map (fun k => k t)) := by
  obtain ⟨k, ks, rfl⟩ := List.exists_cons_of_ne_nil hK
  simp only [List.map_cons, rowsOf, List.length_map]
  apply List.ext_getElem
  · simp
  · intro i h1 h2
    have hi : i < S.length := by simpa using h2
    simp [hi, List.filterMap_cons, List.filterMap_map, Function.comp_def]

theorem rowsOf_isEmpty (K : List (Tri → Nat)) (S : List Tri) :
    (rowsOf (K.map (fun k => S.map k))).isEmpty = true ↔ K = [] ∨ S = [] := by
  by_cases hK : K = []
  · simp [hK, rowsOf]
  · rw [rowsOf_map K S hK]; simp [hK]

theorem hornerFold_inj : ∀ (ns r1 r2 : List Nat) (a b : Nat), ns.length = r1.length → ns.length = r2.length →
    (∀ p ∈ ns.zip r1, p.2 < p.1) → (∀ p ∈ ns.zip r2, p.2 < p.1) →
    (ns.zip r1).foldl (fun acc p => p.2 + p.1 * acc) a = (ns.zip r2).foldl (fun acc p => p.2 + p.1 * acc) b → r1 = r2 ∧ a = b
  | [], r1, r2, a, b, h1, h2, _, _, h => by
    have e1 : r1 = [] := List.eq_nil_of_length_eq_zero h1.symm
    have e2 : r2 = [] := List.eq_nil_of_length_eq_zero h2.symm
    subst e1; subst e2
    exact ⟨rfl, by simpa using h⟩
  | n :: ns, [], _, _, _, h1, _, _, _, _ => by simp at h1
  | n :: ns, _ :: _, [], _, _, _, h2, _, _, _ => by simp at h2
  | n :: ns, x :: r1, y :: r2, a, b, h1, h2, l1, l2, h => by
    simp only [List.zip_cons_cons, List.foldl_cons] at h
    obtain ⟨e1, e2⟩ := hornerFold_inj ns r1 r2 _ _ (by simpa using h1) (by simpa using h2)
      (fun p hp => l1 p (by simp [hp])) (fun p hp => l2 p (by simp [hp])) h
    have hx : x < n := l1 (n, x) (by simp)
    have hy : y < n := l2 (n, y) (by simp)
    have hxy : x = y := by
      have h1 : (x + n * a) % n = x := by rw [Nat.add_mul_mod_self_left, Nat.mod_eq_of_lt hx]
      have h2 : (y + n * b) % n = y := by rw [Nat.add_mul_mod_self_left, Nat.mod_eq_of_lt hy]
      rw [← h1, ← h2, e2]
    subst hxy
    have : n * a = n * b := by omega
    exact ⟨by rw [e1], Nat.eq_of_mul_eq_mul_left (by omega) this⟩

theorem foldl_max_le (l : List Nat) : ∀ (a : Nat), a ≤ l.foldl max a ∧ ∀ x ∈ l, x ≤ l.foldl max a := by
  induction l with
  | nil => intro a; simp
  | cons y l ih =>
    intro a
    obtain ⟨h1, h2⟩ := ih (max a y)
    simp only [List.foldl_cons]
    refine ⟨by omega, ?_⟩
    intro x hx
    rcases List.mem_cons.mp hx with rfl | hx
    · omega
    · exact h2 x hx

/-- the row of sorting regressors of a triplet -/
def keyRow (K : List (Tri → Nat)) (t : Tri) : List Nat := K.map (fun k => k t)

theorem nRegs_bound (K : List (Tri → Nat)) {S : List Tri} {t : Tri} (ht : t ∈ S) :
    ∀ p ∈ (nRegs (K.map (fun k => S.map k))).zip (keyRow K t), p.2 < p.1 := by
  have : (nRegs (K.map (fun k => S.map k))).zip (keyRow K t) = K.map (fun k => ((S.map k).foldl max 0 + 1, k t)) := by
    unfold nRegs keyRow
    rw [List.map_map]
    exact zip_map_map _ _ _
  rw [this]
  intro p hp
  obtain ⟨k, _, rfl⟩ := List.mem_map.mp hp
  have := (foldl_max_le (S.map k) 0).2 (k t) (List.mem_map_of_mem ht)
  dsimp only
  omega

theorem index_inj {N : Num} (hN : N.Exact) (K : List (Tri → Nat)) {S : List Tri}
    (hprod : (nRegs (K.map (fun k => S.map k))).prod ≤ 2 ^ 53) {t u : Tri} (ht : t ∈ S) (hu : u ∈ S)
    (h : N.index (nRegs (K.map (fun k => S.map k))) (keyRow K t) = N.index (nRegs (K.map (fun k => S.map k))) (keyRow K u)) :
    keyRow K t = keyRow K u := by
  have len : ∀ t, (nRegs (K.map (fun k => S.map k))).length = (keyRow K t).length := by intro t; simp [nRegs, keyRow]
  rw [hN _ _ (len t) hprod (nRegs_bound K ht), hN _ _ (len u) hprod (nRegs_bound K hu)] at h
  exact (hornerFold_inj _ _ _ 0 0 (len t) (len u) (nRegs_bound K ht) (nRegs_bound K hu) (by exact_mod_cast h)).1

/-- equal elements are next to each other -/
def Contig (l : List γ) : Prop := ∀ (i j k : Nat) (x y : γ), i ≤ j → j ≤ k → l[i]? = some x → l[j]? = some y → l[k]? = some x → y = x

/-- what sorting (and sampling) does to the triplets of a block: a selection of distinct positions, which keeps
`keepCount threshold n` of the `n` triplets of each group and makes groups contiguous -/
structure Sel (threshold : Nat) (K : List (Tri → Nat)) (S S' : List Tri) : Prop where
  select : ∃ p : List Nat, p.Nodup ∧ gather S p = .ok S'
  count : ∀ r, (S'.filter (fun t => keyRow K t == r)).length = keepCount threshold (S.filter (fun t => keyRow K t == r)).length
  contig : Contig (S'.map (keyRow K))

theorem contig_of_sorted {S' : List Tri} {key : Tri → List Nat} {ix : Tri → Int} (hs : (S'.map ix).Pairwise (· ≤ ·))
    (h1 : ∀ t ∈ S', ∀ u ∈ S', ix t = ix u → key t = key u) (h2 : ∀ t u, key t = key u → ix t = ix u) : Contig (S'.map key) := by
  intro i j k x y hij hjk hi hj hk
  rw [List.getElem?_map] at hi hj hk
  obtain ⟨t, ht, rfl⟩ := Option.map_eq_some_iff.mp hi
  obtain ⟨u, hu, rfl⟩ := Option.map_eq_some_iff.mp hj
  obtain ⟨v, hv, hvt⟩ := Option.map_eq_some_iff.mp hk
  have hvt := h2 _ _ hvt
  have ord : ∀ {i j : Nat} {t u : Tri}, i ≤ j → S'[i]? = some t → S'[j]? = some u → ix t ≤ ix u := by
    intro i j t u hij ht hu
    obtain ⟨hi, rfl⟩ := List.getElem?_eq_some_iff.mp ht
    obtain ⟨hj, rfl⟩ := List.getElem?_eq_some_iff.mp hu
    rcases Nat.lt_or_ge i j with h | h
    · rw [List.pairwise_map] at hs
      exact List.pairwise_iff_getElem.mp hs i j hi hj h
    · have : i = j := by omega
      subst this; exact Int.le_refl _
  have o1 := ord hij ht hu
  have o2 := ord hjk hu hv
  exact h1 u (List.mem_of_getElem? hu) t (List.mem_of_getElem? ht) (by omega)

theorem fit_signed {n : Int} {b : Bool} {t : IntType} (ht : fitIntegerType n b = .ok t) : t.signed = b := by
  unfold fitIntegerType at ht
  simp only [] at ht
  generalize (if b = true then 1 else 0) = k at ht
  split at ht
  · injection ht with ht; rw [← ht]
  split at ht
  · injection ht with ht; rw [← ht]
  split at ht
  · injection ht with ht; rw [← ht]
  split at ht
  · injection ht with ht; rw [← ht]
  · cases ht

theorem sortBlock_cases {N : Num} {threshold : Nat} {src : Nat → Src} {S : List Tri} {K : List (Tri → Nat)} {trips : List (Nat × Nat × Nat)} {p ix : List Nat}
    (h : sortBlock N threshold src (S.map lab) (K.map (fun k => S.map k)) = .ok (trips, p, ix)) :
    ((K = [] ∨ S = []) ∧ trips = S.map lab ∧ p = []) ∨
    (K ≠ [] ∧ S ≠ [] ∧ ∃ t, t.signed = false ∧ fitIntegerType ((⟨64, true⟩ : IntType).cast ((nRegs (K.map (fun k => S.map k))).prod : Nat)) false = .ok t ∧
      sortAndThreshold (N.argsort (S.map (fun t => N.index (nRegs (K.map (fun k => S.map k))) (keyRow K t))))
        (S.map (fun t => N.index (nRegs (K.map (fun k => S.map k))) (keyRow K t))) t threshold src = .ok (p, ix) ∧
      gather (S.map lab) p = .ok trips) := by
  unfold sortBlock at h
  by_cases he : (rowsOf (K.map (fun k => S.map k))).isEmpty = true
  · rw [if_pos he] at h
    injection h with h
    simp only [Prod.mk.injEq] at h
    exact Or.inl ⟨(rowsOf_isEmpty K S).mp he, h.1.symm, h.2.1.symm⟩
  · right
    rw [if_neg he] at h
    have hne := (not_congr (rowsOf_isEmpty K S)).mp he
    push Not at hne
    refine ⟨hne.1, hne.2, ?_⟩
    split at h
    · cases h
    rename_i t ht
    rw [rowsOf_map K S hne.1, List.map_map] at h
    simp only [] at h
    split at h
    · cases h
    rename_i p' ix' hst
    split at h
    · cases h
    rename_i tr htr
    injection h with h
    simp only [Prod.mk.injEq] at h
    obtain ⟨rfl, rfl, rfl⟩ := h
    refine ⟨t, ?_, ht, hst, htr⟩
    exact fit_signed ht

theorem gather_map_lab {S : List γ} {f : γ → β} {p : List Nat} {r : List β} (h : gather (S.map f) p = .ok r) : ∃ S', gather S p = .ok S' ∧ r = S'.map f := by
  induction p generalizing r with
  | nil => simp [gather] at h; exact ⟨[], rfl, by simp [← h]⟩
  | cons i p ih =>
    unfold gather at h
    split at h
    · cases h
    rename_i x hx
    split at h
    · cases h
    rename_i xs hxs
    injection h with h
    obtain ⟨S', h1, rfl⟩ := ih hxs
    rw [List.getElem?_map] at hx
    obtain ⟨y, hy, rfl⟩ := Option.map_eq_some_iff.mp hx
    exact ⟨y :: S', by simp [gather, hy, h1], by simp [← h]⟩

/-- no threshold: a permutation -/
theorem sortBlock_zero {N : Num} (ha : ArgsortLaw N.argsort) {src : Nat → Src} {S : List Tri} {K : List (Tri → Nat)} {trips : List (Nat × Nat × Nat)} {p ix : List Nat}
    (h : sortBlock N 0 src (S.map lab) (K.map (fun k => S.map k)) = .ok (trips, p, ix)) :
    ∃ S' : List Tri, S'.Perm S ∧ trips = S'.map lab ∧ (((K = [] ∨ S = []) ∧ p = [] ∧ S' = S) ∨ (K ≠ [] ∧ gather S p = .ok S' ∧
      (S'.map (fun t => N.index (nRegs (K.map (fun k => S.map k))) (keyRow K t))).Pairwise (· ≤ ·))) := by
  rcases sortBlock_cases h with ⟨h1, h2, h3⟩ | ⟨h1, h2, t, ht, hf, hst, hg⟩
  · exact ⟨S, .refl _, h2, Or.inl ⟨h1, h3, rfl⟩⟩
  · obtain ⟨s, hs1, hs2⟩ := sortAndThreshold_zero ha (S.map (fun t => N.index (nRegs (K.map (fun k => S.map k))) (keyRow K t))) t src
    rw [hs2] at hst
    injection hst with hst
    simp only [Prod.mk.injEq] at hst
    obtain ⟨S', e1, e2⟩ := gather_map_lab hg
    refine ⟨S', ?_, e2, Or.inr ⟨h1, e1, ?_⟩⟩
    · have hp := ha.perm (S.map (fun t => N.index (nRegs (K.map (fun k => S.map k))) (keyRow K t)))
      rw [hst.1, List.length_map] at hp
      obtain ⟨S'', g1, g2⟩ := gather_perm S p hp
      rw [e1] at g1
      injection g1 with g1
      rw [g1]; exact g2
    · have hso := ha.sorted _ _ hs1
      rw [hst.1] at hs1
      obtain ⟨S'', g1, g2⟩ := gather_map_lab hs1
      rw [e1] at g1
      injection g1 with g1
      rw [g1, ← g2]; exact hso

/-- with exact indices and a type that holds the number of triplets -/
theorem sortBlock_sel {N : Num} (ha : ArgsortLaw N.argsort) (hN : N.Exact) {threshold : Nat} {src : Nat → Src} (hl : ∀ j, (src j).Lawful)
    {S : List Tri} {K : List (Tri → Nat)} (hK : K ≠ []) (hprod : (nRegs (K.map (fun k => S.map k))).prod ≤ 2 ^ 53)
    (hfit : threshold = 0 ∨ ∀ t, fitIntegerType ((nRegs (K.map (fun k => S.map k))).prod : Nat) false = .ok t → (S.length : Int) ≤ t.hi)
    {trips : List (Nat × Nat × Nat)} {p ix : List Nat}
    (h : sortBlock N threshold src (S.map lab) (K.map (fun k => S.map k)) = .ok (trips, p, ix)) :
    ∃ S' : List Tri, Sel threshold K S S' ∧ trips = S'.map lab ∧ ((S = [] ∧ p = [] ∧ S' = []) ∨ gather S p = .ok S') := by
  have inj := fun {t u} => index_inj hN K hprod (t := t) (u := u)
  by_cases hz : threshold = 0
  · subst hz
    obtain ⟨S', h1, h2, h3⟩ := sortBlock_zero ha h
    have cnt : ∀ r, (S'.filter (fun t => keyRow K t == r)).length = keepCount 0 (S.filter (fun t => keyRow K t == r)).length := by
      intro r; simp only [keepCount, if_true]; exact (h1.filter _).length_eq
    rcases h3 with ⟨h3 | h3, h4, h5⟩ | ⟨_, h4, h5⟩
    · exact absurd h3 hK
    · subst h3; subst h5; subst h4
      exact ⟨[], ⟨⟨[], by simp, rfl⟩, cnt, by intro i j k x y _ _ h; simp at h⟩, h2, Or.inl ⟨rfl, rfl, rfl⟩⟩
    · refine ⟨S', ⟨?_, cnt, ?_⟩, h2, Or.inr h4⟩
      · rcases sortBlock_cases h with ⟨g1, g2, g3⟩ | ⟨g1, g2, t, ht, hf, hst, hg⟩
        · exact ⟨p, by simp [g3], h4⟩
        · obtain ⟨s, hs1, hs2⟩ := sortAndThreshold_zero ha (S.map (fun t => N.index (nRegs (K.map (fun k => S.map k))) (keyRow K t))) t src
          rw [hs2] at hst
          injection hst with hst
          simp only [Prod.mk.injEq] at hst
          refine ⟨p, ?_, h4⟩
          rw [← hst.1]
          exact (ha.perm _).nodup_iff.mpr List.nodup_range
      · exact contig_of_sorted h5 (fun t ht u hu => inj (h1.mem_iff.mp ht) (h1.mem_iff.mp hu)) (fun t u h => by rw [h])
  · rcases sortBlock_cases h with ⟨h1, h2, h3⟩ | ⟨h1, h2, t, ht, hf, hst, hg⟩
    · have hS : S = [] := by rcases h1 with h1 | h1; exact absurd h1 hK; exact h1
      subst hS
      exact ⟨[], ⟨⟨[], by simp, rfl⟩, by intro r; simp [keepCount], by intro i j k x y _ _ h; simp at h⟩, h2, Or.inl ⟨rfl, h3, rfl⟩⟩
    · have hcast : (⟨64, true⟩ : IntType).cast ((nRegs (K.map (fun k => S.map k))).prod : Nat) = ((nRegs (K.map (fun k => S.map k))).prod : Nat) := by
        generalize (nRegs (K.map (fun k => S.map k))).prod = n at hprod
        simp only [IntType.cast, IntType.lo, if_true]
        norm_num
        omega
      rw [hcast] at hf
      rcases hfit with h0 | hfit
      · exact absurd h0 hz
      have hfit := hfit t hf
      clear hf hcast hprod
      obtain ⟨S', e1, e2⟩ := gather_map_lab hg
      obtain ⟨q1, q2, q3, q4⟩ := sortAndThreshold_ok ha ht hl (by rw [List.length_map]; exact hfit) hst
      obtain ⟨t0, hS0⟩ := List.exists_mem_of_ne_nil S h2
      obtain ⟨r1, r2⟩ := gather_inv t0 e1
      have key : ∀ i ∈ p, (S.map (fun t => N.index (nRegs (K.map (fun k => S.map k))) (keyRow K t))).getD i 0 =
          N.index (nRegs (K.map (fun k => S.map k))) (keyRow K (S.getD i t0)) := by
        intro i hi; exact getD_map' _ _ _ _ (r1 i hi)
      have memS : ∀ i ∈ p, S.getD i t0 ∈ S := by
        intro i hi
        have := r1 i hi
        simp only [List.getD_eq_getElem?_getD, List.getElem?_eq_getElem this, Option.getD_some]
        exact List.getElem_mem this
      refine ⟨S', ⟨⟨p, q1, e1⟩, ?_, ?_⟩, e2, Or.inr e1⟩
      · intro r
        by_cases hr : ∃ t ∈ S, keyRow K t = r
        · obtain ⟨u, hu, rfl⟩ := hr
          have := q4 (N.index (nRegs (K.map (fun k => S.map k))) (keyRow K u))
          rw [r2, List.filter_map, List.length_map]
          have e3 : p.filter ((fun t => keyRow K t == keyRow K u) ∘ fun i => S.getD i t0) = p.filter (fun i =>
              (S.map (fun t => N.index (nRegs (K.map (fun k => S.map k))) (keyRow K t))).getD i 0 == N.index (nRegs (K.map (fun k => S.map k))) (keyRow K u)) := by
            apply List.filter_congr
            intro i hi
            rw [key i hi, Bool.eq_iff_iff]
            simp only [Function.comp, beq_iff_eq]
            exact ⟨fun h => by rw [h], inj (memS i hi) hu⟩
          rw [e3, this]
          refine congrArg _ ?_
          rw [List.count_eq_countP, List.countP_map, List.countP_eq_length_filter]
          congr 1
          apply List.filter_congr
          intro w hw
          rw [Bool.eq_iff_iff]
          simp only [Function.comp, beq_iff_eq]
          exact ⟨inj hw hu, fun h => by rw [h]⟩
        · have n1 : S.filter (fun t => keyRow K t == r) = [] := by
            apply List.filter_eq_nil_iff.mpr
            intro t ht; simp; exact fun h => hr ⟨t, ht, h⟩
          have n2 : S'.filter (fun t => keyRow K t == r) = [] := by
            apply List.filter_eq_nil_iff.mpr
            intro t ht
            rw [r2] at ht
            obtain ⟨i, hi, rfl⟩ := List.mem_map.mp ht
            simp; exact fun h => hr ⟨_, memS i hi, h⟩
          rw [n1, n2]; simp [keepCount_zero]
      · refine contig_of_sorted (ix := fun t => N.index (nRegs (K.map (fun k => S.map k))) (keyRow K t)) ?_ ?_ (fun t u h => by rw [h])
        · rw [r2, List.map_map, List.pairwise_map]
          refine q3.imp_of_mem ?_
          intro i j hi hj hij
          rw [key i hi, key j hj] at hij
          exact hij
        · intro t ht u hu h
          rw [r2] at ht hu
          obtain ⟨i, hi, rfl⟩ := List.mem_map.mp ht
          obtain ⟨j, hj, rfl⟩ := List.mem_map.mp hu
          exact inj (memS i hi) (memS j hj) h

theorem runBounds_nil (same : α → α → Bool) : Spec.runBounds same ([] : List α) = [0] := rfl

theorem runBounds_congr {same same' : α → α → Bool} {l : List α} (h : ∀ x ∈ l, ∀ y ∈ l, same x y = same' x y) : Spec.runBounds same l = Spec.runBounds same' l := by
  unfold Spec.runBounds
  apply List.filter_congr
  intro i _
  congr 1
  cases h1 : l[i - 1]? with
  | none => rfl
  | some x => cases h2 : l[i]? with
    | none => rfl
    | some y =>
      dsimp only
      rw [h x (List.mem_of_getElem? h1) y (List.mem_of_getElem? h2)]

theorem runBounds_map {f : α → β} {same : β → β → Bool} (l : List α) : Spec.runBounds same (l.map f) = Spec.runBounds (fun x y => same (f x) (f y)) l := by
  unfold Spec.runBounds
  rw [List.length_map]
  apply List.filter_congr
  intro i _
  congr 1
  rw [List.getElem?_map, List.getElem?_map]
  cases h1 : l[i - 1]? with
  | none => rfl
  | some x => cases h2 : l[i]? with
    | none => rfl
    | some y => rfl

theorem uniqueIdx_runs {f : α → Int} {same : α → α → Bool} {l : List α} (h : ∀ x ∈ l, ∀ y ∈ l, same x y = true ↔ f x = f y) :
    uniqueIdx (l.map f) = Spec.runBounds same l := by
  unfold uniqueIdx Spec.runBounds
  rw [List.length_map]
  apply List.filter_congr
  intro i hi
  rw [List.mem_range] at hi
  by_cases h0 : i = 0
  · simp [h0]
  by_cases hl : i = l.length
  · simp [hl]
  congr 1
  have a : i - 1 < l.length := by omega
  have b : i < l.length := by omega
  rw [List.getElem?_map, List.getElem?_map, List.getElem?_eq_getElem a, List.getElem?_eq_getElem b]
  have := h _ (List.getElem_mem a) _ (List.getElem_mem b)
  dsimp only [Option.map_some]
  cases hs : same l[i - 1] l[i]
  · rw [hs] at this
    simp only [Bool.false_eq_true, false_iff] at this
    simp only [Bool.not_false, bne_iff_ne, ne_eq, Option.some.injEq]
    exact fun e => this e.symm
  · rw [hs] at this
    simp [this.mp rfl]

/-- the block index without threshold: the boundaries of the runs of equal regressors -/
theorem sortBlock_index {N : Num} (ha : ArgsortLaw N.argsort) (hN : N.Exact) {src : Nat → Src} {S : List Tri} {K : List (Tri → Nat)}
    (hprod : (nRegs (K.map (fun k => S.map k))).prod ≤ 2 ^ 53) (hK : K = [] → S = [])
    {trips : List (Nat × Nat × Nat)} {p ix : List Nat}
    (h : sortBlock N 0 src (S.map lab) (K.map (fun k => S.map k)) = .ok (trips, p, ix)) :
    (S = [] ∧ ix = [0]) ∨ ∃ S', gather S p = .ok S' ∧ ix = Spec.runBounds (fun t u => keyRow K t == keyRow K u) S' := by
  rcases sortBlock_cases h with ⟨h1, h2, h3⟩ | ⟨h1, h2, t, ht, hf, hst, hg⟩
  · have hS : S = [] := by
      rcases h1 with h1 | h1
      · exact hK h1
      · exact h1
    left
    refine ⟨hS, ?_⟩
    unfold sortBlock at h
    rw [if_pos ((rowsOf_isEmpty K S).mpr h1)] at h
    injection h with h
    simp only [Prod.mk.injEq] at h
    exact h.2.2.symm
  · right
    obtain ⟨s, hs1, hs2⟩ := sortAndThreshold_zero ha (S.map (fun t => N.index (nRegs (K.map (fun k => S.map k))) (keyRow K t))) t src
    rw [hs2] at hst
    injection hst with hst
    simp only [Prod.mk.injEq] at hst
    rw [hst.1] at hs1
    obtain ⟨S', e1, e2⟩ := gather_map_lab hs1
    refine ⟨S', e1, ?_⟩
    rw [← hst.2, e2]
    apply uniqueIdx_runs
    have sub : ∀ t ∈ S', t ∈ S := by
      intro x hx
      obtain ⟨h1, h2⟩ := gather_inv x e1
      rw [h2] at hx
      obtain ⟨i, hi, hxi⟩ := List.mem_map.mp hx
      have := h1 i hi
      simp only [List.getD_eq_getElem?_getD, List.getElem?_eq_getElem this, Option.getD_some] at hxi
      rw [← hxi]; exact List.getElem_mem this
    intro x hx y hy
    rw [beq_iff_eq]
    exact ⟨fun e => by rw [e], fun e => index_inj hN K hprod (sub x hx) (sub y hy) e⟩

end ABX.Task
