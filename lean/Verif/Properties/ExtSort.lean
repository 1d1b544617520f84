import Verif.Proofs.ExtSort2
import Verif.Properties.Reader
import Mathlib.Tactic.Linarith
import Mathlib.Tactic.ByContra
import Mathlib.Data.List.Induction
/-!
C36, C37, C38: the external merge sort `H5Handler.sort` (ABXpy/h5tools/h5_handler.py lines 56-236) and
the way `sort_pairs` (ABXpy/task.py lines 1208-1251) calls it.

`argsort` is any sorting permutation (`ArgsortLaw`), `pol` is any refill policy of the readers that refills
a completely consumed buffer (`quarter_ok`: the policy of the code is one).
-/
namespace ABX.ExtSort
open H52NP NP2H5

/-- a stable argsort: one of the functions that satisfies `ArgsortLaw` -/
def stableArgsort (l : List Int) : List Nat :=
  (List.range l.length).mergeSort (fun i j => decide ((l[i]?).getD 0 ≤ (l[j]?).getD 0))

theorem stableArgsort_law : ArgsortLaw stableArgsort where
  perm l := List.mergeSort_perm _ _
  sorted l s h := by
    have hp : (stableArgsort l).Perm (List.range l.length) := List.mergeSort_perm _ _
    rw [gather_ok l _ (fun i hi => by simpa using hp.mem_iff.mp hi)] at h
    cases h
    have hs : (stableArgsort l).Pairwise (fun i j => decide ((l[i]?).getD 0 ≤ (l[j]?).getD 0) = true) := by
      apply List.pairwise_mergeSort
      · intro a b c; simp only [decide_eq_true_eq]; omega
      · intro a b; simp only [Bool.or_eq_true, decide_eq_true_eq]; omega
    rw [List.pairwise_filterMap]
    refine hs.imp ?_
    intro i j hij x hx y hy
    simp only [hx, hy, Option.getD_some, decide_eq_true_eq] at hij
    exact hij

theorem chunkLoop_count (bufRows n : Nat) (fuel : Nat) : ∀ row ivs, row ≤ n →
    chunkLoop fuel bufRows n row = .ok ivs → n - row ≤ ivs.length * bufRows := by
  induction fuel with
  | zero =>
    intro row ivs h1 h
    unfold chunkLoop at h
    by_cases c1 : row + bufRows ≤ n
    · rw [if_pos c1] at h; cases h
    · rw [if_neg c1] at h
      by_cases c2 : row < n
      · rw [if_pos c2] at h; cases h; simp; omega
      · omega
  | succ k ih =>
    intro row ivs h1 h
    unfold chunkLoop at h
    by_cases c1 : row + bufRows ≤ n
    · rw [if_pos c1] at h
      dsimp only at h
      cases hr : chunkLoop k bufRows n (row + bufRows) with
      | error e => rw [hr] at h; cases h
      | ok cs =>
        rw [hr] at h; cases h
        have := ih _ _ c1 hr
        simp only [List.length_cons, Nat.add_mul, Nat.one_mul]; omega
    · rw [if_neg c1] at h
      by_cases c2 : row < n
      · rw [if_pos c2] at h; cases h; simp; omega
      · omega

theorem roundDiv_pos_iff (a b : Nat) (hb : 0 < b) : 0 < roundDiv a b ↔ b < 2 * a := by
  unfold roundDiv
  have h := Nat.div_add_mod a b
  have hm := Nat.mod_lt a hb
  by_cases hq : a / b = 0
  · rw [hq] at h
    simp only [Nat.mul_zero, Nat.zero_add] at h
    simp only [hq, h]
    by_cases h1 : 2 * a < b
    · simp [h1]; omega
    · by_cases h2 : b < 2 * a
      · simp [h1, h2]
      · simp [h1, h2]
  · have h1 : b ≤ b * (a / b) := Nat.le_mul_of_pos_right b (by generalize a / b = q at *; omega)
    generalize b * (a / b) = p at *
    generalize a / b = q at *
    generalize a % b = r at *
    constructor
    · intro _; omega
    · intro _
      dsimp only
      split
      · omega
      · split
        · omega
        · split <;> omega

/-- the assertion `i_buf_rows > 0` (line 125) in terms of the sizes -/
theorem iBuf_iff (bufRows n : Nat) (hb : 0 < bufRows) (hn : 0 < n) (ivs : List (Nat × Nat))
    (h : chunkLoop (n + 1) bufRows n 0 = .ok ivs) :
    0 < roundDiv bufRows ivs.length ↔ n + bufRows ≤ 2 * bufRows * bufRows := by
  obtain ⟨ivs', e1, _, e3, e4⟩ := chunkLoop_ok bufRows n hb (n + 1) 0 (by omega) (by omega)
  rw [h] at e1; cases e1
  have hl := chunkLoop_count bufRows n (n + 1) 0 ivs (by omega) h
  have hne : 0 < ivs.length := List.length_pos_iff.mpr (e3 hn)
  rw [roundDiv_pos_iff _ _ hne]
  simp only [Nat.sub_zero] at hl e4
  constructor
  · intro hlt
    have : (ivs.length + 1) * bufRows ≤ (2 * bufRows) * bufRows := Nat.mul_le_mul_right _ hlt
    rw [Nat.add_mul, Nat.one_mul] at this
    omega
  · intro hle
    by_contra hc
    have : (2 * bufRows) * bufRows ≤ ivs.length * bufRows := Nat.mul_le_mul_right _ (by omega)
    omega

/-- C36 and C37.  For every non-empty key dataset, every list of companion datasets of the same length,
every buffer sizes accepted by the assertions of the code (`n + b ≤ 2 b²` is exactly
`i_buf_rows > 0`, see `C36_refused`), every argsort, every refill policy, the sort terminates without
exception and there is a permutation `σ` of the rows such that the new key dataset is the old one
reordered by `σ`, is in increasing order, and every companion is reordered by the same `σ`. -/
theorem C36_C37_sorted_permutation {argsort : List Int → List Nat} (hs : ArgsortLaw argsort) (zero : γ)
    (pol : Policy) (hp : ∀ L, 0 < L → pol L L = true) (bufRows oBufRows : Nat) (keys : List Int)
    (comps : List (List γ)) (hc : ∀ c ∈ comps, c.length = keys.length) (hn : 0 < keys.length)
    (hb : 0 < bufRows) (ho : 0 < oBufRows) (hi : keys.length + bufRows ≤ 2 * bufRows * bufRows) :
    ∃ σ : List Nat, σ.Perm (List.range keys.length) ∧
      sort argsort zero pol bufRows oBufRows (keys.length + 1) keys comps =
        .ok (σ.filterMap (fun i => keys[i]?), comps.map (fun c => σ.filterMap (fun i => c[i]?))) ∧
      (σ.filterMap (fun i => keys[i]?)).Pairwise (· ≤ ·) :=
  sort_correct hs zero pol hp bufRows oBufRows keys comps hc hn hb ho
    (fun ivs h => (iBuf_iff bufRows keys.length hb hn ivs h).mpr hi)

/-- C36 in terms of multisets: the new keys are the sorted list of the old keys. -/
theorem C36_sorted {argsort : List Int → List Nat} (hs : ArgsortLaw argsort) (zero : γ)
    (pol : Policy) (hp : ∀ L, 0 < L → pol L L = true) (bufRows oBufRows : Nat) (keys : List Int)
    (comps : List (List γ)) (hc : ∀ c ∈ comps, c.length = keys.length) (hn : 0 < keys.length)
    (hb : 0 < bufRows) (ho : 0 < oBufRows) (hi : keys.length + bufRows ≤ 2 * bufRows * bufRows) :
    ∃ comps', sort argsort zero pol bufRows oBufRows (keys.length + 1) keys comps =
      .ok (keys.mergeSort (fun x y => decide (x ≤ y)), comps') := by
  obtain ⟨σ, h1, h2, h3⟩ := C36_C37_sorted_permutation hs zero pol hp bufRows oBufRows keys comps hc hn hb ho hi
  refine ⟨comps.map (fun c => σ.filterMap (fun i => c[i]?)), ?_⟩
  rw [h2]
  congr 2
  have hp1 : (σ.filterMap (fun i => keys[i]?)).Perm keys := by
    have := h1.filterMap (fun i => keys[i]?)
    refine this.trans (List.Perm.of_eq ?_)
    have := map_look (0 : Int) keys (List.range keys.length) (by simp)
    rw [← this]; exact look_all 0 keys
  have hp2 : (keys.mergeSort (fun x y => decide (x ≤ y))).Perm keys := List.mergeSort_perm _ _
  refine List.Perm.eq_of_pairwise (le := (· ≤ ·)) ?_ h3 ?_ (hp1.trans hp2.symm)
  · intro a b _ _ h1 h2; omega
  · have := List.pairwise_mergeSort (le := fun x y : Int => decide (x ≤ y))
      (by intro a b c; simp only [decide_eq_true_eq]; omega)
      (by intro a b; simp only [Bool.or_eq_true, decide_eq_true_eq]; omega) keys
    exact this.imp (by simp)

/-- C37 in terms of rows: with one companion dataset, the rows (key, companion) after the sort are a
permutation of the rows before. -/
theorem C37_rows_attached {argsort : List Int → List Nat} (hs : ArgsortLaw argsort) (zero : γ)
    (pol : Policy) (hp : ∀ L, 0 < L → pol L L = true) (bufRows oBufRows : Nat) (keys : List Int)
    (comp : List γ) (hc : comp.length = keys.length) (hn : 0 < keys.length)
    (hb : 0 < bufRows) (ho : 0 < oBufRows) (hi : keys.length + bufRows ≤ 2 * bufRows * bufRows) :
    ∃ keys' comp', sort argsort zero pol bufRows oBufRows (keys.length + 1) keys [comp] = .ok (keys', [comp']) ∧
      (keys'.zip comp').Perm (keys.zip comp) ∧ keys'.length = keys.length ∧ comp'.length = comp.length := by
  obtain ⟨σ, h1, h2, _⟩ := C36_C37_sorted_permutation hs zero pol hp bufRows oBufRows keys [comp]
    (by simpa using hc) hn hb ho hi
  have hσ : ∀ i ∈ σ, i < keys.length := fun i hi => by simpa using h1.mem_iff.mp hi
  have key : ∀ τ : List Nat, (∀ i ∈ τ, i < keys.length) →
      (τ.filterMap (fun i => keys[i]?)).zip (τ.filterMap (fun i => comp[i]?)) =
        τ.filterMap (fun i => (keys.zip comp)[i]?) := by
    intro τ
    induction τ with
    | nil => intro _; rfl
    | cons i is ih =>
      intro h
      have hi := h i (by simp)
      have hi2 : i < comp.length := by omega
      have hi3 : i < (keys.zip comp).length := by simp; omega
      simp only [List.filterMap_cons, List.getElem?_eq_getElem hi, List.getElem?_eq_getElem hi2,
        List.getElem?_eq_getElem hi3, List.zip_cons_cons, List.getElem_zip]
      rw [ih (fun j hj => h j (by simp [hj]))]
  have idz : ∀ {β : Type} (l : List β), (List.range l.length).filterMap (fun i => l[i]?) = l := by
    intro β l
    induction l using List.reverseRecOn with
    | nil => rfl
    | append_singleton l x ih =>
      rw [List.length_append, List.length_singleton, List.range_succ, List.filterMap_append]
      have h1 : ∀ τ : List Nat, (∀ j ∈ τ, j < l.length) →
          τ.filterMap (fun i => (l ++ [x])[i]?) = τ.filterMap (fun i => l[i]?) := by
        intro τ
        induction τ with
        | nil => intro _; rfl
        | cons j js ih2 =>
          intro h
          rw [List.filterMap_cons, List.filterMap_cons, List.getElem?_append_left (h j (by simp)),
            ih2 (fun k hk => h k (by simp [hk]))]
      rw [h1 _ (by simp), ih]; simp
  refine ⟨_, _, h2, ?_, ?_, ?_⟩
  · rw [key σ hσ]
    have := h1.filterMap (fun i => (keys.zip comp)[i]?)
    refine this.trans (List.Perm.of_eq ?_)
    have hz : (keys.zip comp).length = keys.length := by simp; omega
    rw [← hz]; exact idz _
  · have := (h1.filterMap (fun i => keys[i]?)).length_eq
    rw [this, idz]
  · have := (h1.filterMap (fun i => comp[i]?)).length_eq
    rw [this, ← hc, idz]

/-- Outside the accepted sizes the sort refuses to run (assertion of line 125), before anything is
written. -/
theorem C36_refused {argsort : List Int → List Nat} (hs : ArgsortLaw argsort) (zero : γ)
    (pol : Policy) (bufRows oBufRows : Nat) (keys : List Int) (comps : List (List γ))
    (hc : ∀ c ∈ comps, c.length = keys.length) (hn : 0 < keys.length)
    (hb : 0 < bufRows) (hi : ¬ keys.length + bufRows ≤ 2 * bufRows * bufRows) :
    sort argsort zero pol bufRows oBufRows (keys.length + 1) keys comps = .error .assertion := by
  obtain ⟨ivs, c1, c2, c3, _⟩ := chunkLoop_ok bufRows keys.length hb (keys.length + 1) 0 (by omega) (by omega)
  have hz : roundDiv bufRows ivs.length = 0 := by
    have := iBuf_iff bufRows keys.length hb hn ivs c1
    by_contra h
    exact hi (this.mp (by omega))
  have hivl : ¬ ivs.length = 0 := by simpa using c3 hn
  obtain ⟨tch, x1, _⟩ := extract_tagged hs (look 0 keys) ((List.range keys.length).map some) ivs
  have hk := look_all 0 keys
  rw [hk] at x1
  have xk := x1 (look 0 keys)
  rw [hk] at xk
  have xc : sequence (comps.map (extractAll (chunkOrders argsort keys ivs) ivs)) =
      .ok (comps.map (fun c => tch.map (List.map (look zero c)))) := by
    apply sequence_map_ok
    intro c hcc
    have := x1 (look zero c)
    rw [← hc c hcc, look_all zero c] at this
    exact this
  unfold sort
  have hany : comps.any (fun c => c.length != keys.length) = false := by
    rw [List.any_eq_false]; intro c hcc; simp [hc c hcc]
  simp only [hany, Bool.false_eq_true, if_false, c1, xk, xc, hivl, hz, if_true]

/-- With a zero-row buffer the chunk loop of lines 101-104 never ends, whatever the amount of fuel. -/
theorem chunkLoop_zero_diverges (fuel n row : Nat) (h : row ≤ n) : chunkLoop fuel 0 n row = .error .diverge := by
  induction fuel with
  | zero => unfold chunkLoop; simp [h]
  | succ k ih =>
    have ih' : chunkLoop k 0 n (row + 0) = .error .diverge := ih
    unfold chunkLoop
    rw [if_pos (by omega)]
    simp only [ih']

theorem C36_zero_buffer_diverges (argsort : List Int → List Nat) (zero : γ) (pol : Policy) (oBufRows fuel : Nat)
    (keys : List Int) (comps : List (List γ)) (hc : ∀ c ∈ comps, c.length = keys.length) :
    sort argsort zero pol 0 oBufRows fuel keys comps = .error .diverge := by
  unfold sort
  have hany : comps.any (fun c => c.length != keys.length) = false := by
    rw [List.any_eq_false]; intro c hcc; simp [hc c hcc]
  simp only [hany, Bool.false_eq_true, if_false, chunkLoop_zero_diverges fuel keys.length 0 (by omega)]

/-! ### C38 -/

theorem roundDiv_mul (n i : Nat) (hi : 0 < i) : roundDiv (n * i) i = n := by
  unfold roundDiv
  simp [Nat.mul_div_cancel _ hi, hi]

/-- `round` loses at most one half -/
theorem roundDiv_le (a b : Nat) (hb : 0 < b) : a ≤ b * roundDiv a b + b / 2 := by
  unfold roundDiv
  have h := Nat.div_add_mod a b
  have hm := Nat.mod_lt a hb
  have hx : b * (a / b + 1) = b * (a / b) + b := by rw [Nat.mul_add, Nat.mul_one]
  generalize a % b = r at *
  dsimp only
  split
  · omega
  · split
    · omega
    · split <;> omega

/-- C38, what holds: for every non-empty table of keys of 1 to 8 bytes and every positive memory allowance, the
sort called by `sort_pairs` terminates successfully, provided that the table has at most `10^10` rows
(or at most `2^53` rows with the default memory of 1000).  Missing: larger tables, for which it is false
(`C38_violated_large`), and `memory = 0` (`C38_zero_memory_diverges`). -/
theorem C38_sort_pairs_terminates_partial {argsort : List Int → List Nat} (hs : ArgsortLaw argsort)
    (itemSize memory : Nat) (h1 : 1 ≤ itemSize) (h8 : itemSize ≤ 8) (keys : List Int) (hn : 0 < keys.length)
    (hm : 1 ≤ memory ∧ keys.length ≤ 10 ^ 10 ∨ 1000 ≤ memory ∧ keys.length ≤ 2 ^ 53) :
    sortPairs argsort itemSize memory (keys.length + 1) keys =
      .ok (keys.mergeSort (fun x y => decide (x ≤ y)), []) := by
  generalize hnn : keys.length = n at *
  have ho : 0 < sortPairsOBufRows itemSize := by
    unfold sortPairsOBufRows; rw [roundDiv_pos_iff _ _ (by omega)]; omega
  have main : 0 < sortPairsBufRows n itemSize memory ∧
      n + sortPairsBufRows n itemSize memory ≤
        2 * sortPairsBufRows n itemSize memory * sortPairsBufRows n itemSize memory := by
    unfold sortPairsBufRows
    by_cases c1 : n * itemSize ≤ 750000 * memory
    · rw [if_pos c1, roundDiv_mul n itemSize (by omega)]
      refine ⟨hn, ?_⟩
      nlinarith
    · rw [if_neg c1]
      by_cases c2 : n * itemSize ≤ 30 * (750000 * memory)
      · rw [if_pos c2]
        have e := roundDiv_le (n * itemSize) (30 * itemSize) (by omega)
        generalize roundDiv (n * itemSize) (30 * itemSize) = b at *
        have hd : 30 * itemSize / 2 = 15 * itemSize := by omega
        rw [hd] at e
        have e2 : n * itemSize ≤ (30 * b + 15) * itemSize := by nlinarith
        have e3 : n ≤ 30 * b + 15 := Nat.le_of_mul_le_mul_right e2 (by omega)
        have e4 : 750000 < n * 8 := by
          have : n * itemSize ≤ n * 8 := Nat.mul_le_mul_left _ h8
          omega
        refine ⟨by omega, ?_⟩
        have hb : 3000 ≤ b := by omega
        nlinarith
      · rw [if_neg c2]
        have e := roundDiv_le (750000 * memory) itemSize (by omega)
        generalize roundDiv (750000 * memory) itemSize = b at *
        have e5 : itemSize * b ≤ 8 * b := Nat.mul_le_mul_right _ h8
        rcases hm with ⟨hm, hk⟩ | ⟨hm, hk⟩
        · have hb : 93749 ≤ b := by omega
          refine ⟨by omega, ?_⟩
          nlinarith
        · have hb : 93749999 ≤ b := by omega
          refine ⟨by omega, ?_⟩
          nlinarith
  obtain ⟨comps', h⟩ := C36_sorted hs () quarter quarter_ok (sortPairsBufRows n itemSize memory)
    (sortPairsOBufRows itemSize) keys [] (by simp) (by omega) main.1 ho (by rw [hnn]; exact main.2)
  obtain ⟨σ, _, h2, _⟩ := C36_C37_sorted_permutation hs () quarter quarter_ok (sortPairsBufRows n itemSize memory)
    (sortPairsOBufRows itemSize) keys [] (by simp) (by omega) main.1 ho (by rw [hnn]; exact main.2)
  unfold sortPairs
  rw [hnn] at h h2 ⊢
  rw [h]
  rw [h] at h2
  simp only [List.map_nil, Except.ok.injEq, Prod.mk.injEq] at h2
  simp [h2.2]

/-- C38 is false for huge tables: beyond about `2 (0.75 memory / itemSize)²` rows the input buffers are
shorter than one row and the assertion of line 125 fails (witness: 8-byte keys, 1 Mo, `2·10^10` rows). -/
theorem C38_violated_large {argsort : List Int → List Nat} (hs : ArgsortLaw argsort) (keys : List Int)
    (h : keys.length = 2 * 10 ^ 10) :
    sortPairs argsort 8 1 (keys.length + 1) keys = .error .assertion := by
  have hb : sortPairsBufRows keys.length 8 1 = 93750 := by rw [h]; decide
  unfold sortPairs
  rw [hb]
  exact C36_refused hs () quarter 93750 _ keys [] (by simp) (by omega) (by omega) (by omega)

/-- C38 at the edges: on an empty table `sort_pairs` never terminates, for every allowance. -/
theorem C38_empty_diverges (argsort : List Int → List Nat) (itemSize memory fuel : Nat) (h : 0 < itemSize) :
    sortPairs argsort itemSize memory fuel [] = .error .diverge := by
  have : sortPairsBufRows ([] : List Int).length itemSize memory = 0 := by
    have := roundDiv_mul 0 itemSize h
    unfold sortPairsBufRows
    simpa using this
  unfold sortPairs
  rw [this]
  exact C36_zero_buffer_diverges _ _ _ _ _ _ _ (by simp)

/-- ... nor does it with no memory, for every table. -/
theorem C38_zero_memory_diverges (argsort : List Int → List Nat) (itemSize fuel : Nat) (h : 0 < itemSize)
    (keys : List Int) : sortPairs argsort itemSize 0 fuel keys = .error .diverge := by
  have : sortPairsBufRows keys.length itemSize 0 = 0 := by
    unfold sortPairsBufRows
    by_cases c : keys.length * itemSize ≤ 750000 * 0
    · have : keys.length * itemSize = 0 := by omega
      rcases Nat.mul_eq_zero.mp this with h0 | h0
      · rw [if_pos c, h0]; exact roundDiv_mul 0 itemSize h
      · omega
    · rw [if_neg c, if_neg (by omega)]
      exact by simpa using roundDiv_mul 0 itemSize h
  unfold sortPairs
  rw [this]
  exact C36_zero_buffer_diverges _ _ _ _ _ _ _ (by simp)

/-! Non-vacuity: ten keys with ties, chunks of 3 rows (4 chunks, so input buffers of 1 row), output
buffer of 2 rows. -/
example : (10 : Nat) + 3 ≤ 2 * 3 * 3 := by decide

example : ∃ σ : List Nat, σ.Perm (List.range 10) ∧
    sort stableArgsort "" quarter 3 2 11 [5, 1, 4, 1, 9, 2, 6, 5, 3, 5]
      [["a", "b", "c", "d", "e", "f", "g", "h", "i", "j"]] =
      .ok (σ.filterMap (fun i => ([5, 1, 4, 1, 9, 2, 6, 5, 3, 5] : List Int)[i]?),
        [["a", "b", "c", "d", "e", "f", "g", "h", "i", "j"]].map (fun c => σ.filterMap (fun i => c[i]?))) ∧
      (σ.filterMap (fun i => ([5, 1, 4, 1, 9, 2, 6, 5, 3, 5] : List Int)[i]?)).Pairwise (· ≤ ·) :=
  C36_C37_sorted_permutation stableArgsort_law "" quarter quarter_ok 3 2 [5, 1, 4, 1, 9, 2, 6, 5, 3, 5]
    [["a", "b", "c", "d", "e", "f", "g", "h", "i", "j"]] (by simp) (by simp) (by simp) (by simp) (by simp)

example : sortPairs stableArgsort 8 1000 4 [30, 10, 20] = .ok ([30, 10, 20].mergeSort (fun x y => decide (x ≤ y)), []) :=
  C38_sort_pairs_terminates_partial stableArgsort_law 8 1000 (by omega) (by omega) [30, 10, 20] (by simp)
    (Or.inl ⟨by omega, by simp⟩)

/-- C36: the number of rows of a buffer is the integer nearest to the size of the buffer divided by the size of a row, the even one of two; a row without size raises ZeroDivisionError. -/
theorem C36_buffer_rows (bytes lineWeight rows : Nat) : (bufRowsOf bytes lineWeight = .ok rows ↔
      0 < lineWeight ∧ 2 * bytes ≤ (2 * rows + 1) * lineWeight ∧ 2 * rows * lineWeight ≤ 2 * bytes + lineWeight ∧
      (2 * bytes = (2 * rows + 1) * lineWeight ∨ 2 * rows * lineWeight = 2 * bytes + lineWeight → rows % 2 = 0)) ∧
    (bufRowsOf bytes lineWeight = .error .zeroDivision ↔ lineWeight = 0) := by
  unfold bufRowsOf
  by_cases h0 : lineWeight = 0
  · simp [h0]
  rw [if_neg h0]
  refine ⟨?_, by simp [h0]⟩
  rw [Except.ok.injEq]
  unfold roundDiv
  have hd := Nat.div_add_mod bytes lineWeight
  have hm := Nat.mod_lt bytes (Nat.pos_of_ne_zero h0)
  generalize bytes / lineWeight = q at *
  generalize bytes % lineWeight = r at *
  dsimp only
  have e1 : (2 * rows + 1) * lineWeight = 2 * (rows * lineWeight) + lineWeight := by rw [Nat.add_mul, Nat.mul_assoc, Nat.one_mul]
  have e2 : 2 * rows * lineWeight = 2 * (rows * lineWeight) := Nat.mul_assoc _ _ _
  rw [e1, e2, ← hd, Nat.mul_comm lineWeight q]
  have lt : ∀ d, rows = q + d → rows * lineWeight = q * lineWeight + d * lineWeight := by rintro d rfl; rw [Nat.add_mul]
  have gt : ∀ d, q = rows + d → q * lineWeight = rows * lineWeight + d * lineWeight := by rintro d rfl; rw [Nat.add_mul]
  have hw : 0 < lineWeight := Nat.pos_of_ne_zero h0
  constructor
  · intro h
    have hcase : rows = q ∨ rows = q + 1 := by
      split at h
      · exact .inl h.symm
      · split at h
        · exact .inr h.symm
        · split at h
          · exact .inl h.symm
          · exact .inr h.symm
    rcases hcase with rfl | rfl
    · split at h
      · exact ⟨hw, by omega, by omega, by omega⟩
      · split at h
        · omega
        · split at h
          · exact ⟨hw, by omega, by omega, by omega⟩
          · omega
    · have := lt 1 rfl
      split at h
      · omega
      · split at h
        · exact ⟨hw, by omega, by omega, by omega⟩
        · split at h
          · omega
          · exact ⟨hw, by omega, by omega, by omega⟩
  · rintro ⟨-, h1, h2, h3⟩
    have hcase : rows = q ∨ rows = q + 1 := by
      rcases Nat.lt_trichotomy rows q with h | h | h
      · exfalso
        obtain ⟨d, rfl⟩ := Nat.exists_eq_add_of_lt h
        have := gt (d + 1) rfl
        have : lineWeight ≤ (d + 1) * lineWeight := Nat.le_mul_of_pos_left _ (by omega)
        by_cases hr : r = 0 ∧ d = 0
        · obtain ⟨rfl, rfl⟩ := hr
          omega
        · rcases Nat.eq_zero_or_pos d with rfl | hd'
          · omega
          · have : 2 * lineWeight ≤ (d + 1) * lineWeight := Nat.mul_le_mul_right _ (by omega)
            omega
      · exact .inl h
      · right
        obtain ⟨d, rfl⟩ := Nat.exists_eq_add_of_lt h
        have := lt (d + 1) (by omega)
        rcases Nat.eq_zero_or_pos d with rfl | hd'
        · omega
        · exfalso
          have : 2 * lineWeight ≤ (d + 1) * lineWeight := Nat.mul_le_mul_right _ (by omega)
          omega
    rcases hcase with rfl | rfl
    · split
      · rfl
      · split
        · omega
        · split
          · rfl
          · omega
    · have := lt 1 rfl
      split
      · omega
      · split
        · rfl
        · split
          · omega
          · rfl

/-- example: rows of 16 bytes, a buffer of 1000 bytes; 62.5 gives 62 -/
example : bufRowsOf 1000 16 = .ok 62 := by decide +kernel

#print axioms C36_buffer_rows
#print axioms C36_C37_sorted_permutation
#print axioms C36_sorted
#print axioms C37_rows_attached
#print axioms C36_refused
#print axioms C36_zero_buffer_diverges
#print axioms C38_sort_pairs_terminates_partial
#print axioms C38_violated_large
#print axioms C38_empty_diverges
#print axioms C38_zero_memory_diverges

end ABX.ExtSort
