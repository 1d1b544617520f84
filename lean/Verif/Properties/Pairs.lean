import Verif.Proofs.Pairs4
/-!
Properties C12-C14: the table of pairs of a task file.

`Small e T F`: see `Proofs/Pairs3.lean`; the three conditions under which numpy computes the numbers exactly.
The attribute of a level is `(key, base, start, stop)`.
-/
namespace ABX.Pairs
open ExtSort H52NP Task SideOps Sampler
variable {ρ : Type}

/-- `u` holds the AX and BX pairs of the triplets `trips`, strictly increasing -/
def Spec.PairsOf (trips : List (Int × Int × Int)) (base : Nat) (u : List Int) : Prop :=
  u.Pairwise (· < ·) ∧ ∀ k, k ∈ u ↔ ∃ d ∈ trips, k = d.1 + base * d.2.2 ∨ k = d.2.1 + base * d.2.2

/-- C12: for a file of triplets of any origin, whose rows of by_index are intervals of the table with item numbers below `base`, `_generate_pairs`
succeeds and the rows of unique_pairs/data delimited by the attribute of a level are the pairs of the triplets of the level, strictly increasing.
`argsort` is any sorting permutation (numpy's is not stable) and `bufs` any positive buffer lengths. -/
theorem C12_any_file_partial {argsort : List Int → List Nat} (hs : ArgsortLaw argsort) {bufs : Bufs} (hb : bufs.Pos) {T : Task.Task ρ} {F : File}
    {ivs : List (Nat × Nat)} (hF : F.byIndex = ivs.map (fun p => ((p.1 : Int), (p.2 : Int)))) (h : List.Forall₂ (LevelFit F.data) (remaining T F) ivs) :
    ∃ P, generatePairs argsort bufs T F = .ok P ∧
      List.Forall₂ (fun iv (at' : List Val × (Nat × Int × Int)) =>
        Spec.PairsOf (npSlice F.data iv.1.toNat iv.2.toNat) at'.2.1 (npSlice P.data at'.2.2.1.toNat at'.2.2.2.toNat)) F.byIndex P.attrs := by
  obtain ⟨us, h1, h2⟩ := generatePairs_ok hs hb hF h
  refine ⟨_, h2, ?_⟩
  have := attrs_spec h1 []
  rw [hF, List.forall₂_map_left_iff]
  exact this

/-- C12: the same for the file written by `generate` for a task, whatever its filters, regressors, by levels, sampling, orders of python sets and of pandas groups. -/
theorem C12_pairs_partial {e : Env} (he : e.Lawful) {a : Args ρ} (ha : a.OK) {T : Task.Task ρ} (h : init e a = .ok T)
    {N : Num} {threshold : Nat} {src : List Val → List Val → Nat → Src} {bl1 bl2 : Nat} (h1 : 0 < bl1) (h2 : 0 < bl2) {F : File}
    (hF : generate e N threshold src bl1 bl2 T = .ok (some F)) (hS : Small e T F)
    {argsort : List Int → List Nat} (hs : ArgsortLaw argsort) {bufs : Bufs} (hb : bufs.Pos) :
    ∃ P, generatePairs argsort bufs T F = .ok P ∧
      List.Forall₂ (fun iv (at' : List Val × (Nat × Int × Int)) =>
        Spec.PairsOf (npSlice F.data iv.1.toNat iv.2.toNat) at'.2.1 (npSlice P.data at'.2.2.1.toNat at'.2.2.2.toNat)) F.byIndex P.attrs := by
  obtain ⟨total, t, tb, outs, K⟩ := generate_ok h1 h2 hF
  exact C12_any_file_partial hs hb K.index (file_fits he ha h K hS).1

/-- C12: with the same sorting, the table does not depend on the buffer lengths. -/
theorem C12_buffers_partial {e : Env} (he : e.Lawful) {a : Args ρ} (ha : a.OK) {T : Task.Task ρ} (h : init e a = .ok T)
    {N : Num} {threshold : Nat} {src : List Val → List Val → Nat → Src} {bl1 bl2 : Nat} (h1 : 0 < bl1) (h2 : 0 < bl2) {F : File}
    (hF : generate e N threshold src bl1 bl2 T = .ok (some F)) (hS : Small e T F)
    {argsort argsort' : List Int → List Nat} (hs : ArgsortLaw argsort) (hs' : ArgsortLaw argsort') {bufs bufs' : Bufs} (hb : bufs.Pos) (hb' : bufs'.Pos) :
    generatePairs argsort bufs T F = generatePairs argsort' bufs' T F := by
  obtain ⟨total, t, tb, outs, K⟩ := generate_ok h1 h2 hF
  have hfit := (file_fits he ha h K hS).1
  obtain ⟨us, g1, g2⟩ := generatePairs_ok hs hb K.index hfit
  obtain ⟨us', g1', g2'⟩ := generatePairs_ok hs' hb' K.index hfit
  have : us = us' := by
    clear g2 g2' hfit
    revert g1 g1'
    generalize remaining T F = Ls
    generalize intervals 0 _ = ivs
    intro g1
    induction g1 generalizing us' with
    | nil => intro g; cases g; rfl
    | @cons L iv u Ls ivs us hL hu _ ih =>
      intro g
      cases g with
      | @cons _ _ u' _ _ us' _ hu' g' =>
        rw [ih _ g', lt_ext hu.1 hu'.1 (fun k => by rw [hu.2 k, hu'.2 k])]
  rw [g2, g2', this]

/-- C14: the attributes are those of the levels of the file, in order; the first number is one more than the largest item number of the level;
the intervals are not empty, follow each other, start at 0 and end at the end of unique_pairs/data. -/
theorem C14_attributes_partial {e : Env} (he : e.Lawful) {a : Args ρ} (ha : a.OK) {T : Task.Task ρ} (h : init e a = .ok T)
    {N : Num} {threshold : Nat} {src : List Val → List Val → Nat → Src} {bl1 bl2 : Nat} (h1 : 0 < bl1) (h2 : 0 < bl2) {F : File}
    (hF : generate e N threshold src bl1 bl2 T = .ok (some F)) (hS : Small e T F)
    {argsort : List Int → List Nat} (hs : ArgsortLaw argsort) {bufs : Bufs} (hb : bufs.Pos) :
    ∃ P, generatePairs argsort bufs T F = .ok P ∧ P.attrs.map (·.1) = F.bys ∧
      (∀ x ∈ P.attrs, ∃ L ∈ T.levels, L.key = x.1 ∧ (∀ p ∈ L.frame, p.1 < x.2.1) ∧ ∃ p ∈ L.frame, p.1 + 1 = x.2.1) ∧
      (∀ x ∈ P.attrs, 0 ≤ x.2.2.1 ∧ x.2.2.1 < x.2.2.2) ∧
      (∀ i x y, P.attrs[i]? = some x → P.attrs[i + 1]? = some y → x.2.2.2 = y.2.2.1) ∧
      (∀ x, P.attrs[0]? = some x → x.2.2.1 = 0) ∧
      (∀ x, P.attrs.getLast? = some x → x.2.2.2 = (P.data.length : Nat)) := by
  obtain ⟨total, t, tb, outs, K⟩ := generate_ok h1 h2 hF
  obtain ⟨hfit, hbys⟩ := file_fits he ha h K hS
  obtain ⟨us, g1, g2⟩ := generatePairs_ok hs hb K.index hfit
  have hlen : (us.map List.length).length = (remaining T F).length := by rw [List.length_map]; exact (allPairs_length g1).1
  have hlv := attrs_levels (remaining T F) (us.map List.length) 0 hlen
  have hiv := attrs_ivs (remaining T F) (us.map List.length) 0 hlen
  have hpos : ∀ n ∈ us.map List.length, 0 < n := by
    clear g2 hfit hlen hlv hiv
    revert g1
    generalize remaining T F = Ls
    generalize intervals 0 _ = ivs
    intro g1
    induction g1 with
    | nil => intro n hn; cases hn
    | cons hL hu _ ih =>
      intro n hn
      rcases List.mem_cons.mp hn with rfl | hn
      · exact List.length_pos_of_ne_nil (isPairs_ne hL hu)
      · exact ih n hn
  refine ⟨_, g2, ?_, ?_, ?_, ?_, ?_, ?_⟩
  · rw [← hbys]
    exact attrs_keys hlv
  · intro x hx
    obtain ⟨L, hL, k1, k2⟩ := forall₂_mem_right hlv x hx
    obtain ⟨iv, hiv, hLf⟩ := forall₂_mem_left hfit L hL
    refine ⟨L, (List.mem_filter.mp hL).1, k1.symm, ?_, ?_⟩
    · rw [k2]; exact fun p hp => lt_baseOf (List.mem_map_of_mem hp)
    · rw [k2]; exact baseOf_mem hLf.ne
  · intro x hx
    have : x.2.2 ∈ (attrsOf (remaining T F) (us.map List.length)).map (fun x => x.2.2) := List.mem_map_of_mem hx
    unfold attrsOf at this
    rw [hiv] at this
    obtain ⟨p, hp, hpe⟩ := List.mem_map.mp this
    have := intervals_lt _ hpos 0 p hp
    rw [← hpe]
    dsimp only
    omega
  · intro i x y hx hy
    dsimp only at hx hy
    have ex : ((attrsOf (remaining T F) (us.map List.length)).map (fun x => x.2.2))[i]? = some x.2.2 := by rw [List.getElem?_map, hx]; rfl
    have ey : ((attrsOf (remaining T F) (us.map List.length)).map (fun x => x.2.2))[i + 1]? = some y.2.2 := by rw [List.getElem?_map, hy]; rfl
    unfold attrsOf at ex ey
    rw [hiv, List.getElem?_map, Option.map_eq_some_iff] at ex ey
    obtain ⟨p, hp, hpe⟩ := ex
    obtain ⟨q, hq, hqe⟩ := ey
    have := intervals_chain _ 0 i p q hp hq
    rw [← hpe, ← hqe]
    dsimp only
    omega
  · intro x hx
    dsimp only at hx
    have ex : ((attrsOf (remaining T F) (us.map List.length)).map (fun x => x.2.2))[0]? = some x.2.2 := by rw [List.getElem?_map, hx]; rfl
    unfold attrsOf at ex
    rw [hiv, List.getElem?_map, Option.map_eq_some_iff] at ex
    obtain ⟨p, hp, hpe⟩ := ex
    have := intervals_head _ 0 p hp
    rw [← hpe]
    dsimp only
    omega
  · intro x hx
    dsimp only at hx ⊢
    have ex : ((attrsOf (remaining T F) (us.map List.length)).map (fun x => x.2.2)).getLast? = some x.2.2 := by rw [List.getLast?_map, hx]; rfl
    unfold attrsOf at ex
    rw [hiv, List.getLast?_map, Option.map_eq_some_iff] at ex
    obtain ⟨p, hp, hpe⟩ := ex
    have := intervals_last _ 0 p hp
    rw [← hpe, List.length_flatten]
    dsimp only
    omega

/-- C13: up to 3037000499 items per level, the key computed by lines 883-904 (and again by score.py lines 105-109) in the type chosen at lines 871-872 is `a + base * x`,
distinct pairs have distinct keys, and the remainder and the quotient of the division by `base` (distances.py lines 216-217) recover the pair. -/
theorem C13_keys_partial {base : Nat} (h0 : 0 < base) (hb : base ≤ 3037000499) :
    ∃ t, fitIntegerType (int64.cast ((base : Nat) ^ 2 - 1)) false = .ok t ∧
    ∀ a x : Int, 0 ≤ a ∧ a < base → 0 ≤ x ∧ x < base →
      pairKey t base (t.cast a) (t.cast x) = a + base * x ∧
      (∀ a' x' : Int, 0 ≤ a' ∧ a' < base → 0 ≤ x' ∧ x' < base →
        pairKey t base (t.cast a') (t.cast x') = pairKey t base (t.cast a) (t.cast x) → a' = a ∧ x' = x) ∧
      pairKey t base (t.cast a) (t.cast x) % base = a ∧ pairKey t base (t.cast a) (t.cast x) / base = x := by
  obtain ⟨t, h1, -, -, h2⟩ := base_fit h0 hb
  have hmod : ∀ a x : Int, 0 ≤ a ∧ a < base → (a + (base : Int) * x) % base = a ∧ (a + (base : Int) * x) / base = x := by
    intro a x ha
    constructor
    · rw [Int.add_mul_emod_self_left, Int.emod_eq_of_lt ha.1 ha.2]
    · rw [Int.add_mul_ediv_left _ _ (by omega), Int.ediv_eq_zero_of_lt ha.1 ha.2, zero_add]
  refine ⟨t, h1, ?_⟩
  intro a x ha hx
  have hk := pairKey_exact h2 ha.1 ha.2 hx.1 hx.2
  refine ⟨hk, ?_, ?_, ?_⟩
  · intro a' x' ha' hx' he
    rw [hk, pairKey_exact h2 ha'.1 ha'.2 hx'.1 hx'.2] at he
    have g1 := hmod a x ha
    have g2 := hmod a' x' ha'
    rw [he] at g2
    exact ⟨by rw [← g2.1, g1.1], by rw [← g2.2, g1.2]⟩
  · rw [hk]; exact (hmod a x ha).1
  · rw [hk]; exact (hmod a x ha).2

/-- C13 is false of the code beyond: with 3037000500 items the square of the base wraps in int64, the type chosen is 8 bits wide and different pairs have the same key. -/
theorem C13_violated : ∃ t, fitIntegerType (int64.cast ((3037000500 : Nat) ^ 2 - 1)) false = .ok t ∧
    pairKey t 3037000500 (t.cast 1000) (t.cast 0) ≠ 1000 + 3037000500 * 0 ∧
    pairKey t 3037000500 (t.cast 256) (t.cast 0) = pairKey t 3037000500 (t.cast 0) (t.cast 0) := by
  refine ⟨⟨8, false⟩, ?_, ?_, ?_⟩ <;> decide +kernel

/-- C13, example: 1000 items, 32 bits. -/
example : fitIntegerType (int64.cast ((1000 : Nat) ^ 2 - 1)) false = .ok ⟨32, false⟩ ∧ pairKey ⟨32, false⟩ 1000 999 999 = 999999 := by
  decide +kernel

#print axioms C12_any_file_partial
#print axioms C12_pairs_partial
#print axioms C12_buffers_partial
#print axioms C14_attributes_partial
#print axioms C13_keys_partial
#print axioms C13_violated

end ABX.Pairs
