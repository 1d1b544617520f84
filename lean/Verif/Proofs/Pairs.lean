import Verif.Model.Pairs
import Verif.Properties.ExtSort
import Verif.Properties.Reader
import Verif.Proofs.TaskFile
import Mathlib.Tactic.Ring
import Mathlib.Tactic.NormNum
import Mathlib.Tactic.Linarith
/-!
Helper lemmas for the table of pairs.
-/
namespace ABX.Pairs
open ExtSort H52NP Task SideOps

theorem mem_dedupAdj : ∀ (l : List Int) (k : Int), k ∈ dedupAdj l ↔ k ∈ l
  | [], k => by simp [dedupAdj]
  | [x], k => by simp [dedupAdj]
  | x :: y :: l, k => by
    have ih := mem_dedupAdj (y :: l) k
    unfold dedupAdj
    split
    · rename_i h
      rw [ih]
      subst h
      simp
    · rw [List.mem_cons, ih]
      simp

theorem dedupAdj_lt : ∀ (l : List Int), l.Pairwise (· ≤ ·) → (dedupAdj l).Pairwise (· < ·)
  | [], _ => by simp [dedupAdj]
  | [x], _ => by simp [dedupAdj]
  | x :: y :: l, h => by
    have ht := h.tail
    have ih := dedupAdj_lt (y :: l) ht
    unfold dedupAdj
    split
    · exact ih
    · rename_i hne
      rw [List.pairwise_cons] at h ⊢
      refine ⟨fun k hk => ?_, ih⟩
      rw [mem_dedupAdj] at hk
      have h1 := h.1 k hk
      have h2 : y ≤ k := by
        rcases List.mem_cons.mp hk with rfl | hk
        · omega
        · exact (List.pairwise_cons.mp ht).1 k hk
      have h3 := h.1 y (by simp)
      omega

theorem npUnique_lt (l : List Int) : (npUnique l).Pairwise (· < ·) := by
  apply dedupAdj_lt
  exact List.pairwise_insertionSort (· ≤ ·) l

theorem mem_npUnique (l : List Int) (k : Int) : k ∈ npUnique l ↔ k ∈ l := by
  unfold npUnique
  rw [mem_dedupAdj]
  exact List.mem_insertionSort _

/-- two strictly increasing lists with the same elements are equal -/
theorem lt_ext : ∀ {l l' : List Int}, l.Pairwise (· < ·) → l'.Pairwise (· < ·) → (∀ k, k ∈ l ↔ k ∈ l') → l = l'
  | [], [], _, _, _ => rfl
  | [], y :: l', _, _, h => by have := (h y).mpr (by simp); simp at this
  | x :: l, [], _, _, h => by have := (h x).mp (by simp); simp at this
  | x :: l, y :: l', h1, h2, h => by
    rw [List.pairwise_cons] at h1 h2
    have hxy : x = y := by
      have a := (h x).mp (by simp)
      have b := (h y).mpr (by simp)
      rw [List.mem_cons] at a b
      rcases a with a | a
      · exact a
      · rcases b with b | b
        · exact b.symm
        · have := h2.1 x a
          have := h1.1 y b
          omega
    subst hxy
    congr 1
    apply lt_ext h1.2 h2.2
    intro k
    constructor
    · intro hk
      have h3 := (h k).mp (by simp [hk])
      rcases List.mem_cons.mp h3 with rfl | h3
      · have := h1.1 k hk; omega
      · exact h3
    · intro hk
      have h3 := (h k).mpr (by simp [hk])
      rcases List.mem_cons.mp h3 with rfl | h3
      · have := h2.1 k hk; omega
      · exact h3

/-- the loop over chunks of a sorted table writes the distinct values after `last`, increasing; the other loop counts them -/
theorem loops_ok : ∀ (cs : List (List Int)) (last n : Int), (∀ c ∈ cs, c ≠ []) → cs.flatten.Pairwise (· ≤ ·) → (∀ k ∈ cs.flatten, last ≤ k) →
    ∃ ws, uniqueLoop cs last = .ok ws ∧ ws.flatten.Pairwise (· < ·) ∧ (∀ k, k ∈ ws.flatten ↔ k ∈ cs.flatten ∧ k ≠ last) ∧
      countLoop cs last n = .ok (n + ws.flatten.length)
  | [], last, n, _, _, _ => ⟨[], by simp [uniqueLoop, countLoop]⟩
  | c :: cs, last, n, hne, hs, hl => by
    have hc : c ≠ [] := hne c (by simp)
    rw [List.flatten_cons, List.pairwise_append] at hs
    obtain ⟨s1, s2, s3⟩ := hs
    have hlc : ∀ k ∈ c, last ≤ k := fun k hk => hl k (by simp [hk])
    have hu := npUnique_lt c
    have hm := mem_npUnique c
    -- the last element of the chunk
    obtain ⟨z, hz⟩ : ∃ z, c.getLast? = some z := by
      cases h : c.getLast? with
      | none => rw [List.getLast?_eq_none_iff] at h; exact absurd h hc
      | some z => exact ⟨z, rfl⟩
    have hzc : z ∈ c := List.mem_of_getLast? hz
    have hzmax : ∀ k ∈ c, k ≤ z := by
      obtain ⟨c', rfl⟩ := List.getLast?_eq_some_iff.mp hz
      intro k hk
      rw [List.mem_append, List.mem_singleton] at hk
      rcases hk with hk | rfl
      · exact (List.pairwise_append.mp s1).2.2 k hk z (by simp)
      · omega
    obtain ⟨y, hy⟩ : ∃ y, c.head? = some y := by
      cases c with
      | nil => exact absurd rfl hc
      | cons y c => exact ⟨y, rfl⟩
    have hyc : y ∈ c := List.mem_of_head? hy
    have hymin : ∀ k ∈ c, y ≤ k := by
      obtain ⟨c', rfl⟩ := List.head?_eq_some_iff.mp hy
      intro k hk
      rcases List.mem_cons.mp hk with rfl | hk
      · omega
      · exact (List.pairwise_cons.mp s1).1 k hk
    unfold uniqueLoop countLoop
    rw [hy, hz]
    dsimp only
    generalize hp : npUnique c = p at hu hm
    cases p with
    | nil => have := (hm z).mpr hzc; simp at this
    | cons x rest =>
      have hxy : x = y := by
        have h1 := hymin x ((hm x).mp (by simp))
        have h2 := (hm y).mpr hyc
        rcases List.mem_cons.mp h2 with rfl | h2
        · rfl
        · have := (List.pairwise_cons.mp hu).1 y h2; omega
      subst hxy
      dsimp only
      by_cases hx : x = last
      · rw [if_pos hx, if_pos hx]
        cases hr : rest.getLast? with
        | none =>
          rw [List.getLast?_eq_none_iff] at hr
          subst hr
          have hz' : z = last := by have := (hm z).mpr hzc; simp at this; omega
          obtain ⟨ws, h1, h2, h3, h4⟩ := loops_ok cs z (n + ((x :: ([] : List Int)).length : Nat) - 1) (fun c hc => hne c (by simp [hc])) s2
            (fun k hk => s3 z hzc k hk)
          refine ⟨ws, by rw [← hz']; exact h1, h2, ?_, ?_⟩
          · intro k
            rw [h3 k]
            simp only [List.flatten_cons, List.mem_append]
            constructor
            · rintro ⟨a, b⟩; exact ⟨Or.inr a, by omega⟩
            · rintro ⟨a | a, b⟩
              · have := (hm k).mpr a; simp at this; omega
              · exact ⟨a, by omega⟩
          · rw [h4]
            simp
        | some l =>
          have hlz : l = z := by
            have h1 := hzmax l ((hm l).mp (by simp [List.mem_of_getLast? hr]))
            have h2 := (hm z).mpr hzc
            obtain ⟨r', rfl⟩ := List.getLast?_eq_some_iff.mp hr
            have hu2 := List.pairwise_append.mp ((List.cons_append ▸ hu : ((x :: r') ++ [l]).Pairwise (· < ·)))
            rw [← List.cons_append, List.mem_append, List.mem_singleton] at h2
            rcases h2 with h2 | h2
            · have := hu2.2.2 z h2 l (by simp); omega
            · exact h2.symm
          subst hlz
          obtain ⟨ws, h1, h2, h3, h4⟩ := loops_ok cs l (n + ((x :: rest).length : Nat) - 1) (fun c hc => hne c (by simp [hc])) s2
            (fun k hk => s3 l hzc k hk)
          simp only [h1]
          refine ⟨rest :: ws, rfl, ?_, ?_, ?_⟩
          · rw [List.flatten_cons, List.pairwise_append]
            refine ⟨(List.pairwise_cons.mp hu).2, h2, ?_⟩
            intro a ha b hb
            have h5 := hzmax a ((hm a).mp (by simp [ha]))
            have h6 := (h3 b).mp hb
            have h7 := s3 l hzc b h6.1
            have := h6.2
            omega
          · intro k
            simp only [List.flatten_cons, List.mem_append]
            rw [h3 k]
            constructor
            · rintro (a | ⟨a, b⟩)
              · exact ⟨Or.inl ((hm k).mp (by simp [a])), by have := (List.pairwise_cons.mp hu).1 k a; omega⟩
              · refine ⟨Or.inr a, ?_⟩
                have := s3 l hzc k a
                have := (List.pairwise_cons.mp hu).1 l (List.mem_of_getLast? hr)
                omega
            · rintro ⟨a | a, b⟩
              · left
                have := (hm k).mpr a
                rcases List.mem_cons.mp this with rfl | this
                · exact absurd hx b
                · exact this
              · by_cases hk : k = l
                · left
                  subst hk
                  exact List.mem_of_getLast? hr
                · exact Or.inr ⟨a, hk⟩
          · rw [h4]
            simp
            omega
      · rw [if_neg hx, if_neg hx]
        have hlz : (x :: rest).getLast? = some z := by
          obtain ⟨l, hl'⟩ : ∃ l, (x :: rest).getLast? = some l := by
            cases h : (x :: rest).getLast? with
            | none => simp at h
            | some l => exact ⟨l, rfl⟩
          rw [hl']
          have h1 := hzmax l ((hm l).mp (List.mem_of_getLast? hl'))
          have h2 := (hm z).mpr hzc
          obtain ⟨r', hr'⟩ := List.getLast?_eq_some_iff.mp hl'
          rw [hr'] at hu h2
          have hu2 := List.pairwise_append.mp hu
          rw [List.mem_append, List.mem_singleton] at h2
          rcases h2 with h2 | h2
          · have := hu2.2.2 z h2 l (by simp); omega
          · rw [h2]
        rw [hlz]
        obtain ⟨ws, h1, h2, h3, h4⟩ := loops_ok cs z (n + ((x :: rest).length : Nat)) (fun c hc => hne c (by simp [hc])) s2
          (fun k hk => s3 z hzc k hk)
        simp only [h1]
        refine ⟨(x :: rest) :: ws, rfl, ?_, ?_, ?_⟩
        · rw [List.flatten_cons, List.pairwise_append]
          refine ⟨hu, h2, ?_⟩
          intro a ha b hb
          have h5 := hzmax a ((hm a).mp ha)
          have h6 := (h3 b).mp hb
          have h7 := s3 z hzc b h6.1
          have := h6.2
          omega
        · intro k
          rw [List.flatten_cons, List.flatten_cons, List.mem_append, List.mem_append, h3 k, hm k]
          have hxl := hlc x hyc
          constructor
          · rintro (a | ⟨a, b⟩)
            · exact ⟨Or.inl a, by have := hymin k a; omega⟩
            · refine ⟨Or.inr a, ?_⟩
              have := s3 z hzc k a
              have := hymin z hzc
              omega
          · rintro ⟨a | a, b⟩
            · exact Or.inl a
            · by_cases hk : k = z
              · left; rw [hk]; exact hzc
              · exact Or.inr ⟨a, hk⟩
        · rw [h4]
          simp
          omega

theorem chunksOf_ok (zero : α) (ds : List α) {lo hi bl : Nat} (h1 : lo ≤ hi) (h2 : hi ≤ ds.length) (hb : 0 < bl) :
    ∃ cs, chunksOf zero ds lo hi bl = .ok cs ∧ cs.flatten = npSlice ds lo hi ∧ ∀ c ∈ cs, c ≠ [] := by
  obtain ⟨b, cs, e1, e2, e3, e4⟩ := C35_iterate zero quarter quarter_ok ds lo hi bl h1 h2 hb
  refine ⟨cs, ?_, e3, e4⟩
  unfold chunksOf
  rw [e1]
  exact e2

theorem npSlice_all (l : List α) : npSlice l 0 l.length = l := by simp [npSlice]

/-- the largest base whose square fits 64 bits signed -/
def maxBase : Nat := 3037000499

theorem base_fit {base : Nat} (h0 : 0 < base) (h : base ≤ maxBase) :
    ∃ t, fitIntegerType (int64.cast ((base : Nat) ^ 2 - 1)) false = .ok t ∧ t.signed = false ∧ t.bits ∈ [8, 16, 32, 64] ∧
      ∀ x : Int, 0 ≤ x → x ≤ (base : Int) ^ 2 - 1 → t.cast x = x := by
  have hsq : (base : Int) ^ 2 ≤ 9223372030926249001 := by
    have : base ^ 2 ≤ maxBase ^ 2 := Nat.pow_le_pow_left h 2
    have h2 : maxBase ^ 2 = 9223372030926249001 := by decide
    rw [h2] at this
    exact_mod_cast this
  have hpos : (1 : Int) ≤ (base : Int) ^ 2 := by
    have : 1 ≤ base ^ 2 := Nat.one_le_pow _ _ h0
    exact_mod_cast this
  have hc : int64.cast ((base : Int) ^ 2 - 1) = (base : Int) ^ 2 - 1 := by
    apply C43_cast_lossless
    · decide
    · have : int64.lo = -9223372036854775808 := by decide
      rw [this]; omega
    · have : int64.hi = 9223372036854775808 := by decide
      rw [this]; omega
  rw [hc]
  cases hf : fitIntegerType ((base : Int) ^ 2 - 1) false with
  | error er =>
    exfalso
    have her : er = .valueError := by
      unfold fitIntegerType at hf
      simp only at hf
      repeat' split at hf
      all_goals first | cases hf; rfl | cases hf
    rw [her, C43_raises_iff] at hf
    have : (⟨64, false⟩ : IntType).hi = 18446744073709551616 := by decide
    rw [this] at hf
    omega
  | ok t =>
    obtain ⟨f1, f2⟩ := C43_family _ _ _ hf
    exact ⟨t, rfl, f2, f1, fun x h0 hx => C43_holds _ _ _ hf x h0 hx⟩

theorem key_range {base a x : Int} (ha : 0 ≤ a) (ha' : a < base) (hx : 0 ≤ x) (hx' : x < base) :
    0 ≤ a + base * x ∧ a + base * x ≤ base ^ 2 - 1 ∧ 0 ≤ base * x ∧ base * x ≤ base ^ 2 - 1 ∧ a ≤ base ^ 2 - 1 ∧ x ≤ base ^ 2 - 1 := by
  have h1 : base * x ≤ base * (base - 1) := mul_le_mul_of_nonneg_left (by omega) (by omega)
  have h2 : 0 ≤ base * x := mul_nonneg (by omega) hx
  have h3 : base * (base - 1) = base ^ 2 - base := by ring
  have h4 : base - 1 ≤ base ^ 2 - 1 := by nlinarith
  refine ⟨by omega, by omega, h2, by omega, by omega, by omega⟩

/-- the key computed is the mathematical value -/
theorem pairKey_exact {t : IntType} {base a x : Int} (ht : ∀ y : Int, 0 ≤ y → y ≤ base ^ 2 - 1 → t.cast y = y)
    (ha : 0 ≤ a) (ha' : a < base) (hx : 0 ≤ x) (hx' : x < base) :
    pairKey t base (t.cast a) (t.cast x) = a + base * x := by
  obtain ⟨h1, h2, h3, h4, h5, h6⟩ := key_range ha ha' hx hx'
  unfold pairKey
  rw [ht a ha h5, ht x hx h6, ht _ h3 h4, ht _ h1 h2]

/-- the items of a triplet are in the table -/
def InRange (base : Int) (d : Int × Int × Int) : Prop := (0 ≤ d.1 ∧ d.1 < base) ∧ (0 ≤ d.2.1 ∧ d.2.1 < base) ∧ (0 ≤ d.2.2 ∧ d.2.2 < base)

theorem pairsOf_exact {t : IntType} {base : Int} (ht : ∀ y : Int, 0 ≤ y → y ≤ base ^ 2 - 1 → t.cast y = y) :
    ∀ (l : List (Int × Int × Int)), (∀ d ∈ l, InRange base d) →
      pairsOf t base l = l.flatMap (fun d => [d.1 + base * d.2.2, d.2.1 + base * d.2.2])
  | [], _ => rfl
  | d :: l, h => by
    obtain ⟨⟨a1, a2⟩, ⟨b1, b2⟩, ⟨x1, x2⟩⟩ := h d (by simp)
    have ih := pairsOf_exact ht l (fun d hd => h d (by simp [hd]))
    unfold pairsOf at ih ⊢
    rw [List.flatMap_cons, List.flatMap_cons, ih, pairKey_exact ht a1 a2 x1 x2, pairKey_exact ht b1 b2 x1 x2]

theorem flatMap_length2 {A : Type} (f g : A → Int) (l : List A) : (l.flatMap (fun d => [f d, g d])).length = 2 * l.length := by
  induction l with
  | nil => rfl
  | cons d l ih => rw [List.flatMap_cons, List.length_append, ih]; simp; omega

theorem flatten_pairsOf (t : IntType) (base : Int) (cs : List (List (Int × Int × Int))) :
    (cs.map (pairsOf t base)).flatten = pairsOf t base cs.flatten := by
  unfold pairsOf
  induction cs with
  | nil => rfl
  | cons c cs ih => rw [List.map_cons, List.flatten_cons, ih, List.flatten_cons, List.flatMap_append]

theorem npSlice_length_of (l : List α) {lo hi : Nat} (h : hi ≤ l.length) : (npSlice l lo hi).length = hi - lo := by
  simp [npSlice]; omega

/-- all the buffers have room for a row -/
def Bufs.Pos (b : Bufs) : Prop := 0 < b.trips ∧ 0 < b.pairsOut ∧ 0 < b.pairsIn ∧ 0 < b.uniqOut ∧ 0 < b.uniqIn ∧ 0 < b.final

/-- the pairs of one level -/
theorem levelPairs_ok {argsort : List Int → List Nat} (hs : ArgsortLaw argsort) {bufs : Bufs} (hb : bufs.Pos) {data : List (Int × Int × Int)}
    {lo hi : Nat} (h1 : lo < hi) (h2 : hi ≤ data.length) {l : Nat} {ls : List Nat}
    (hr : ∀ d ∈ npSlice data lo hi, InRange ((ls.foldl max l + 1 : Nat) : Int) d) (hbase : ls.foldl max l + 1 ≤ maxBase) (hn : 2 * (hi - lo) ≤ 2 ^ 53) :
    ∃ uniq : List Int, levelPairs argsort bufs data (lo, hi) (l :: ls) = .ok (ls.foldl max l + 1, (uniq.length : Nat), uniq) ∧
      uniq.Pairwise (· < ·) ∧ ∀ k, k ∈ uniq ↔ ∃ d ∈ npSlice data lo hi,
        k = d.1 + ((ls.foldl max l + 1 : Nat) : Int) * d.2.2 ∨ k = d.2.1 + ((ls.foldl max l + 1 : Nat) : Int) * d.2.2 := by
  obtain ⟨p1, p2, p3, p4, p5, p6⟩ := hb
  obtain ⟨t, e1, e2, e3, e4⟩ := base_fit (base := ls.foldl max l + 1) (by omega) hbase
  generalize hB : ls.foldl max l + 1 = base at *
  obtain ⟨cs, c1, c2, c3⟩ := chunksOf_ok (0, 0, 0) data (Nat.le_of_lt h1) h2 p1
  have hpairs : (cs.map (pairsOf t base)).flatten = (npSlice data lo hi).flatMap (fun d => [d.1 + (base : Int) * d.2.2, d.2.1 + (base : Int) * d.2.2]) := by
    rw [flatten_pairsOf, c2]
    exact pairsOf_exact e4 _ hr
  have hlen : ((npSlice data lo hi).flatMap (fun d => [d.1 + (base : Int) * d.2.2, d.2.1 + (base : Int) * d.2.2])).length = 2 * (hi - lo) := by
    rw [flatMap_length2, npSlice_length_of _ h2]
  generalize hP : (npSlice data lo hi).flatMap (fun d => [d.1 + (base : Int) * d.2.2, d.2.1 + (base : Int) * d.2.2]) = P at hpairs hlen
  have hmemP : ∀ k, k ∈ P ↔ ∃ d ∈ npSlice data lo hi, k = d.1 + (base : Int) * d.2.2 ∨ k = d.2.1 + (base : Int) * d.2.2 := by
    intro k; rw [← hP]; simp [List.mem_flatMap]
  have w1 : writeDataset 0 "pairs" 0 bufs.pairsOut none (cs.map (pairsOf t base)) = .ok P := by
    rw [writeDataset_plain 0 "pairs" 0 p2, hpairs]; simp
  have hsort := C38_sort_pairs_terminates_partial hs (t.bits / 8) 1000
    (by simp only [List.mem_cons, List.not_mem_nil, or_false] at e3; rcases e3 with h | h | h | h <;> rw [h] <;> decide)
    (by simp only [List.mem_cons, List.not_mem_nil, or_false] at e3; rcases e3 with h | h | h | h <;> rw [h] <;> decide)
    P (by omega) (Or.inr ⟨by decide, by omega⟩)
  generalize hS : P.mergeSort (fun x y => decide (x ≤ y)) = S at hsort
  have hSs : S.Pairwise (· ≤ ·) := by
    rw [← hS]
    have := List.pairwise_mergeSort (le := fun x y : Int => decide (x ≤ y)) (by intro a b c; simp; omega) (by intro a b; simp; omega) P
    exact this.imp (by intro a b h; simpa using h)
  have hSm : ∀ k, k ∈ S ↔ k ∈ P := by
    intro k; rw [← hS]; exact List.Perm.mem_iff (List.mergeSort_perm ..)
  obtain ⟨cs', d1, d2, d3⟩ := chunksOf_ok (0 : Int) S (Nat.zero_le _) (Nat.le_refl _) p3
  rw [npSlice_all] at d2
  have hpos : ∀ k ∈ P, 0 ≤ k := by
    intro k hk
    obtain ⟨d, hd, hk⟩ := (hmemP k).mp hk
    obtain ⟨⟨a1, a2⟩, ⟨b1, b2⟩, ⟨x1, x2⟩⟩ := hr d hd
    rcases hk with rfl | rfl
    · exact (key_range a1 a2 x1 x2).1
    · exact (key_range b1 b2 x1 x2).1
  obtain ⟨ws, u1, u2, u3, u4⟩ := loops_ok cs' (-1) 0 d3 (by rw [d2]; exact hSs) (by
    intro k hk; rw [d2, hSm] at hk; have := hpos k hk; omega)
  have w2 : writeDataset 0 "unique_pairs" ((0 : Int) + (ws.flatten.length : Nat)).toNat bufs.uniqOut none ws = .ok ws.flatten := by
    rw [writeDataset_plain 0 "unique_pairs" _ p4]; simp
  refine ⟨ws.flatten, ?_, u2, ?_⟩
  · unfold levelPairs
    simp only [hB, e1, Int.toNat_natCast, c1, w1, hsort, d1, u4, u1, w2]
    simp
  · intro k
    rw [u3 k, d2, hSm, hmemP]
    constructor
    · exact fun h => h.1
    · intro h
      refine ⟨h, ?_⟩
      have := hpos k ((hmemP k).mpr h)
      omega

end ABX.Pairs
