import Verif.Model.TaskGen
import Verif.Proofs.ExtSort
import Verif.Proofs.Sampler
import Verif.Proofs.Task
import Mathlib.Tactic.Linarith
/-! Sorting and thresholding of the triplets of a block. -/
namespace ABX.Task
open ExtSort SideOps Sampler
variable {α β γ ρ : Type}

theorem mem_uniqueIdx {s : List Int} {i : Nat} :
    i ∈ uniqueIdx s ↔ i ≤ s.length ∧ (i = 0 ∨ i = s.length ∨ s[i]? ≠ s[i - 1]?) := by
  simp only [uniqueIdx, List.mem_filter, List.mem_range, Bool.or_eq_true, beq_iff_eq, bne_iff_ne, ne_eq, or_assoc,
    Nat.lt_succ_iff]

theorem uniqueIdx_inc (s : List Int) : StrictInc (uniqueIdx s) :=
  List.Pairwise.filter _ List.pairwise_lt_range

theorem uniqueIdx_ne (s : List Int) : uniqueIdx s ≠ [] := by
  intro h
  have : 0 ∈ uniqueIdx s := mem_uniqueIdx.mpr ⟨by omega, Or.inl rfl⟩
  rw [h] at this; simp at this

theorem uniqueIdx_head (s : List Int) : ∃ r, uniqueIdx s = 0 :: r := by
  have h0 : 0 ∈ uniqueIdx s := mem_uniqueIdx.mpr ⟨by omega, Or.inl rfl⟩
  have hi := uniqueIdx_inc s
  cases h : uniqueIdx s with
  | nil => exact absurd h (uniqueIdx_ne s)
  | cons a r =>
    rw [h] at h0 hi
    rcases List.mem_cons.mp h0 with rfl | h0
    · exact ⟨r, rfl⟩
    · have := (List.pairwise_cons.mp hi).1 0 h0
      omega

/-- `u` is an increasing list of boundaries of `s`, from its head to the end: all the boundaries after the head are there -/
structure Bounds (s : List Int) (u : List Nat) (a : Nat) : Prop where
  inc : StrictInc (a :: u)
  mem : ∀ i, i ∈ u ↔ a < i ∧ i ∈ uniqueIdx s

theorem bounds_start (s : List Int) : ∃ r, uniqueIdx s = 0 :: r ∧ Bounds s r 0 := by
  obtain ⟨r, hr⟩ := uniqueIdx_head s
  have hi := uniqueIdx_inc s
  rw [hr] at hi
  refine ⟨r, hr, hi, ?_⟩
  intro i
  rw [hr, List.mem_cons]
  constructor
  · intro h; exact ⟨(List.pairwise_cons.mp hi).1 i h, Or.inr h⟩
  · rintro ⟨h1, h2 | h2⟩
    · omega
    · exact h2

theorem Bounds.tail {s : List Int} {u : List Nat} {a b : Nat} (h : Bounds s (b :: u) a) : Bounds s u b := by
  have h1 := h.inc
  rw [StrictInc, List.pairwise_cons] at h1
  refine ⟨h1.2, ?_⟩
  intro i
  have hm := h.mem i
  have hab := h1.1 b (by simp)
  have hb := (List.pairwise_cons.mp h1.2).1
  constructor
  · intro hi
    exact ⟨hb i hi, (hm.mp (by simp [hi])).2⟩
  · rintro ⟨h2, h3⟩
    rcases List.mem_cons.mp (hm.mpr ⟨by omega, h3⟩) with h4 | h4
    · omega
    · exact h4

theorem Bounds.nil {s : List Int} {a : Nat} (h : Bounds s [] a) (ha : a ≤ s.length) : a = s.length := by
  by_contra hne
  have := (h.mem s.length).mpr ⟨by omega, mem_uniqueIdx.mpr ⟨by omega, by simp⟩⟩
  simp at this

theorem Bounds.le {s : List Int} {u : List Nat} {a b : Nat} (h : Bounds s (b :: u) a) : a < b ∧ b ≤ s.length :=
  ⟨((h.mem b).mp (by simp)).1, (mem_uniqueIdx.mp ((h.mem b).mp (by simp)).2).1⟩

/-- between two boundaries the values are equal -/
theorem Bounds.run {s : List Int} {u : List Nat} {a b : Nat} (h : Bounds s (b :: u) a) :
    ∀ k, a + k < b → s[a + k]? = s[a]? := by
  intro k
  induction k with
  | zero => intro _; rfl
  | succ k ih =>
    intro hk
    rw [← ih (by omega)]
    by_contra hne
    have hb := h.le
    have hm : a + (k + 1) ∈ uniqueIdx s := mem_uniqueIdx.mpr ⟨by omega, Or.inr (Or.inr (by
      rw [show a + (k + 1) - 1 = a + k by omega]; exact hne))⟩
    have := (h.mem _).mpr ⟨by omega, hm⟩
    rcases List.mem_cons.mp this with h2 | h2
    · omega
    · have h3 := h.inc
      rw [StrictInc, List.pairwise_cons, List.pairwise_cons] at h3
      have := h3.2.1 _ h2
      omega

theorem Bounds.slice {s : List Int} {u : List Nat} {a b : Nat} (h : Bounds s (b :: u) a) :
    ∃ w, npSlice s a b = List.replicate (b - a) w := by
  have hb := h.le
  have ha : a < s.length := by omega
  refine ⟨s[a], ?_⟩
  rw [List.eq_replicate_iff]
  constructor
  · simp [npSlice]; omega
  · intro x hx
    obtain ⟨i, hi, rfl⟩ := List.mem_iff_getElem.mp hx
    have hl : i < b - a := by simp [npSlice] at hi; omega
    have h1 : (npSlice s a b)[i]? = some (npSlice s a b)[i] := List.getElem?_eq_getElem hi
    have h2 : (npSlice s a b)[i]? = s[a + i]? := by
      simp only [npSlice]
      rw [List.getElem?_drop, List.getElem?_take]
      simp; omega
    rw [h2, h.run i (by omega), List.getElem?_eq_getElem ha] at h1
    exact (Option.some.inj h1).symm

theorem runCounts_cons (a b : Nat) (r : List Nat) : runCounts (a :: b :: r) = (b - a) :: runCounts (b :: r) := by
  simp [runCounts]

theorem npSlice_append (l : List α) {a b c : Nat} (h1 : a ≤ b) (h2 : b ≤ c) : npSlice l a b ++ npSlice l b c = npSlice l a c := by
  simp only [npSlice]
  have e : (l.take c).drop a = ((l.take c).drop a).take (b - a) ++ ((l.take c).drop a).drop (b - a) := (List.take_append_drop _ _).symm
  rw [e, List.drop_drop, List.take_drop, List.take_take]
  congr 3 <;> omega

/-- without threshold the loop copies the permutation -/
theorem thresholdLoop_zero (permut : List Nat) (t : IntType) (src : Nat → Src) {s : List Int} (hs : s.length = permut.length) :
    ∀ (u : List Nat) (a j : Nat), Bounds s u a → a ≤ s.length →
    ∃ ps, thresholdLoop permut t 0 src (runCounts (a :: u)) a j = .ok ps ∧ ps.flatten = permut.drop a
  | [], a, j, h, ha => ⟨[], rfl, by
      have := h.nil ha
      rw [List.flatten_nil, List.drop_eq_nil_of_le (by omega)]⟩
  | b :: u, a, j, h, ha => by
    obtain ⟨h1, h2⟩ := h.le
    obtain ⟨ps, e1, e2⟩ := thresholdLoop_zero permut t src hs u b (j + 1) h.tail h2
    rw [runCounts_cons]
    unfold thresholdLoop
    simp only [ne_eq, not_true_eq_false, false_and, if_false]
    rw [show a + (b - a) = b by omega, e1]
    refine ⟨_, rfl, ?_⟩
    rw [List.flatten_cons, e2]
    have := npSlice_append permut (a := a) (b := b) (c := permut.length) (by omega) (by omega)
    simp only [npSlice, List.take_length] at this ⊢
    exact this

/-- what one part of the result is: `min threshold (b - a)` distinct positions of the run `[a, b)` -/
def PartOK (permut : List Nat) (threshold a b : Nat) (p : List Nat) : Prop :=
  ∃ l : List Nat, gather permut l = .ok p ∧ l.Nodup ∧ (∀ i ∈ l, a ≤ i ∧ i < b) ∧
    l.length = if threshold = 0 then b - a else min threshold (b - a)

theorem gather_range' (l : List α) (a n : Nat) (h : a + n ≤ l.length) : gather l (List.range' a n) = .ok (npSlice l a (a + n)) := by
  rw [gather_ok l _ (by intro i hi; rw [List.mem_range'_1] at hi; omega)]
  congr 1
  induction n generalizing a with
  | zero => simp [npSlice]
  | succ n ih =>
    rw [List.range'_succ, List.filterMap_cons]
    have : a < l.length := by omega
    simp only [List.getElem?_eq_getElem this]
    rw [ih (a + 1) (by omega), ← npSlice_append l (a := a) (b := a + 1) (c := a + (n + 1)) (by omega) (by omega)]
    rw [show a + 1 + n = a + (n + 1) by omega]
    have e : npSlice l a (a + 1) = [l[a]] := by
      unfold npSlice
      rw [List.drop_take, List.drop_eq_getElem_cons this, show a + 1 - a = 1 by omega]
      rfl
    rw [e]; rfl

theorem castNat_lt {t : IntType} (hu : t.signed = false) {x : Nat} (h : (x : Int) < t.hi) : castNat t x = x := by
  unfold castNat IntType.cast IntType.lo
  unfold IntType.hi at h
  simp only [hu, Bool.false_eq_true, if_false, Int.sub_zero, Int.add_zero] at *
  rw [Int.emod_eq_of_lt (by omega) h]
  simp

theorem rejectionLoop_congr (n : Nat) (d d' : Nat → Nat → List Nat) (h : ∀ i k, d i k = d' i k) (fuel i : Nat) (s : List Nat) :
    rejectionLoop n d fuel i s = rejectionLoop n d' fuel i s := by
  have : d = d' := by funext i k; exact h i k
  rw [this]

/-- the sampler with a type that holds the values is the sampler -/
theorem sampleT_eq {t : IntType} (hu : t.signed = false) {n N : Nat} {src : Src} (hl : src.Lawful) (hN : (N : Int) ≤ t.hi) (hn : n ≤ N) :
    sampleT t n N src = sampleWithoutReplacement n N src := by
  unfold sampleT sampleWithoutReplacement
  split
  · unfold rejection
    split
    · rfl
    split
    · rfl
    · rename_i h0 hN0
      apply rejectionLoop_congr
      intro i k
      conv => rhs; rw [← List.map_id (src.draw N i k)]
      apply List.map_congr_left
      intro x hx
      have := hl.drawLt N i k (by omega) x hx
      exact castNat_lt hu (by omega)
  · rename_i hc
    cases h : knuth n N src.u src.fuel with
    | error e => rfl
    | ok s =>
      simp only [Except.map, Except.ok.injEq]
      conv => rhs; rw [← List.map_id s]
      apply List.map_congr_left
      intro x hx
      have := (swr_ok n N src hl hn s (by unfold sampleWithoutReplacement; rw [if_neg hc]; exact h)).2.2 x hx
      exact castNat_lt hu (by omega)

/-- the loop, when the type holds the positions -/
theorem thresholdLoop_ok (permut : List Nat) {t : IntType} (hu : t.signed = false) (threshold : Nat) {src : Nat → Src} (hl : ∀ j, (src j).Lawful)
    {s : List Int} (hs : s.length = permut.length) (hN : (s.length : Int) ≤ t.hi) :
    ∀ (u : List Nat) (a j : Nat) (ps : List (List Nat)), Bounds s u a → a ≤ s.length →
    thresholdLoop permut t threshold src (runCounts (a :: u)) a j = .ok ps →
    List.Forall₂ (fun ab p => PartOK permut threshold ab.1 ab.2 p) ((a :: u).zip u) ps
  | [], a, j, ps, h, ha, hr => by
    simp [runCounts, thresholdLoop] at hr; subst hr; exact .nil
  | b :: u, a, j, ps, h, ha, hr => by
    obtain ⟨h1, h2⟩ := h.le
    rw [runCounts_cons] at hr
    unfold thresholdLoop at hr
    dsimp only at hr
    split at hr
    · cases hr
    rename_i p hp
    rw [show a + (b - a) = b by omega] at hr
    split at hr
    · cases hr
    rename_i ps' hps
    injection hr with hr
    subst hr
    refine .cons ?_ (thresholdLoop_ok permut hu threshold hl hs hN u b (j + 1) ps' h.tail h2 hps)
    split at hp
    · rename_i hc
      rw [sampleT_eq hu (hl j) (by omega) (by omega)] at hp
      split at hp
      · cases hp
      rename_i sm hsm
      obtain ⟨l1, l2, l3⟩ := swr_ok threshold (b - a) (src j) (hl j) (by omega) sm hsm
      have e : sm.map (fun x => castNat t (x + a)) = sm.map (· + a) := by
        apply List.map_congr_left
        intro x hx
        have := l3 x hx
        exact castNat_lt hu (by omega)
      rw [e] at hp
      refine ⟨_, hp, ?_, ?_, ?_⟩
      · exact (l2.map_add a).imp (by intro x y h; omega)
      · intro i hi
        obtain ⟨x, hx, rfl⟩ := List.mem_map.mp hi
        have := l3 x hx
        omega
      · rw [if_neg hc.1]; simp [l1]; omega
    · rename_i hc
      injection hp with hp
      refine ⟨List.range' a (b - a), ?_, List.nodup_range', ?_, ?_⟩
      · rw [gather_range' _ _ _ (by omega), hp]
      · intro i hi; rw [List.mem_range'_1] at hi; omega
      · simp only [List.length_range']
        split
        · rfl
        · omega

theorem gather_inv {l : List α} (d : α) : ∀ {ix : List Nat} {r : List α}, gather l ix = .ok r →
    (∀ i ∈ ix, i < l.length) ∧ r = ix.map (fun i => l.getD i d)
  | [], r, h => by simp [gather] at h; subst h; simp
  | i :: is, r, h => by
    unfold gather at h
    split at h
    · cases h
    rename_i x hx
    split at h
    · cases h
    rename_i xs hxs
    injection h with h
    subst h
    obtain ⟨h1, h2⟩ := gather_inv d hxs
    obtain ⟨hi, hx⟩ := List.getElem?_eq_some_iff.mp hx
    constructor
    · intro j hj
      rcases List.mem_cons.mp hj with rfl | hj
      · exact hi
      · exact h1 j hj
    · rw [List.map_cons, h2, ← hx]
      simp [hi]

/-- how many of `k` triplets are kept -/
def keepCount (threshold k : Nat) : Nat := if threshold = 0 then k else min threshold k

theorem keepCount_zero (threshold : Nat) : keepCount threshold 0 = 0 := by unfold keepCount; split <;> simp

theorem sorted_lt {s : List Int} (hs : s.Pairwise (· ≤ ·)) {i j : Nat} (hij : i ≤ j) (hj : j < s.length) : s.getD i 0 ≤ s.getD j 0 := by
  have hi : i < s.length := by omega
  simp only [List.getD_eq_getElem?_getD, List.getElem?_eq_getElem hi, List.getElem?_eq_getElem hj, Option.getD_some]
  rcases Nat.lt_or_ge i j with h | h
  · exact List.pairwise_iff_getElem.mp hs i j hi hj h
  · have : i = j := by omega
    subst this; exact Int.le_refl _

theorem parts_ok (permut : List Nat) (threshold : Nat) {s : List Int} (hs : s.length = permut.length) (hsort : s.Pairwise (· ≤ ·)) :
    ∀ (u : List Nat) (a : Nat) (ps : List (List Nat)), Bounds s u a → a ≤ s.length →
    List.Forall₂ (fun ab p => PartOK permut threshold ab.1 ab.2 p) ((a :: u).zip u) ps →
    ∃ l : List Nat, ps.flatten = l.map (fun i => permut.getD i 0) ∧ l.Nodup ∧ (∀ i ∈ l, a ≤ i ∧ i < s.length) ∧
      l.Pairwise (fun i j => s.getD i 0 ≤ s.getD j 0) ∧
      ∀ v, (l.filter (fun i => s.getD i 0 == v)).length = keepCount threshold ((s.drop a).count v)
  | [], a, ps, h, ha, hf => by
    have he := h.nil ha
    simp at hf; subst hf
    refine ⟨[], by simp, by simp, by simp, by simp, ?_⟩
    intro v
    rw [List.drop_eq_nil_of_le (by omega)]
    simp [keepCount_zero]
  | b :: u, a, ps, h, ha, hf => by
    obtain ⟨h1, h2⟩ := h.le
    cases hf with
    | cons hp hf =>
    rename_i p ps
    obtain ⟨l2, e1, e2, e3, e4, e5⟩ := parts_ok permut threshold hs hsort u b ps h.tail h2 hf
    obtain ⟨l1, g1, g2, g3, g4⟩ := hp
    obtain ⟨g5, g6⟩ := gather_inv 0 g1
    have hrun : ∀ i, a ≤ i → i < b → s.getD i 0 = s.getD a 0 := by
      intro i hi1 hi2
      have := h.run (i - a) (by omega)
      rw [show a + (i - a) = i by omega] at this
      simp only [List.getD_eq_getElem?_getD, this]
    have hcount : ∀ v, (s.drop a).count v = (if s.getD a 0 = v then b - a else 0) + (s.drop b).count v := by
      intro v
      have hsp : s.drop a = npSlice s a b ++ s.drop b := by
        have := npSlice_append s (a := a) (b := b) (c := s.length) (by omega) h2
        simp only [npSlice, List.take_length] at this
        rw [← this]; rfl
      rw [hsp, List.count_append]
      obtain ⟨w, hw⟩ := h.slice
      have hwa : w = s.getD a 0 := by
        simp only [npSlice] at hw
        have h0 : (List.drop a (List.take b s))[0]? = some w := by rw [hw, List.getElem?_replicate, if_pos (by omega)]
        rw [List.getElem?_drop, List.getElem?_take] at h0
        simp only [Nat.add_zero] at h0
        rw [if_pos h1] at h0
        simp [List.getD_eq_getElem?_getD, h0]
      rw [hw, List.count_replicate, hwa]
      simp [beq_iff_eq]
    have hlater : ∀ v, s.getD a 0 = v → (s.drop b).count v = 0 := by
      intro v hv
      rw [List.count_eq_zero]
      intro hm
      obtain ⟨i, hi, hiv⟩ := List.mem_iff_getElem.mp hm
      rw [List.length_drop] at hi
      rw [List.getElem_drop] at hiv
      have hb : b < s.length := by omega
      have h3 := sorted_lt hsort (i := b) (j := b + i) (by omega) (by omega)
      have h4 := sorted_lt hsort (i := b - 1) (j := b) (by omega) (by omega)
      have h5 := hrun (b - 1) (by omega) (by omega)
      have hne : s[b]? ≠ s[b - 1]? := by
        have := (mem_uniqueIdx.mp ((h.mem b).mp (by simp)).2).2
        rcases this with h | h | h
        · omega
        · omega
        · exact h
      have e1 : s.getD b 0 = s[b] := by simp [hb]
      have e2 : s.getD (b - 1) 0 = s[b - 1] := by
        have : b - 1 < s.length := by omega
        simp [this]
      have e3 : s.getD (b + i) 0 = v := by
        have : b + i < s.length := by omega
        simp [this, hiv]
      rw [List.getElem?_eq_getElem hb, List.getElem?_eq_getElem (by omega : b - 1 < s.length)] at hne
      have hne' : s[b] ≠ s[b - 1] := fun h => hne (by rw [h])
      omega
    refine ⟨l1 ++ l2, ?_, ?_, ?_, ?_, ?_⟩
    · rw [List.flatten_cons, e1, g6, List.map_append]
    · rw [List.nodup_append]
      refine ⟨g2, e2, ?_⟩
      rintro i hi j hj rfl
      have := g3 i hi; have := e3 i hj; omega
    · intro i hi
      rcases List.mem_append.mp hi with hi | hi
      · have := g3 i hi; dsimp only at this; omega
      · have := e3 i hi; omega
    · rw [List.pairwise_append]
      refine ⟨?_, e4, ?_⟩
      · rw [List.pairwise_iff_forall_sublist]
        intro i j hsub
        have hi := hsub.subset (List.mem_cons_self); have hj := hsub.subset (List.mem_cons_of_mem _ List.mem_cons_self)
        have hi := g3 i hi; have hj := g3 j hj
        rw [hrun i hi.1 hi.2, hrun j hj.1 hj.2]
      · intro i hi j hj
        have hi := g3 i hi; have hj := e3 j hj
        dsimp only at hi
        exact sorted_lt hsort (by omega) hj.2
    · intro v
      rw [List.filter_append, List.length_append, e5 v, hcount v]
      by_cases hv : s.getD a 0 = v
      · have hall : l1.filter (fun i => s.getD i 0 == v) = l1 := by
          apply List.filter_eq_self.mpr
          intro i hi
          have := g3 i hi
          rw [hrun i this.1 this.2, hv]; simp
        rw [hall, hlater v hv, keepCount_zero, g4, if_pos hv]
        simp [keepCount]
      · have hnone : l1.filter (fun i => s.getD i 0 == v) = [] := by
          apply List.filter_eq_nil_iff.mpr
          intro i hi
          have := g3 i hi
          rw [hrun i this.1 this.2]; simpa using hv
        rw [hnone, if_neg hv]; simp

theorem getD_map' (l : List α) (f : α → β) (d : α) (d' : β) {i : Nat} (h : i < l.length) : (l.map f).getD i d' = f (l.getD i d) := by
  simp [h]

/-- `sort_and_threshold` when the sample type can hold the number of triplets -/
theorem sortAndThreshold_ok {argsort : List Int → List Nat} (ha : ArgsortLaw argsort) {newIndex : List Int} {t : IntType} (hu : t.signed = false)
    {threshold : Nat} {src : Nat → Src} (hl : ∀ j, (src j).Lawful) (hN : (newIndex.length : Int) ≤ t.hi) {p u : List Nat}
    (h : sortAndThreshold (argsort newIndex) newIndex t threshold src = .ok (p, u)) :
    p.Nodup ∧ (∀ i ∈ p, i < newIndex.length) ∧ p.Pairwise (fun i j => newIndex.getD i 0 ≤ newIndex.getD j 0) ∧
      ∀ v, (p.filter (fun i => newIndex.getD i 0 == v)).length = keepCount threshold (newIndex.count v) := by
  have hperm := ha.perm newIndex
  have hlen : (argsort newIndex).length = newIndex.length := by rw [hperm.length_eq]; simp
  obtain ⟨s, hs1, hs2⟩ := gather_perm newIndex _ hperm
  have hsort := ha.sorted _ _ hs1
  obtain ⟨hs3, hs4⟩ := gather_inv 0 hs1
  unfold sortAndThreshold at h
  rw [hs1] at h
  dsimp only at h
  split at h
  · cases h
  rename_i ps hps
  injection h with h
  rw [Prod.mk.injEq] at h
  obtain ⟨hp, hu'⟩ := h
  obtain ⟨r, hr, hb⟩ := bounds_start s
  have hsl : s.length = (argsort newIndex).length := by rw [hs4]; simp
  have hF := thresholdLoop_ok (argsort newIndex) hu threshold hl hsl (by rw [hsl, hlen]; exact hN) r 0 0 ps hb (by omega) (by rw [← hr]; exact hps)
  obtain ⟨l, e1, e2, e3, e4, e5⟩ := parts_ok (argsort newIndex) threshold hsl hsort r 0 ps hb (by omega) hF
  have hkey : ∀ i ∈ l, newIndex.getD ((argsort newIndex).getD i 0) 0 = s.getD i 0 := by
    intro i hi
    rw [hs4, getD_map' (argsort newIndex) (fun j => newIndex.getD j 0) 0 0 (by have := (e3 i hi).2; omega)]
  rw [← hp, e1]
  refine ⟨?_, ?_, ?_, ?_⟩
  · apply List.Nodup.map_on _ e2
    intro i hi j hj hij
    have h1 := (e3 i hi).2; have h2 := (e3 j hj).2
    rw [hsl] at h1 h2
    have hnd : (argsort newIndex).Nodup := hperm.nodup_iff.mpr List.nodup_range
    simp only [List.getD_eq_getElem?_getD, List.getElem?_eq_getElem h1, List.getElem?_eq_getElem h2, Option.getD_some] at hij
    exact (List.Nodup.getElem_inj_iff hnd).mp hij
  · intro x hx
    obtain ⟨i, hi, rfl⟩ := List.mem_map.mp hx
    have h1 := (e3 i hi).2
    rw [hsl] at h1
    simp only [List.getD_eq_getElem?_getD, List.getElem?_eq_getElem h1, Option.getD_some]
    exact hs3 _ (List.getElem_mem h1)
  · rw [List.pairwise_map]
    refine e4.imp_of_mem ?_
    intro i j hi hj h
    rw [hkey i hi, hkey j hj]; exact h
  · intro v
    rw [List.filter_map, List.length_map]
    have : l.filter ((fun i => newIndex.getD i 0 == v) ∘ fun i => (argsort newIndex).getD i 0) = l.filter (fun i => s.getD i 0 == v) := by
      apply List.filter_congr
      intro i hi
      simp only [Function.comp, hkey i hi]
    rw [this, e5 v, List.drop_zero, hs2.count_eq]

/-- without threshold, whatever the type: the permutation itself -/
theorem sortAndThreshold_zero {argsort : List Int → List Nat} (ha : ArgsortLaw argsort) (newIndex : List Int) (t : IntType) (src : Nat → Src) :
    ∃ s, gather newIndex (argsort newIndex) = .ok s ∧
    sortAndThreshold (argsort newIndex) newIndex t 0 src = .ok (argsort newIndex, uniqueIdx s) := by
  obtain ⟨s, hs1, hs2⟩ := gather_perm newIndex _ (ha.perm newIndex)
  obtain ⟨hs3, hs4⟩ := gather_inv 0 hs1
  obtain ⟨r, hr, hb⟩ := bounds_start s
  have hsl : s.length = (argsort newIndex).length := by rw [hs4]; simp
  obtain ⟨ps, e1, e2⟩ := thresholdLoop_zero (argsort newIndex) t src hsl r 0 0 hb (by omega)
  refine ⟨s, hs1, ?_⟩
  unfold sortAndThreshold
  simp only [hs1]
  rw [hr, e1]
  simp [e2]

end ABX.Task
