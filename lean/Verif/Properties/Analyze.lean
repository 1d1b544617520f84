import Verif.Proofs.Analyze
import Verif.Properties.TaskWitness
import Verif.Proofs.Workers
/-!
Properties C19, C20, C21: analyze.py.
-/
namespace ABX.Analyze
open ExtSort Task SideOps F64

/-- `R` are the rows of the table with columns `cols` -/
structure Spec.Table (cols : List (List Nat)) (R : List (List Nat)) : Prop where
  ne : cols ≠ []
  width : ∀ r ∈ R, r.length = cols.length
  height : ∀ c ∈ cols, c.length = R.length
  cell : ∀ (i j : Nat) (c r : List Nat), cols[j]? = some c → R[i]? = some r → c[i]? = r[j]?

/-- the number of combinations of indices up to the largest one of each column -/
def Spec.combinations (cols : List (List Nat)) : Nat := (cols.map (fun c => c.foldl max 0 + 1)).prod

/-- the scores of the triplets with the combination `r` -/
def Spec.scoresOf (R : List (List Nat)) (S : List Int) (r : List Nat) : List Int := ((R.zip S).filter (fun p => p.1 == r)).map (·.2)

/-- `labels` are the values of the indices `r` -/
def Spec.IsLabels (indexes : List (List Val)) (r : List Nat) (labels : List Val) : Prop :=
  labels.length = indexes.length ∧ ∀ (j : Nat) (ix : List Val) (x : Nat), indexes[j]? = some ix → r[j]? = some x → labels[j]? = ix[x]?

/-- the exact score of a group -/
def Spec.meanScore (l : List Int) : ℚ := ((l.sum : ℚ) / l.length + 1) / 2

theorem Spec.Table.rows {cols R : List (List Nat)} (h : Spec.Table cols R) : rowsOf cols = R := by
  obtain ⟨c, cs, rfl⟩ := List.exists_cons_of_ne_nil h.ne
  unfold rowsOf
  dsimp only
  apply List.ext_getElem?
  intro i
  rw [h.height c (by simp), List.getElem?_map]
  by_cases hi : i < R.length
  · rw [List.getElem?_eq_getElem (by rwa [List.length_range]), List.getElem?_eq_getElem hi, List.getElem_range, Option.map_some]
    congr 1
    have hw := h.width R[i] (List.getElem_mem hi)
    have key : ∀ (l r : List (List Nat)) (row : List Nat), (∀ (j : Nat) (c : List Nat), l[j]? = some c → c[i]? = row[j]?) → row.length = l.length → l.filterMap (·[i]?) = row := by
      intro l
      induction l with
      | nil => intro r row _ hl; simp at hl; simp [hl]
      | cons d l ih =>
        intro r row hc hl
        cases row with
        | nil => simp at hl
        | cons x row =>
          have h0 := hc 0 d (by simp)
          rw [List.getElem?_cons_zero] at h0
          rw [List.filterMap_cons, h0]
          dsimp only
          congr 1
          apply ih r row
          · intro j c' hj
            have := hc (j + 1) c' (by simpa using hj)
            simpa using this
          · simpa using hl
    exact key (c :: cs) [] R[i] (fun j c' hj => h.cell i j c' R[i] hj (List.getElem?_eq_getElem hi)) hw
  · rw [List.getElem?_eq_none (by rw [List.length_range]; omega), List.getElem?_eq_none (by omega)]
    rfl

theorem Spec.Table.bound {cols R : List (List Nat)} (h : Spec.Table cols R) {r : List Nat} (hr : r ∈ R) : ∀ q ∈ (nRegs cols).zip r, q.2 < q.1 := by
  intro q hq
  obtain ⟨j, hj⟩ := List.getElem?_of_mem hq
  rw [List.getElem?_zip_eq_some] at hj
  obtain ⟨h1, h2⟩ := hj
  unfold nRegs at h1
  rw [List.getElem?_map, Option.map_eq_some_iff] at h1
  obtain ⟨c, hc, hcq⟩ := h1
  obtain ⟨i, hi⟩ := List.getElem?_of_mem hr
  have := h.cell i j c r hc hi
  rw [h2] at this
  have := (foldl_max_le c 0).2 q.2 (List.mem_of_getElem? this)
  omega

theorem Spec.Table.len {cols R : List (List Nat)} (h : Spec.Table cols R) {r : List Nat} (hr : r ∈ R) : (nRegs cols).length = r.length := by
  unfold nRegs
  rw [List.length_map, h.width r hr]

/-- the largest index plus one fits the type of the table -/
theorem Spec.Table.radices {cols R : List (List Nat)} (h : Spec.Table cols R) {dt : Nat} (hd : 1 ≤ dt) (hx : ∀ r ∈ R, ∀ x ∈ r, x + 1 < 2 ^ dt) : nIndices dt cols = nRegs cols := by
  unfold nIndices nRegs
  apply List.map_congr_left
  intro c hc
  apply Nat.mod_eq_of_lt
  have key : ∀ (l : List Nat) (a : Nat), a + 1 < 2 ^ dt → (∀ x ∈ l, x + 1 < 2 ^ dt) → l.foldl max a + 1 < 2 ^ dt := by
    intro l
    induction l with
    | nil => intro a ha _; simpa using ha
    | cons x l ih =>
      intro a ha hl
      rw [List.foldl_cons]
      apply ih
      · have := hl x (by simp); omega
      · intro y hy; exact hl y (by simp [hy])
  apply key c 0
  · calc 0 + 1 < 2 ^ 1 := by norm_num
      _ ≤ 2 ^ dt := Nat.pow_le_pow_right (by omega) hd
  · intro x hxc
    obtain ⟨i, hi⟩ := List.getElem?_of_mem hxc
    obtain ⟨j, hj⟩ := List.getElem?_of_mem hc
    have hil : i < R.length := by rw [← h.height c hc]; exact (List.getElem?_eq_some_iff.mp hi).1
    have := h.cell i j c R[i] hj (List.getElem?_eq_getElem hil)
    rw [hi] at this
    exact hx R[i] (List.getElem_mem hil) x (List.mem_of_getElem? this.symm)

theorem fit_prod {n : Nat} (h : n < 18446744073709551615) : ∃ t, fitIntegerType ((n : Nat) : Int) false = .ok t ∧ t.bits ∈ [8, 16, 32, 64] ∧ n < 2 ^ t.bits := by
  cases ht : fitIntegerType ((n : Nat) : Int) false with
  | error e =>
    exfalso
    unfold fitIntegerType at ht
    simp only [Bool.false_eq_true, if_false] at ht
    repeat' split at ht
    all_goals first | (cases ht; done) | (rename_i h1; apply h1; norm_num; omega)
  | ok t =>
    obtain ⟨h1, h2⟩ := C43_family _ _ _ ht
    refine ⟨t, rfl, h1, ?_⟩
    unfold fitIntegerType at ht
    simp only [Bool.false_eq_true, if_false] at ht
    repeat' split at ht
    all_goals first | (injection ht with ht; subst ht; dsimp only; rename_i h3; norm_num at h3 ⊢; omega) | cases ht

/-- C19, the keys: for every table of fewer than 2^64 - 1 combinations, the assertion of line 88 holds, a type is found, keys fit the type, distinct rows get distinct keys
and the order of the keys is the lexicographic order of the rows. -/
theorem C19_keys_partial {cols R : List (List Nat)} (h : Spec.Table cols R) {dt : Nat} (hd : 1 ≤ dt) (hx : ∀ r ∈ R, ∀ x ∈ r, x + 1 < 2 ^ dt) (hc : Spec.combinations cols < 18446744073709551615) :
    (nIndices dt cols).prod % 2 ^ 64 = Spec.combinations cols ∧ ∃ t, fitIntegerType ((Spec.combinations cols : Nat) : Int) false = .ok t ∧
      (∀ r ∈ R, encode dt t.bits (nIndices dt cols) r < Spec.combinations cols ∧ (Spec.combinations cols : Int) < t.hi) ∧
      (∀ r ∈ R, ∀ s ∈ R, encode dt t.bits (nIndices dt cols) r = encode dt t.bits (nIndices dt cols) s → r = s) ∧
      (∀ r ∈ R, ∀ s ∈ R, encode dt t.bits (nIndices dt cols) r < encode dt t.bits (nIndices dt cols) s → r < s) := by
  obtain ⟨t, h1, h2, h3⟩ := fit_prod hc
  have hr := h.radices hd hx
  have hne : nRegs cols ≠ [] := by unfold nRegs; simpa using h.ne
  have hpr : (nRegs cols).prod = Spec.combinations cols := rfl
  rw [hr, hpr]
  refine ⟨Nat.mod_eq_of_lt (by norm_num; omega), t, h1, ?_, ?_, ?_⟩
  · intro r hrm
    rw [encode_exact h2 hne h3 (h.len hrm) (h.bound hrm)]
    refine ⟨horner_lt (h.len hrm) (h.bound hrm), ?_⟩
    unfold IntType.hi
    rw [(C43_family _ _ _ h1).2, if_neg (by decide)]
    exact_mod_cast h3
  · intro r hrm s hsm he
    rw [encode_exact h2 hne h3 (h.len hrm) (h.bound hrm), encode_exact h2 hne h3 (h.len hsm) (h.bound hsm)] at he
    exact (hornerFold_inj _ _ _ 0 0 (h.len hrm) (h.len hsm) (h.bound hrm) (h.bound hsm) he).1
  · intro r hrm s hsm he
    rw [encode_exact h2 hne h3 (h.len hrm) (h.bound hrm), encode_exact h2 hne h3 (h.len hsm) (h.bound hsm)] at he
    exact foldl_lex _ _ _ 0 (h.len hrm) (h.len hsm) (h.bound hrm) (h.bound hsm) he

/-- C19, the round trip: with at most 2^53 combinations, decoding the key of a row gives back the row. -/
theorem C19_roundtrip_partial {cols R : List (List Nat)} (h : Spec.Table cols R) {dt : Nat} (hd : 1 ≤ dt) (hx : ∀ r ∈ R, ∀ x ∈ r, x + 1 < 2 ^ dt) (hc : Spec.combinations cols ≤ 2 ^ 53)
    {t : IntType} (ht : fitIntegerType ((Spec.combinations cols : Nat) : Int) false = .ok t) {r : List Nat} (hr : r ∈ R) :
    npdecode (encode dt t.bits (nIndices dt cols) r) (nIndices dt cols) = r.map (fun x : Nat => (x : ℚ)) := by
  obtain ⟨t', h1, h2, h3⟩ := fit_prod (n := Spec.combinations cols) (by norm_num at hc; omega)
  rw [ht] at h1
  cases h1
  have hne : nRegs cols ≠ [] := by unfold nRegs; simpa using h.ne
  rw [h.radices hd hx, encode_exact h2 hne h3 (h.len hr) (h.bound hr)]
  exact npdecode_exact hne hc (h.len hr) (h.bound hr)

theorem labelsOf_ok {indexes : List (List Val)} {r : List Nat} (hl : r.length = indexes.length) (hx : ∀ (j : Nat) (ix : List Val) (x : Nat), indexes[j]? = some ix → r[j]? = some x → x < ix.length) :
    ∃ labels, labelsOf indexes (r.map (fun x : Nat => (x : ℚ))) = .ok labels ∧ Spec.IsLabels indexes r labels := by
  have htr : ∀ x : Nat, (trunc (x : ℚ)).toNat = x := by
    intro x
    unfold trunc
    rw [if_neg (by exact not_lt.mpr (Nat.cast_nonneg x)), show ((x : ℚ)) = (((x : ℤ)) : ℚ) from (Int.cast_natCast x).symm, Int.floor_intCast]
    rfl
  obtain ⟨ys, h1, h2⟩ := sequence_exists (l := indexes.zipIdx) (f := fun p => match (r.map (fun x : Nat => (x : ℚ)))[p.2]? with
    | none => .error .indexError
    | some q => match p.1[(trunc q).toNat]? with
      | none => .error .indexError
      | some v => .ok v) (Q := fun p v => ∃ x, r[p.2]? = some x ∧ p.1[x]? = some v) (by
    intro p hp
    obtain ⟨j, hj⟩ := List.getElem?_of_mem hp
    rw [List.getElem?_zipIdx, Option.map_eq_some_iff] at hj
    obtain ⟨ix, hix, rfl⟩ := hj
    rw [Nat.zero_add]
    have hjl : j < r.length := by rw [hl]; exact (List.getElem?_eq_some_iff.mp hix).1
    have hlt := hx j ix r[j] hix (List.getElem?_eq_getElem hjl)
    refine ⟨ix[r[j]], ?_, r[j], List.getElem?_eq_getElem hjl, List.getElem?_eq_getElem hlt⟩
    dsimp only
    rw [List.getElem?_map, List.getElem?_eq_getElem hjl]
    dsimp only [Option.map_some]
    rw [htr, List.getElem?_eq_getElem hlt])
  refine ⟨ys, h1, ?_, ?_⟩
  · have := h2.length_eq
    rw [List.length_zipIdx] at this
    exact this.symm
  · intro j ix x hix hxr
    have hz : indexes.zipIdx[j]? = some (ix, j) := by rw [List.getElem?_zipIdx, hix, Nat.zero_add]; rfl
    obtain ⟨v, hv, x', e1, e2⟩ := Distances.forall₂_getElem h2 hz
    dsimp only at e1 e2
    rw [hxr] at e1
    cases e1
    rw [hv, e2]

/-- what the rows of the csv file are for a level with rows `R` of indices and scores `S` -/
structure Spec.Collapsed (indexes : List (List Val)) (by_ : List Val) (R : List (List Nat)) (S : List Int) (rows : List (List Nat)) (out : List OutRow) : Prop where
  sorted : rows.Pairwise (· < ·)
  mem : ∀ r, r ∈ rows ↔ r ∈ R
  rows : List.Forall₂ (fun r o => Spec.IsLabels indexes r o.labels ∧ o.by_ = by_ ∧ o.n = R.count r ∧ o.n = (Spec.scoresOf R S r).length ∧
    o.score = rnd (rnd (((Spec.scoresOf R S r).sum : ℚ) / o.n) + 1) / 2) rows out

/-- C20: for every level, one row per combination of regressors, in lexicographic order of indices, with its labels, the number of triplets with the combination and
(mean + 1) / 2 in float64 of their scores; at most 2^53 combinations.  For every argsort, stable or not. -/
theorem C20_rows_partial {argsort : List Int → List Nat} (hs : ArgsortLaw argsort) {cols R : List (List Nat)} (h : Spec.Table cols R) {dt : Nat} (hd : 1 ≤ dt) (hx : ∀ r ∈ R, ∀ x ∈ r, x + 1 < 2 ^ dt)
    (hc : Spec.combinations cols ≤ 2 ^ 53) {S : List Int} (hS : S.length = R.length) {indexes : List (List Val)} (hi : indexes.length = cols.length)
    (hl : ∀ r ∈ R, ∀ (j : Nat) (ix : List Val) (x : Nat), indexes[j]? = some ix → r[j]? = some x → x < ix.length) (by_ : List Val) :
    ∃ rows out, collapseLevel argsort dt indexes by_ cols S = .ok out ∧ Spec.Collapsed indexes by_ R S rows out := by
  unfold collapseLevel
  rw [h.rows]
  by_cases hR : R = []
  · subst hR
    refine ⟨[], [], by simp, by simp, by simp, .nil⟩
  have hc' : Spec.combinations cols < 18446744073709551615 := by norm_num at hc; omega
  obtain ⟨k1, t, k2, -, k3, k4⟩ := C19_keys_partial h hd hx hc'
  have hdec := fun r hr => C19_roundtrip_partial h hd hx hc k2 (r := r) hr
  have hpos : (nIndices dt cols).tail.any (· == 0) = false := by
    rw [h.radices hd hx, List.any_eq_false]
    intro n hn
    obtain ⟨r, R', rfl⟩ := List.exists_cons_of_ne_nil hR
    have := radix_pos (h.len (r := r) (by simp)) (h.bound (by simp)) n (List.mem_of_mem_tail hn)
    simp
    omega
  rw [if_neg (by simpa using hR)]
  dsimp only
  rw [k1, if_neg (by omega), k2]
  dsimp only
  let key : List Nat × Int → Int := fun p => ((encode dt t.bits (nIndices dt cols) p.1 : Nat) : Int)
  have hidx : R.map (fun r => ((encode dt t.bits (nIndices dt cols) r : Nat) : Int)) = (R.zip S).map key := by
    have : R = (R.zip S).map Prod.fst := by rw [List.map_fst_zip (by omega)]
    conv_lhs => rw [this, List.map_map]
    rfl
  have hsc : S = (R.zip S).map Prod.snd := by rw [List.map_snd_zip (by omega)]
  obtain ⟨s, g1, g2, g3⟩ := argsort_tagged hs key (R.zip S)
  have e1 : gather S (argsort ((R.zip S).map key)) = .ok (s.map Prod.snd) := by
    conv_lhs => rw [hsc, gather_map]
    rw [← hsc, g1]
    rfl
  have e2 : gather ((R.zip S).map key) (argsort ((R.zip S).map key)) = .ok (s.map key) := by
    rw [gather_map, g1]
    rfl
  rw [hidx, e1]
  dsimp only
  rw [e2]
  dsimp only
  obtain ⟨segs, u1, u2, u3, u4, u5⟩ := unique_segs (f := key) (sc := Prod.snd) g3
  rw [u5]
  dsimp only
  rw [hpos]
  simp only [Bool.false_eq_true, if_false]
  rw [List.map_map]
  have hmemR : ∀ p ∈ s, p.1 ∈ R := by
    intro p hp
    have := g2.mem_iff.mp hp
    exact (List.of_mem_zip this).1
  have hseg : ∀ g ∈ segs, ∃ x l, g = x :: l ∧ x ∈ s := by
    intro g hg
    obtain ⟨x, l, hxl⟩ := List.exists_cons_of_ne_nil (u2 g hg)
    refine ⟨x, l, hxl, ?_⟩
    rw [← u1, List.mem_flatten]
    exact ⟨g, hg, by rw [hxl]; simp⟩
  obtain ⟨out, o1, o2⟩ := sequence_exists (l := segs) (f := (fun g : Int × ℚ × Nat => match labelsOf indexes (npdecode g.1.toNat (nIndices dt cols)) with
            | .error e => .error e
            | .ok labels => .ok (⟨labels, by_, g.2.1, g.2.2⟩ : OutRow)) ∘ (fun g => ((g.map key).headD 0, meanScore (g.map Prod.snd), g.length)))
    (Q := fun g o => Spec.IsLabels indexes (g.map Prod.fst).headI o.labels ∧ o.by_ = by_ ∧ o.n = g.length ∧ o.score = meanScore (g.map Prod.snd)) (by
    intro g hg
    obtain ⟨x, l, rfl, hxs⟩ := hseg g hg
    have hxR := hmemR x hxs
    obtain ⟨labels, l1, l2⟩ := labelsOf_ok (indexes := indexes) (r := x.1) (by rw [hi]; exact h.width _ hxR) (hl _ hxR)
    refine ⟨⟨labels, by_, meanScore ((x :: l).map Prod.snd), (x :: l).length⟩, ?_, l2, rfl, rfl, rfl⟩
    simp only [Function.comp_apply]
    have : ((x :: l).map key).headD 0 = key x := rfl
    rw [this, show (key x).toNat = encode dt t.bits (nIndices dt cols) x.1 from rfl, hdec _ hxR, l1])
  have hkeyinj : ∀ p ∈ s, ∀ q ∈ s, key p = key q → p.1 = q.1 := by
    intro p hp q hq he
    exact k3 _ (hmemR p hp) _ (hmemR q hq) (Int.ofNat.inj he)
  refine ⟨segs.map (fun g => (g.map Prod.fst).headI), out, o1, ?_, ?_, ?_⟩
  · rw [List.pairwise_map]
    refine List.Pairwise.imp_of_mem ?_ u4
    intro g g' hg hg' hlt
    obtain ⟨x, l, rfl, hxs⟩ := hseg g hg
    obtain ⟨y, l', rfl, hys⟩ := hseg g' hg'
    have := hlt x (by simp) y (by simp)
    exact k4 _ (hmemR x hxs) _ (hmemR y hys) (Int.ofNat_lt.mp this)
  · intro r
    constructor
    · intro hr
      obtain ⟨g, hg, rfl⟩ := List.mem_map.mp hr
      obtain ⟨x, l, rfl, hxs⟩ := hseg g hg
      exact hmemR x hxs
    · intro hr
      obtain ⟨i, hi'⟩ := List.getElem?_of_mem hr
      have hil : i < S.length := by rw [hS]; exact (List.getElem?_eq_some_iff.mp hi').1
      have hp : (r, S[i]) ∈ R.zip S := List.mem_of_getElem? (i := i) (by rw [List.getElem?_zip_eq_some]; exact ⟨hi', List.getElem?_eq_getElem hil⟩)
      have hps := g2.mem_iff.mpr hp
      rw [← u1, List.mem_flatten] at hps
      obtain ⟨g, hg, hpg⟩ := hps
      obtain ⟨x, l, rfl, hxs⟩ := hseg g hg
      refine List.mem_map.mpr ⟨x :: l, hg, ?_⟩
      exact hkeyinj x hxs _ (g2.mem_iff.mpr hp) (u3 _ hg x (by simp) _ hpg)
  · rw [List.forall₂_map_left_iff]
    refine forall₂_imp_mem o2 ?_
    intro g hg o ⟨q1, q2, q3, q4⟩
    obtain ⟨x, l, hxl, hxs⟩ := hseg g hg
    have hfil : s.filter (fun p => p.1 == x.1) = g := by
      have := seg_filter u3 u4 g hg x (by rw [hxl]; simp)
      rw [u1] at this
      rw [← this]
      apply List.filter_congr
      intro p hp
      rw [Bool.eq_iff_iff]
      simp only [beq_iff_eq]
      constructor
      · intro he
        show ((encode dt t.bits (nIndices dt cols) p.1 : Nat) : Int) = ((encode dt t.bits (nIndices dt cols) x.1 : Nat) : Int)
        rw [he]
      · exact hkeyinj p hp x hxs
    have hhead : (g.map Prod.fst).headI = x.1 := by rw [hxl]; rfl
    have hperm : ((R.zip S).filter (fun p => p.1 == x.1)).Perm g := by
      rw [← hfil]
      exact (g2.symm.filter _)
    have hcount : R.count x.1 = ((R.zip S).filter (fun p => p.1 == x.1)).length := by
      have : R = (R.zip S).map Prod.fst := by rw [List.map_fst_zip (by omega)]
      conv_lhs => rw [this]
      rw [List.count_eq_countP, List.countP_map, List.countP_eq_length_filter]
      rfl
    have hlen : (Spec.scoresOf R S x.1).length = g.length := by
      unfold Spec.scoresOf
      rw [List.length_map, hperm.length_eq]
    have hsum : (Spec.scoresOf R S x.1).sum = (g.map Prod.snd).sum := by
      unfold Spec.scoresOf
      exact (hperm.map _).sum_eq
    rw [hhead] at q1 ⊢
    refine ⟨q1, q2, ?_, ?_, ?_⟩
    · rw [q3, hcount, hperm.length_eq]
    · rw [q3, hlen]
    · rw [q4, hsum, q3]
      unfold meanScore
      rw [List.length_map]

/-- C20: the counts of a level add up to the number of its triplets. -/
theorem C20_counts_partial {indexes : List (List Val)} {by_ : List Val} {R : List (List Nat)} {S : List Int} {rows : List (List Nat)} {out : List OutRow}
    (h : Spec.Collapsed indexes by_ R S rows out) : (out.map (·.n)).sum = R.length := by
  have h1 : out.map (·.n) = rows.map (fun r => R.count r) := by
    refine forall₂_map_eq (h.rows.imp ?_)
    intro r o ho
    exact ho.2.2.1
  rw [h1]
  have hnd : rows.Nodup := h.sorted.imp (fun hlt he => by subst he; exact lt_irrefl _ hlt)
  have key : ∀ (rows R : List (List Nat)), rows.Nodup → (∀ r ∈ R, r ∈ rows) → (rows.map (fun r => R.count r)).sum = R.length := by
    intro rows R hnd hm
    induction R with
    | nil => simp
    | cons x R ih =>
      have ih' := ih (fun r hr => hm r (by simp [hr]))
      have hx := hm x (by simp)
      have e : rows.map (fun r => (x :: R).count r) = rows.map (fun r => R.count r + (if x = r then 1 else 0)) := by
        apply List.map_congr_left
        intro r _
        rw [List.count_cons]
        simp
      rw [e]
      have e2 : ∀ l : List (List Nat), (l.map (fun r => R.count r + (if x = r then 1 else 0))).sum = (l.map (fun r => R.count r)).sum + l.count x := by
        intro l
        induction l with
        | nil => simp
        | cons r l ihl =>
          rw [List.map_cons, List.sum_cons, ihl, List.map_cons, List.sum_cons, List.count_cons]
          by_cases hxr : x = r
          · subst hxr; simp; omega
          · have : ¬ (r = x) := fun h => hxr h.symm
            simp [hxr, this]; omega
      rw [e2, ih', List.count_eq_one_of_mem hnd hx, List.length_cons]
  exact key rows R hnd (fun r hr => (h.mem r).mpr hr)

theorem meanScore_err {l : List Int} (hl : ∀ x ∈ l, |x| ≤ 1) : |rnd (rnd ((l.sum : ℚ) / l.length) + 1) / 2 - Spec.meanScore l| ≤ 2 ^ (-52 : ℤ) ∧
    0 ≤ rnd (rnd ((l.sum : ℚ) / l.length) + 1) / 2 ∧ rnd (rnd ((l.sum : ℚ) / l.length) + 1) / 2 ≤ 1 := by
  have hsum : |(l.sum : ℚ)| ≤ l.length := by
    have : |l.sum| ≤ l.length := by
      induction l with
      | nil => simp
      | cons x l ih =>
        rw [List.sum_cons, List.length_cons]
        have h1 := hl x (by simp)
        have h2 := ih (fun y hy => hl y (by simp [hy]))
        rw [abs_le] at h1 h2 ⊢
        push_cast
        omega
    exact_mod_cast this
  have hm : |(l.sum : ℚ) / l.length| ≤ 1 := by
    rw [abs_div, Nat.abs_cast]
    exact div_le_one_of_le₀ hsum (Nat.cast_nonneg _)
  unfold Spec.meanScore
  generalize (l.sum : ℚ) / l.length = m at hm
  have a1 := rnd_err m
  have a2 : |rnd m| ≤ 1 := by
    have := rnd_le (q := m) (k := 0) (by simpa using hm)
    simpa using this
  have a3 := rnd_err (rnd m + 1)
  have a2' := abs_le.mp a2
  have b1 : 0 ≤ rnd m + 1 := by linarith
  have b2 : |rnd m + 1| ≤ 2 := by rw [abs_of_nonneg b1]; linarith
  have b3 : |rnd (rnd m + 1)| ≤ 2 := by
    have := rnd_le (q := rnd m + 1) (k := 1) (by simpa using b2)
    simpa using this
  have b4 := rnd_nonneg b1
  rw [abs_of_nonneg b4] at b3
  have hp : (0 : ℚ) < 2 ^ (-53 : ℤ) := two_zpow_pos _
  have hp2 : (2 : ℚ) ^ (-52 : ℤ) = 2 * 2 ^ (-53 : ℤ) := by
    rw [show (-52 : ℤ) = 1 + -53 by norm_num, zpow_add₀ (by norm_num), zpow_one]
  refine ⟨?_, by linarith, by linarith⟩
  have c1 : |rnd m - m| ≤ 2 ^ (-53 : ℤ) := a1.trans (by
    calc |m| * 2 ^ (-53 : ℤ) ≤ 1 * 2 ^ (-53 : ℤ) := mul_le_mul_of_nonneg_right hm hp.le
      _ = _ := one_mul _)
  have c2 : |rnd (rnd m + 1) - (rnd m + 1)| ≤ 2 * 2 ^ (-53 : ℤ) := a3.trans (mul_le_mul_of_nonneg_right b2 hp.le)
  rw [abs_le] at c1 c2 ⊢
  rw [hp2]
  clear a1 a3 hp2
  generalize (2 : ℚ) ^ (-53 : ℤ) = ε at c1 c2 hp
  constructor <;> linarith [c1.1, c1.2, c2.1, c2.2]

/-- C20, C21: with scores between -1 and 1, the score of a row is within 2^-52 of (mean + 1) / 2, and between 0 and 1. -/
theorem C21_range {indexes : List (List Val)} {by_ : List Val} {R : List (List Nat)} {S : List Int} {rows : List (List Nat)} {out : List OutRow}
    (h : Spec.Collapsed indexes by_ R S rows out) (hS : ∀ x ∈ S, |x| ≤ 1) :
    List.Forall₂ (fun r (o : OutRow) => 0 ≤ o.score ∧ o.score ≤ 1 ∧ |o.score - Spec.meanScore (Spec.scoresOf R S r)| ≤ 2 ^ (-52 : ℤ)) rows out := by
  refine h.rows.imp ?_
  intro r o ⟨_, _, _, h4, h5⟩
  have hl : ∀ x ∈ Spec.scoresOf R S r, |x| ≤ 1 := by
    intro x hx
    obtain ⟨p, hp, rfl⟩ := List.mem_map.mp hx
    exact hS _ (List.of_mem_zip (List.mem_filter.mp hp).1).2
  have := meanScore_err hl
  rw [← h4, ← h5] at this
  exact ⟨this.2.1, this.2.2, this.1⟩

theorem Spec.Collapsed.unique {indexes : List (List Val)} {by_ : List Val} {R R' : List (List Nat)} {S S' : List Int} {rows rows' : List (List Nat)} {out out' : List OutRow}
    (hw : ∀ r ∈ R, r.length = indexes.length) (hp : (R'.zip S').Perm (R.zip S)) (hS : S.length = R.length) (hS' : S'.length = R'.length)
    (h : Spec.Collapsed indexes by_ R S rows out) (h' : Spec.Collapsed indexes by_ R' S' rows' out') : out' = out := by
  have hR : R'.Perm R := by
    have := hp.map Prod.fst
    rwa [List.map_fst_zip (by omega), List.map_fst_zip (by omega)] at this
  have hrows : rows' = rows := by
    apply List.Perm.eq_of_pairwise (le := (· < ·)) (fun a b _ _ h1 h2 => (lt_asymm h1 h2).elim) h'.sorted h.sorted
    rw [List.perm_ext_iff_of_nodup (h'.sorted.imp (fun hlt he => by subst he; exact lt_irrefl _ hlt)) (h.sorted.imp (fun hlt he => by subst he; exact lt_irrefl _ hlt))]
    intro r
    rw [h.mem, h'.mem, hR.mem_iff]
  subst hrows
  have hs : ∀ r, (Spec.scoresOf R' S' r).Perm (Spec.scoresOf R S r) := fun r => (hp.filter _).map _
  apply List.ext_getElem?
  intro i
  by_cases hi : i < rows'.length
  · obtain ⟨o, ho, a1, a2, a3, a4, a5⟩ := Distances.forall₂_getElem h.rows (List.getElem?_eq_getElem hi)
    obtain ⟨o', ho', b1, b2, b3, b4, b5⟩ := Distances.forall₂_getElem h'.rows (List.getElem?_eq_getElem hi)
    rw [ho, ho']
    congr 1
    have hn : o'.n = o.n := by rw [a3, b3, hR.count_eq]
    have hsc : o'.score = o.score := by rw [a5, b5, hn, (hs _).sum_eq]
    have hr : rows'[i] ∈ R := (h.mem _).mp (List.getElem_mem hi)
    have hlab : o'.labels = o.labels := by
      apply List.ext_getElem?
      intro j
      by_cases hj : j < indexes.length
      · have hjr : j < rows'[i].length := by rw [hw _ hr]; exact hj
        rw [a1.2 j _ _ (List.getElem?_eq_getElem hj) (List.getElem?_eq_getElem hjr), b1.2 j _ _ (List.getElem?_eq_getElem hj) (List.getElem?_eq_getElem hjr)]
      · rw [List.getElem?_eq_none (by rw [b1.1]; omega), List.getElem?_eq_none (by rw [a1.1]; omega)]
    cases o
    cases o'
    simp_all
  · rw [List.getElem?_eq_none (by rw [← h'.rows.length_eq]; omega), List.getElem?_eq_none (by rw [← h.rows.length_eq]; omega)]

/-- C21: permuting the triplets of a level, with their regressors and scores, leaves the rows of the csv file unchanged, whatever the argsorts. -/
theorem C21_order_partial {argsort argsort' : List Int → List Nat} (hs : ArgsortLaw argsort) (hs' : ArgsortLaw argsort') {cols R cols' R' : List (List Nat)} (h : Spec.Table cols R) (h' : Spec.Table cols' R')
    (hcl : cols'.length = cols.length) {dt : Nat} (hd : 1 ≤ dt) (hx : ∀ r ∈ R, ∀ x ∈ r, x + 1 < 2 ^ dt) (hc : Spec.combinations cols ≤ 2 ^ 53) (hc' : Spec.combinations cols' ≤ 2 ^ 53)
    {S S' : List Int} (hS : S.length = R.length) (hS' : S'.length = R'.length) {indexes : List (List Val)} (hi : indexes.length = cols.length)
    (hl : ∀ r ∈ R, ∀ (j : Nat) (ix : List Val) (x : Nat), indexes[j]? = some ix → r[j]? = some x → x < ix.length) (by_ : List Val) (hp : (R'.zip S').Perm (R.zip S)) :
    ∃ out, collapseLevel argsort dt indexes by_ cols S = .ok out ∧ collapseLevel argsort' dt indexes by_ cols' S' = .ok out := by
  have hR : R'.Perm R := by
    have := hp.map Prod.fst
    rwa [List.map_fst_zip (by omega), List.map_fst_zip (by omega)] at this
  obtain ⟨rows, out, h1, h2⟩ := C20_rows_partial hs h hd hx hc hS hi hl by_
  obtain ⟨rows', out', h1', h2'⟩ := C20_rows_partial hs' h' hd (fun r hr => hx r (hR.mem_iff.mp hr)) hc' hS' (hi.trans hcl.symm) (fun r hr => hl r (hR.mem_iff.mp hr)) by_
  have := Spec.Collapsed.unique (fun r hr => (h.width r hr).trans hi.symm) hp hS hS' h2 h2'
  subst this
  exact ⟨_, h1, h1'⟩

#print axioms C19_keys_partial
#print axioms C19_roundtrip_partial
#print axioms C20_rows_partial
#print axioms C20_counts_partial
#print axioms C21_range
#print axioms C21_order_partial

end ABX.Analyze
