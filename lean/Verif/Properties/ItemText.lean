import Verif.Proofs.ReadCsv
/-!
Property C97: item files as text.
-/
namespace ABX.ReadCsv
open Database ReadCsv.Spec Database.Spec SideOps

namespace Spec
/-- the number that a text of digits writes -/
def decimal (t : Text) : Int := t.foldl (fun n c => 10 * n + (c.toNat - '0'.toNat : Nat)) 0

/-- a text of digits -/
def Digits (t : Text) : Prop := t ≠ [] ∧ ∀ c ∈ t, c.isDigit = true

/-- a text that begins like a number, or one of the words for numbers that are not finite -/
def NumberLike (t : Text) : Prop := (∃ x u, t = x :: u ∧ x ∈ "0123456789+-.".toList) ∨ t.map Char.toLower ∈ ["inf".toList, "infinity".toList, "nan".toList]

/-- what is assumed of the conversion of numbers: digits write integers; a number begins with a digit, a sign, a point, or is one of the words inf, infinity and nan; columns of floats and of integers
have the same numbers -/
structure Lawful (c : Conv Val) : Prop where
  text : ∀ t, c.text t = .str (String.ofList t)
  digits : ∀ t, Digits t → c.num false t = some (.int (decimal t)) ∧ c.isInt t = true
  first : ∀ t, (c.num false t).isSome = true → NumberLike t
  both : ∀ t, (c.num true t).isSome = (c.num false t).isSome

/-- the words that stand for missing values -/
def Missing (w : Text) : Prop := String.ofList w ∈ ["NA", "N/A", "n/a", "#N/A", "#NA", "NULL", "null", "NaN", "nan", "-NaN", "-nan", "1.#IND", "-1.#IND", "1.#QNAN", "-1.#QNAN"]

instance (w : Text) : Decidable (Missing w) := inferInstanceAs (Decidable (String.ofList w ∈ _))

/-- the words that stand for booleans -/
def Boolean (w : Text) : Prop := String.ofList w ∈ ["True", "TRUE", "true", "False", "FALSE", "false"]

/-- a word that begins like no number, and is neither a missing value nor a boolean -/
def Plain (w : Text) : Prop := ¬ NumberLike w ∧ ¬ Missing w ∧ ¬ Boolean w

/-- the word of a line in a column -/
def WordAt (rows : List (List Text)) (j i : Nat) (w : Text) : Prop := ∃ row, rows[j]? = some row ∧ row[i]? = some w
end Spec

theorem naWords_iff {w : Text} (hw : w ≠ []) : naWords.contains w = true ↔ Missing w := by
  have key : ∀ s : String, w = s.toList ↔ String.ofList w = s := by
    intro s
    constructor
    · rintro rfl; simp
    · intro h; rw [← h]; simp
  rw [List.contains_iff_mem]
  unfold naWords Missing
  simp only [List.map_cons, List.map_nil, List.mem_cons, List.not_mem_nil, or_false, key]
  have : String.ofList w ≠ "" := by
    intro h
    rw [← key ""] at h
    exact hw (by simpa using h)
  tauto

theorem boolWord_none {w : Text} (h : ¬ Boolean w) : boolWord w = none := by
  have key : ∀ s : String, w = s.toList ↔ String.ofList w = s := by
    intro s
    constructor
    · rintro rfl; simp
    · intro h; rw [← h]; simp
  unfold Boolean at h
  unfold boolWord
  simp only [List.map_cons, List.map_nil, List.mem_cons, List.not_mem_nil, or_false, key] at h ⊢
  rw [if_neg (by tauto), if_neg (by tauto)]

/-- C97: the fields of a file are its words, whatever the white space between them. -/
theorem C97_words {rows : List (List Text)} {t : Text} (h : TextOf rows t) : fields t = rows := fields_text h

section
variable {c : Conv Val} {texts : Text → Option Text} {f t : Text} {header : List Text} {rows : List (List Text)} {loc : List Text} {x : Text} {lab : List Text}

/-- the table that pandas makes of the lines -/
abbrev tableOf (c : Conv Val) (header : List Text) (rows : List (List Text)) : Raw Val := ⟨header, tableRows c header.length 0 rows⟩

theorem filesOf_text (ht : texts (addExt f) = some t) (h : TextOf (header :: rows) t) (hd : header.Nodup) (hl : ∀ r ∈ rows, r.length ≤ header.length) :
    filesOf c texts (addExt f) = some (tableOf c header rows) ∧ loadText c texts f = load (filesOf c texts) f := by
  have hr := readCsv_short c h hd hl
  have hf : filesOf c texts (addExt f) = some (tableOf c header rows) := by
    unfold filesOf
    rw [ht]
    dsimp only
    rw [hr]
  refine ⟨hf, ?_⟩
  unfold loadText load
  rw [ht]
  dsimp only
  rw [hr, hf]

theorem field_column (h : TextOf (header :: rows) t) {j i : Nat} {w : Text} (hw : WordAt rows j i w) :
    ((rows.map (fun row => cell 0 row i))[j]?).join = if Missing w then none else some w := by
  obtain ⟨row, h1, h2⟩ := hw
  have hne : w ≠ [] := ((text_rows h row (List.mem_cons_of_mem _ (List.mem_of_getElem? h1))).2 w (List.mem_of_getElem? h2)).1
  rw [List.getElem?_map, h1]
  simp only [Option.map_some, Option.join_some]
  unfold cell
  rw [Nat.zero_add, h2]
  by_cases hm : Missing w
  · rw [if_pos hm]
    simpa [Option.filter] using (naWords_iff hne).mpr hm
  · rw [if_neg hm]
    have : naWords.contains w = false := by
      by_contra hx
      exact hm ((naWords_iff hne).mp (by simpa using hx))
    simpa [Option.filter] using this

theorem table_field {j i : Nat} (hi : i < header.length) {r : List (Option Val)} (hr : (tableOf c header rows).rows[j]? = some r) :
    fieldAt r i = ((convert c (rows.map (fun row => cell 0 row i)))[j]?).join := by
  have hj : j < rows.length := by
    have := (List.getElem?_eq_some_iff.mp hr).1
    rwa [tableRows_length] at this
  exact tableRows_field c hj hr hi

/-- C97: a file with the header of an item file, whose names are different, in which no line has more words than the header, is read as an item file with one row per line, so that
what is proved of item files (C15, C54, C61, C84, C93, C94 and others) holds of it. -/
theorem C97_item_file (ht : texts (addExt f) = some t) (h : TextOf (header :: rows) t) (hH : Header header loc x lab) (hd : header.Nodup)
    (hn : ("file".toList :: "onset".toList :: "offset".toList :: loc ++ x :: lab).Nodup) (hl : ∀ r ∈ rows, r.length ≤ header.length) (ha : ∀ y ∈ x :: lab, Alone (filesOf c texts) f y) :
    ItemFile (filesOf c texts) f (tableOf c header rows) loc x lab ∧ (tableOf c header rows).rows.length = rows.length ∧ ∃ L, loadText c texts f = .ok L ∧ load (filesOf c texts) f = .ok L := by
  obtain ⟨h1, h2⟩ := filesOf_text (c := c) ht h hd hl
  have hN : Named (tableOf c header rows).columns := by
    intro y hy
    obtain ⟨g1, g2⟩ := (text_rows h header (by simp)).2 y hy
    exact ⟨g1, fun hb => g2 ' ' hb (by simp [Space])⟩
  refine ⟨⟨h1, hN, hH, hn, ha⟩, tableRows_length _ _ _ _, ?_⟩
  obtain ⟨L, hL⟩ := (C54_accepts _ f h1 hN).mpr ⟨loc, x, lab, hH, ha⟩
  exact ⟨L, h2.trans hL, hL⟩

/-- C97: the words of a column in which some word is plain are labels as they are written (the words for missing values are none). -/
theorem C97_plain_partial (hc : Lawful c) (h : TextOf (header :: rows) t) {i : Nat} (hi : i < header.length) (hp : ∃ j w, WordAt rows j i w ∧ Plain w) {j : Nat} {w : Text} (hw : WordAt rows j i w)
    {r : List (Option Val)} (hr : (tableOf c header rows).rows[j]? = some r) : fieldAt r i = if Missing w then none else some (.str (String.ofList w)) := by
  rw [table_field hi hr]
  have hcol := field_column h hw
  by_cases hm : Missing w
  · rw [if_pos hm] at hcol ⊢
    exact convert_missing c _ hcol
  · rw [if_neg hm] at hcol ⊢
    rw [← hc.text]
    have get : ∀ {j : Nat} {w : Text}, ((rows.map (fun row => cell 0 row i))[j]?).join = some w → (rows.map (fun row => cell 0 row i))[j]? = some (some w) := by
      intro j w hx
      cases h : (rows.map (fun row => cell 0 row i))[j]? with
      | none => rw [h] at hx; cases hx
      | some y => rw [h] at hx; rw [show y = some w from hx]
    obtain ⟨j', w', hw', hp1, hp2, hp3⟩ := hp
    have hcol' := field_column h hw'
    rw [if_neg hp2] at hcol'
    have hmem := List.mem_of_getElem? (get hcol')
    refine convert_words c _ (get hcol) ⟨_, hmem, ?_⟩ ⟨_, hmem, boolWord_none hp3⟩
    cases hnum : c.num false w' with
    | none => rfl
    | some v => exact absurd (hc.first w' (by rw [hnum]; rfl)) hp1

theorem digits_not_missing {w : Text} (h : Digits w) : ¬ Missing w := by
  intro hm
  have key : ∀ s : String, String.ofList w = s → w = s.toList := by intro s h; rw [← h]; simp
  unfold Missing at hm
  simp only [List.mem_cons, List.not_mem_nil, or_false] at hm
  have hd : ∀ s : String, (∃ c ∈ s.toList, c.isDigit = false) → String.ofList w ≠ s := by
    rintro s ⟨c, hc, hf⟩ e
    rw [← key s e] at hc
    rw [h.2 c hc] at hf
    cases hf
  rcases hm with hm | hm | hm | hm | hm | hm | hm | hm | hm | hm | hm | hm | hm | hm | hm <;> exact hd _ (by decide) hm

/-- C97: the words of a column of digits, in which no line is too short, are the numbers that they write. -/
theorem C97_digits (hc : Lawful c) (h : TextOf (header :: rows) t) {i : Nat} (hi : i < header.length) (hlen : ∀ row ∈ rows, i < row.length) (hp : ∀ j w, WordAt rows j i w → Digits w) {j : Nat} {w : Text}
    (hw : WordAt rows j i w) {r : List (Option Val)} (hr : (tableOf c header rows).rows[j]? = some r) : fieldAt r i = some (.int (decimal w)) := by
  rw [table_field hi hr]
  have get : ∀ {j : Nat} {w : Text}, ((rows.map (fun row => cell 0 row i))[j]?).join = some w → (rows.map (fun row => cell 0 row i))[j]? = some (some w) := by
    intro j w hx
    cases h : (rows.map (fun row => cell 0 row i))[j]? with
    | none => rw [h] at hx; cases hx
    | some y => rw [h] at hx; rw [show y = some w from hx]
  have hcol := field_column h hw
  rw [if_neg (digits_not_missing (hp j w hw))] at hcol
  have hall : ∀ y, y ∈ rows.map (fun row => cell 0 row i) → ∃ u, y = some u ∧ Digits u := by
    intro y hy
    obtain ⟨j', hj'⟩ := List.mem_iff_getElem?.mp hy
    obtain ⟨row, h1, rfl⟩ : ∃ row, rows[j']? = some row ∧ cell 0 row i = y := by simpa using hj'
    have hw' : WordAt rows j' i (row[i]'(hlen row (List.mem_of_getElem? h1))) := ⟨row, h1, List.getElem?_eq_getElem _⟩
    have := field_column h hw'
    rw [if_neg (digits_not_missing (hp _ _ hw')), hj'] at this
    exact ⟨_, this, hp _ _ hw'⟩
  rw [convert_numbers c _ (get hcol)]
  · have h1 : (rows.map (fun row => cell 0 row i)).any Option.isNone = false := by
      rw [List.any_eq_false]
      intro y hy
      obtain ⟨u, rfl, -⟩ := hall y hy
      simp
    have h2 : ((rows.map (fun row => cell 0 row i)).filterMap id).all c.isInt = true := by
      rw [List.all_eq_true]
      intro u hu
      obtain ⟨y, hy, hyu⟩ := List.mem_filterMap.mp hu
      obtain rfl : y = some u := hyu
      obtain ⟨u', e, hd⟩ := hall _ hy
      obtain rfl := Option.some.inj e
      exact (hc.digits u hd).2
    rw [h1, h2]
    exact (hc.digits w (hp j w hw)).1
  · intro u hu
    obtain ⟨u', e, hd⟩ := hall _ hu
    obtain rfl := Option.some.inj e
    rw [(hc.digits u hd).1]
    rfl

/-- C97: the lines that are loaded are those in which each label column has a word that does not stand for a missing value; the others are dropped. -/
theorem C97_loaded (hc : Lawful c) (ht : texts (addExt f) = some t) (h : TextOf (header :: rows) t) (hH : Header header loc x lab) (hd : header.Nodup)
    (hn : ("file".toList :: "onset".toList :: "offset".toList :: loc ++ x :: lab).Nodup) (hl : ∀ r ∈ rows, r.length ≤ header.length) {L : Loaded Val} (hL : loadText c texts f = .ok L) (j : Nat) :
    (j ∈ L.db.rows.map (·.1) ↔ ∃ row, rows[j]? = some row ∧ row.length = header.length ∧ ∀ i, 3 + loc.length ≤ i → ∀ w, row[i]? = some w → ¬ Missing w) ∧
    L.feat.rows.map (·.1) = L.db.rows.map (·.1) := by
  obtain ⟨h1, h2⟩ := filesOf_text (c := c) ht h hd hl
  have hN : Named (tableOf c header rows).columns := by
    intro y hy
    obtain ⟨g1, g2⟩ := (text_rows h header (by simp)).2 y hy
    exact ⟨g1, fun hb => g2 ' ' hb (by simp [Space])⟩
  rw [h2] at hL
  obtain ⟨-, -, -, h3, h4⟩ := C54_tables_partial h1 hN hH hn hL
  have hlen : header.length = 3 + loc.length + (lab.length + 1) := by rw [hH.eq]; simp; omega
  refine ⟨?_, by rw [h3, h4, List.map_map, List.map_map]; rfl⟩
  rw [h4, List.map_map, List.mem_map]
  have some_iff : ∀ {r : List (Option Val)} {row : List Text}, (tableOf c header rows).rows[j]? = some r → rows[j]? = some row → ∀ i < header.length, ((fieldAt r i).isSome = true ↔ ∃ w, row[i]? = some w ∧ ¬ Missing w) := by
    intro r row hr hrow i hi
    rw [table_field hi hr, convert_isSome c hc.both]
    cases hw : row[i]? with
    | none =>
      rw [List.getElem?_map, hrow]
      simp [cell, hw]
    | some w =>
      rw [field_column h ⟨row, hrow, hw⟩]
      by_cases hm : Missing w <;> simp [hm]
  constructor
  · rintro ⟨⟨r, j'⟩, hp, rfl⟩
    dsimp only [Function.comp] at *
    obtain ⟨hz, hall⟩ := List.mem_filter.mp hp
    have hr : (tableOf c header rows).rows[j']? = some r := List.mem_zipIdx_iff_getElem?.mp hz
    have hj : j' < rows.length := by
      have := (List.getElem?_eq_some_iff.mp hr).1
      rwa [tableRows_length] at this
    have hrow : rows[j']? = some rows[j'] := List.getElem?_eq_getElem hj
    rw [List.all_eq_true] at hall
    have hw : ∀ i, 3 + loc.length ≤ i → i < header.length → ∃ w, rows[j'][i]? = some w ∧ ¬ Missing w := fun i h1 h2 =>
      (some_iff hr hrow i h2).mp (hall i (List.mem_range'_1.mpr ⟨h1, by simp only; omega⟩))
    refine ⟨_, hrow, ?_, ?_⟩
    · have h1 := hl _ (List.getElem_mem hj)
      obtain ⟨w, hw, -⟩ := hw (header.length - 1) (by omega) (by omega)
      have := (List.getElem?_eq_some_iff.mp hw).1
      omega
    · intro i hi w hwi
      have h1 := hl _ (List.getElem_mem hj)
      have h2 := (List.getElem?_eq_some_iff.mp hwi).1
      obtain ⟨w', hw', hm⟩ := hw i hi (by omega)
      rw [hwi] at hw'
      obtain rfl := Option.some.inj hw'
      exact hm
  · rintro ⟨row, hrow, hlr, hmiss⟩
    have hj : j < (tableOf c header rows).rows.length := by
      rw [tableRows_length]; exact (List.getElem?_eq_some_iff.mp hrow).1
    refine ⟨((tableOf c header rows).rows[j], j), List.mem_filter.mpr ⟨List.mem_zipIdx_iff_getElem?.mpr (List.getElem?_eq_getElem hj), ?_⟩, rfl⟩
    rw [List.all_eq_true]
    intro i hi
    obtain ⟨hi1, hi2⟩ := List.mem_range'_1.mp hi
    have hi3 : i < header.length := by simp only at hi2; omega
    refine (some_iff (List.getElem?_eq_getElem hj) hrow i hi3).mpr ⟨row[i], List.getElem?_eq_getElem (by omega), hmiss i hi1 _ (List.getElem?_eq_getElem (by omega))⟩

/-- C97 is false of words that stand for missing values: if a label of a line is such a word and all labels of a later line are others then no task can be created without filters, the creation raises IndexError. -/
theorem C97_violated_missing {e : Task.Env} (he : e.Lawful) (hc : Lawful c) (ht : texts (addExt f) = some t) (h : TextOf (header :: rows) t) (hH : Header header loc x lab) (hd : header.Nodup)
    (hn : ("file".toList :: "onset".toList :: "offset".toList :: loc ++ x :: lab).Nodup) (hl : ∀ r ∈ rows, r.length = header.length) (ha : ∀ y ∈ x :: lab, Alone (filesOf c texts) f y)
    {on : String} {across by_ : List String} (hC : Columns (x :: lab) on across by_) (hs : rows.length ^ 3 < 2 ^ 64)
    {j k i : Nat} (hjk : j < k) {w : Text} (hi : 3 + loc.length ≤ i) (hw : WordAt rows j i w) (hm : Missing w) {row : List Text} (hk : rows[k]? = some row) (hrow : ∀ i, 3 + loc.length ≤ i → ∀ w, row[i]? = some w → ¬ Missing w) :
    fromFile e (filesOf c texts) f on across by_ [] [] = .error .indexError := by
  have hl' : ∀ r ∈ rows, r.length ≤ header.length := fun r hr => (hl r hr).le
  obtain ⟨hI, hlen, L, hL, hL'⟩ := C97_item_file (c := c) ht h hH hd hn hl' ha
  refine C15_gap_violated he hI hC ⟨by simp, by simp, by simp, by simp⟩ (by simp) (by rw [hlen]; exact hs) ?_
  intro hgap
  have key := fun j => (C97_loaded hc ht h hH hd hn hl' hL j).1
  obtain ⟨-, -, -, -, h4⟩ := C54_tables_partial hI.file hI.named hI.header hI.distinct hL'
  have hmap : L.db.rows.map (·.1) = (complete (tableOf c header rows) (3 + loc.length)).map (·.2) := by rw [h4, List.map_map]; rfl
  rw [hmap, hgap] at key
  simp only [List.mem_range] at key
  have hk' := (key k).mpr ⟨row, hk, hl row (List.mem_of_getElem? hk), hrow⟩
  obtain ⟨row', h1, -, h3⟩ := (key j).mp (by omega)
  obtain ⟨row'', g1, g2⟩ := hw
  rw [h1] at g1
  obtain rfl := Option.some.inj g1
  exact h3 i hi w g2 hm

/-- C97 is false of columns of numbers: different words become the same label if they write the same number. -/
theorem C97_violated_numbers (hc : Lawful c) (h : TextOf (header :: rows) t) {i : Nat} (hi : i < header.length) (hlen : ∀ row ∈ rows, i < row.length) (hp : ∀ j w, WordAt rows j i w → Digits w)
    {j k : Nat} {w u : Text} (hw : WordAt rows j i w) (hu : WordAt rows k i u) (hwu : decimal w = decimal u) {r r' : List (Option Val)} (hr : (tableOf c header rows).rows[j]? = some r)
    (hr' : (tableOf c header rows).rows[k]? = some r') : fieldAt r i = fieldAt r' i := by
  rw [C97_digits hc h hi hlen hp hw hr, C97_digits hc h hi hlen hp hu hr', hwu]

/-- C97: if all lines have the same number of words, more than the header, then the first words of all lines are left out, and the file is read as if each column had the words that belong to a later one. -/
theorem C97_longer {β : Type} (c : Conv β) (h : TextOf (header :: rows) t) (hd : header.Nodup) (hne : rows ≠ []) {k : Nat} (hk : 0 < k) (hl : ∀ r ∈ rows, r.length = header.length + k) :
    ∃ p, readCsv c t = .ok p ∧ p.index = k ∧ p.raw.columns = header ∧ p.raw.rows.length = rows.length ∧
      ∀ (j : Nat) (r : List (Option β)), p.raw.rows[j]? = some r → ∀ i < header.length, fieldAt r i = ((convert c (rows.map (fun row => (row[k + i]?).filter (fun t => !naWords.contains t))))[j]?).join := by
  have hn : 0 < header.length := List.length_pos_of_ne_nil (text_rows h header (by simp)).1
  refine ⟨⟨k, header, tableRows c header.length k rows⟩, ?_, rfl, rfl, tableRows_length _ _ _ _, ?_⟩
  · unfold readCsv
    rw [fields_text h]
    dsimp only
    rw [indexOf_long hk hne hl (by omega)]
    dsimp only
    rw [if_neg, dedupe_nodup _ _ hd (by simp)]
    · rfl
    · simp only [List.any_eq_true, decide_eq_true_eq, not_exists, not_and, not_lt]
      intro r hr
      rw [hl r hr]
  · intro j r hr i hi
    have hj : j < rows.length := by
      have := (List.getElem?_eq_some_iff.mp hr).1
      rwa [tableRows_length] at this
    exact tableRows_field c hj hr hi

/-- C97: if the first line has as many words as the header and another line has more, the file is refused with a ValueError.  (But not if the second line has twice as many words.) -/
theorem C97_refused (c : Conv Val) (ht : texts (addExt f) = some t) {first : List Text} (h : TextOf (header :: first :: rows) t) (hf : first.length = header.length)
    (hs : ∀ second, rows.head? = some second → second.length ≠ 2 * header.length) (hl : ∃ r ∈ rows, header.length < r.length) : loadText c texts f = .error .valueError := by
  have hr : readCsv c t = .error .valueError := by
    unfold readCsv
    rw [fields_text h]
    dsimp only
    have hi : indexOf header.length (first :: rows) = (0, first :: rows) := by
      cases rows with
      | nil => simp [indexOf, hf]
      | cons second rest =>
        have := hs second rfl
        rw [indexOf, if_neg (by omega), hf, Nat.sub_self]
    rw [hi]
    dsimp only
    rw [if_pos]
    obtain ⟨r, hr, hlt⟩ := hl
    exact List.any_eq_true.mpr ⟨r, List.mem_cons_of_mem _ hr, by simpa using hlt⟩
  unfold loadText
  rw [ht]
  dsimp only
  rw [hr]
end

/-! ### examples -/

/-- a conversion that knows only integers without sign -/
def conv0 : Conv Val where
  isInt t := decide (t ≠ []) && t.all Char.isDigit
  num _ t := if t ≠ [] ∧ t.all Char.isDigit then some (.int (decimal t)) else none
  bool b := .int (if b then 1 else 0)
  text t := .str (String.ofList t)

theorem digit_cases {x : Char} (h : x.isDigit = true) : x ∈ "0123456789+-.".toList := by
  have hd' : 48 ≤ x.toNat ∧ x.toNat ≤ 57 := by
    unfold Char.isDigit at h
    rw [Bool.and_eq_true, decide_eq_true_eq, decide_eq_true_eq] at h
    exact ⟨UInt32.le_iff_toNat_le.mp h.1, UInt32.le_iff_toNat_le.mp h.2⟩
  obtain ⟨n, hn, rfl⟩ : ∃ n, n < 10 ∧ x = Char.ofNat (48 + n) := ⟨x.toNat - 48, by omega, by rw [Nat.add_sub_cancel' hd'.1]; exact (Char.ofNat_toNat x).symm⟩
  have : ∀ n < 10, Char.ofNat (48 + n) ∈ "0123456789+-.".toList := by decide
  exact this n hn

theorem conv0_lawful : Lawful conv0 := by
  refine ⟨fun t => rfl, fun t h => ?_, fun t h => ?_, fun t => rfl⟩
  · have : t.all Char.isDigit = true := List.all_eq_true.mpr h.2
    simp only [conv0, ne_eq, h.1, not_false_eq_true, this, and_self, if_true, decide_true, Bool.and_self]
  · unfold conv0 at h
    dsimp only at h
    split at h
    · rename_i hx
      cases t with
      | nil => exact absurd rfl hx.1
      | cons x t =>
        have := hx.2
        rw [List.all_cons, Bool.and_eq_true] at this
        exact .inl ⟨x, t, rfl, digit_cases this.1⟩
    · cases h

/-- two items with blanks, tabulations and an empty line -/
def text0 (label : String) : Text := ("#file\tonset offset  #phone talker\n\nf1 0 1 " ++ label ++ " s1 \r\nf2 1 2\tb s2\nf3 2 3 a s1").toList

/-- the label rows that are loaded -/
def labels0 (t : Text) : Option (List (List (Option Val))) := match loadText conv0 (fun f => if f = "d.item".toList then some t else none) "d".toList with
  | .ok L => some (L.db.rows.map (·.2))
  | .error _ => none

/-- C97, example: what is loaded of the file, for a usual label and for the label `nan` -/
example : labels0 (text0 "a") = some [[some (.str "a"), some (.str "s1")], [some (.str "b"), some (.str "s2")], [some (.str "a"), some (.str "s1")]] := by decide +kernel
example : labels0 (text0 "nan") = some [[some (.str "b"), some (.str "s2")], [some (.str "a"), some (.str "s1")]] := by decide +kernel

/-- C97, example: the numbers 7 and 07 -/
example : (match readCsv conv0 "#file onset offset #phone\nf1 0 1 7\nf2 1 2 07\n".toList with
      | .ok p => some p.raw.rows
      | .error _ => none) = some [[some (.str "f1"), some (.int 0), some (.int 1), some (.int 7)], [some (.str "f2"), some (.int 1), some (.int 2), some (.int 7)]] := by
  decide +kernel

/-- C97, example: one word more in all lines -/
example : (match readCsv conv0 "#file onset offset #phone\nf1 0 1 a 0\nf2 1 2 b 0\n".toList with
      | .ok p => some (p.index, p.raw.rows)
      | .error _ => none) = some (1, [[some (.int 0), some (.int 1), some (.str "a"), some (.int 0)], [some (.int 1), some (.int 2), some (.str "b"), some (.int 0)]]) := by
  decide +kernel

#print axioms C97_words
#print axioms C97_item_file
#print axioms C97_plain_partial
#print axioms C97_digits
#print axioms C97_loaded
#print axioms C97_violated_missing
#print axioms C97_violated_numbers
#print axioms C97_longer
#print axioms C97_refused

end ABX.ReadCsv
