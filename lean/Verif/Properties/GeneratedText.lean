import Verif.Properties.ItemText
import Verif.Properties.FullRun
import Verif.Properties.Items
/-!
C97 and C92: the generated item files (ABXpy/misc/items.py) from the text that is written to the text that is read.
-/
namespace ABX.ReadCsv
open Database ReadCsv.Spec Database.Spec SideOps Items
variable {φ δ : Type}

namespace Spec
/-- the value of a word: an integer if it is made of digits, else a text -/
def wordValue (w : Text) : Val := if w ≠ [] ∧ w.all Char.isDigit = true then .int (decimal w) else .str (String.ofList w)

/-- one text, under one name -/
def oneText (name t : Text) : Text → Option Text := fun f => if f = name then some t else none
end Spec

/-! ### writing and reading -/

theorem line_join : ∀ {ws : List Text}, ws ≠ [] → (∀ w ∈ ws, Word w) → LineOf ws (Database.join ws)
  | [], h, _ => absurd rfl h
  | [w], _, h => .one (h w (by simp))
  | w :: v :: ws, _, h => by
    have := LineOf.more (h w (by simp)) (b := [' ']) (by simp) (by simp) (line_join (ws := v :: ws) (by simp) (fun u hu => h u (by simp [List.mem_cons.mp hu])))
    simpa [Database.join] using this

/-- C97: a table of words that is written with one blank between the words and one end of line after each row is read again as it is. -/
theorem C97_render : ∀ {rows : List (List Text)}, (∀ r ∈ rows, r ≠ [] ∧ ∀ w ∈ r, Word w) → TextOf rows (Items.render rows)
  | [], _ => .nil (fun c hc => by cases hc)
  | r :: rows, h => by
    have h1 := h r (by simp)
    have := TextOf.line (p := []) (q := []) (e := '\n') (by simp) (line_join h1.1 h1.2) (by simp) (.inl rfl) (C97_render (rows := rows) (fun r hr => h r (List.mem_cons_of_mem _ hr)))
    simpa [Items.render] using this

/-! ### tables of which each column has only digits or only plain words -/

theorem plain_not_digits {w : Text} (h : Plain w) : ¬ (w ≠ [] ∧ w.all Char.isDigit = true) := by
  rintro ⟨h1, h2⟩
  cases w with
  | nil => exact h1 rfl
  | cons x t =>
    rw [List.all_cons, Bool.and_eq_true] at h2
    exact h.1 (.inl ⟨x, t, rfl, digit_cases h2.1⟩)

/-- C97: a table in which each column has only words of digits, or only plain words, is read with the values of its words. -/
theorem C97_values {c : Conv Val} (hc : Lawful c) {header : List Text} {rows : List (List Text)} {t : Text} (h : TextOf (header :: rows) t) (hl : ∀ r ∈ rows, r.length = header.length)
    (hcol : ∀ i < header.length, (∀ j w, WordAt rows j i w → Digits w) ∨ ∀ j w, WordAt rows j i w → Plain w) :
    (tableOf c header rows).rows = rows.map (fun r => r.map (fun w => some (wordValue w))) := by
  apply List.ext_getElem?
  intro j
  by_cases hj : j < rows.length
  · have hlj := hl _ (List.getElem_mem hj)
    have e := tableRows_row c (n := header.length) (k := 0) hj
    rw [List.getElem?_map, List.getElem?_eq_getElem hj, Option.map_some]
    rw [show (tableOf c header rows).rows = tableRows c header.length 0 rows from rfl, e]
    congr 1
    apply List.ext_getElem?
    intro i
    rw [List.getElem?_map, List.getElem?_map]
    by_cases hi : i < header.length
    · rw [List.getElem?_range hi, List.getElem?_eq_getElem (by omega), Option.map_some, Option.map_some]
      congr 1
      have hw : WordAt rows j i (rows[j][i]'(by omega)) := ⟨rows[j], List.getElem?_eq_getElem hj, List.getElem?_eq_getElem _⟩
      have hf := tableRows_field c hj e hi
      have hr : (tableOf c header rows).rows[j]? = some _ := e
      rw [← hf]
      rcases hcol i hi with hd | hp
      · rw [C97_digits hc h hi (fun r hr => by rw [hl r hr]; exact hi) hd hw hr]
        have hd := hd j _ hw
        rw [wordValue, if_pos ⟨hd.1, List.all_eq_true.mpr hd.2⟩]
      · have hpw := hp j _ hw
        rw [C97_plain_partial hc h hi ⟨j, _, hw, hpw⟩ hw hr, if_neg hpw.2.1, wordValue, if_neg (plain_not_digits hpw)]
    · rw [List.getElem?_eq_none (by simpa using hi), List.getElem?_eq_none (by omega)]
      rfl
  · rw [List.getElem?_eq_none (by rw [show (tableOf c header rows).rows = tableRows c header.length 0 rows from rfl, tableRows_length]; omega), List.getElem?_eq_none (by simpa using hj)]

/-! ### the generated files -/

theorem digits_str (m : Nat) : Digits (str m) := ⟨str_ne m, fun _ h => str_digit h⟩

theorem plain_letter {x d : Char} {u : Text} (hx : x.isAlpha = true) (hd : d.isDigit = true) : Plain (x :: d :: u) := by
  have hdl : ∀ c : Char, c.isDigit = false → d ≠ c := by rintro c hc rfl; rw [hc] at hd; cases hd
  have hlow : d.toLower = d := by
    unfold Char.toLower
    rw [dif_neg]
    intro hb
    have h1 := Char.isDigit_iff_toNat.mp hd
    have h2 := hb.1
    have h3 : (65 : Nat) ≤ d.toNat := by simpa using UInt32.le_iff_toNat_le.mp h2
    have : d.toNat ≤ 57 := h1.2
    omega
  have key : ∀ s : String, String.ofList (x :: d :: u) = s → x :: d :: u = s.toList := by intro s h; rw [← h]; simp
  have hxn : ∀ c : Char, c.isAlpha = false → x ≠ c := by rintro c hc rfl; rw [hc] at hx; cases hx
  refine ⟨?_, ?_, ?_⟩
  · rintro (⟨y, v, e, hy⟩ | h)
    · obtain ⟨rfl, -⟩ := List.cons.inj e
      have : ∀ z ∈ "0123456789+-.".toList, z.isAlpha = false := by decide
      rw [this x hy] at hx
      cases hx
    · rw [List.map_cons, List.map_cons, hlow] at h
      simp at h
      rcases h with h | h | h
      · exact hdl 'n' (by decide) h.2.1
      · exact hdl 'n' (by decide) h.2.1
      · exact hdl 'a' (by decide) h.2.1
  · intro h
    unfold Missing at h
    simp only [List.mem_cons, List.not_mem_nil, or_false] at h
    rcases h with h | h | h | h | h | h | h | h | h | h | h | h | h | h | h <;>
      have h := key _ h <;> simp at h
    · exact hdl 'A' (by decide) h.2.1
    · exact hdl '/' (by decide) h.2.1
    · exact hdl '/' (by decide) h.2.1
    · exact hdl 'N' (by decide) h.2.1
    · exact hdl 'N' (by decide) h.2.1
    · exact hdl 'U' (by decide) h.2.1
    · exact hdl 'u' (by decide) h.2.1
    · exact hdl 'a' (by decide) h.2.1
    · exact hdl 'a' (by decide) h.2.1
    · exact hdl 'N' (by decide) h.2.1
    · exact hdl 'n' (by decide) h.2.1
    · exact hxn '1' (by decide) h.1
    · exact hxn '-' (by decide) h.1
    · exact hxn '1' (by decide) h.1
    · exact hxn '-' (by decide) h.1
  · intro h
    unfold Boolean at h
    simp only [List.mem_cons, List.not_mem_nil, or_false] at h
    rcases h with h | h | h | h | h | h <;> have h := key _ h <;> simp at h
    · exact hdl 'r' (by decide) h.2.1
    · exact hdl 'R' (by decide) h.2.1
    · exact hdl 'r' (by decide) h.2.1
    · exact hdl 'a' (by decide) h.2.1
    · exact hdl 'A' (by decide) h.2.1
    · exact hdl 'a' (by decide) h.2.1

theorem plain_numbered {x : Char} (hx : x.isAlpha = true) (m : Nat) (u : Text) : Plain (x :: (str m ++ u)) := by
  have h1 := str_ne m
  have h2 : ∀ c ∈ str m, c.isDigit = true := fun _ h => str_digit h
  cases hs : str m with
  | nil => exact absurd hs h1
  | cons d v =>
    rw [hs] at h2
    exact plain_letter hx (h2 d (by simp))

theorem space_no {c : Char} (h : c.isDigit = true ∨ c.isAlpha = true ∨ c = '#' ∨ c = '_') : ¬ Space c := by
  intro hs
  have hn : 33 ≤ c.toNat ∧ c.toNat ≤ 122 := by
    rcases h with h | h | rfl | rfl
    · have := Char.isDigit_iff_toNat.mp h
      have h1 : (48 : Nat) ≤ c.toNat := this.1
      have h2 : c.toNat ≤ (57 : Nat) := this.2
      omega
    · unfold Char.isAlpha Char.isUpper Char.isLower at h
      rw [Bool.or_eq_true] at h
      rcases h with h | h <;> simp only [Bool.and_eq_true, decide_eq_true_eq] at h <;>
        have h1 := UInt32.le_iff_toNat_le.mp h.1 <;> have h2 := UInt32.le_iff_toNat_le.mp h.2
      · have h1 : (65 : Nat) ≤ c.toNat := h1
        have h2 : c.toNat ≤ (90 : Nat) := h2
        omega
      · have h1 : (97 : Nat) ≤ c.toNat := h1
        have h2 : c.toNat ≤ (122 : Nat) := h2
        omega
    · decide
    · decide
  unfold Space at hs
  simp only [List.mem_cons, List.not_mem_nil, or_false] at hs
  omega

theorem word_str (m : Nat) : Word (str m) := ⟨str_ne m, fun _ h => space_no (.inl (str_digit h))⟩

theorem word_numbered {x : Char} (hx : x.isAlpha = true) (m : Nat) : Word (x :: str m) :=
  ⟨by simp, fun c hc => by
    rcases List.mem_cons.mp hc with rfl | hc
    · exact space_no (.inr (.inl hx))
    · exact (word_str m).2 c hc⟩

theorem letter_alpha (j : Nat) : (letter j).isAlpha = true := by
  unfold letter
  split <;> rfl

/-- a generated table: its header and a function for the other cells -/
structure Generated (f : Nat → Nat → Text) : Prop where
  head : ∀ j, f 0 j = if j < 4 then head4 (f 0 3) j else 'c' :: str (j - 4)
  fourth : f 0 3 = "#src".toList ∨ f 0 3 = "#item".toList
  word : ∀ i j, Word (f (i + 1) j)
  column : ∀ j, (∀ i, Digits (f (i + 1) j)) ∨ ∀ i, Plain (f (i + 1) j)

theorem generated_plain (base : Nat) : Generated (Items.cell base) := by
  refine ⟨fun j => ?_, .inl rfl, fun i j => ?_, fun j => ?_⟩
  · by_cases h : j < 4 <;> simp [Items.cell, h, head4]
  · unfold Items.cell
    rw [if_neg (by omega)]
    split
    · exact word_numbered (letter_alpha j) _
    · exact word_str _
  · by_cases h : j < 4
    · right
      intro i
      simp only [Items.cell, Nat.add_eq_zero_iff, Nat.one_ne_zero, and_false, if_false, h, if_true, Nat.add_sub_cancel]
      simpa using plain_numbered (letter_alpha j) i []
    · left
      intro i
      simp only [Items.cell, Nat.add_eq_zero_iff, Nat.one_ne_zero, and_false, if_false, h]
      exact digits_str _

theorem generated_named (base : Nat) : Generated (namedCell base) := by
  refine ⟨fun j => ?_, .inr rfl, fun i j => ?_, fun j => ?_⟩
  · by_cases h : j < 4 <;> simp [namedCell, h, head4]
  · unfold namedCell
    rw [if_neg (by omega)]
    split
    · exact word_numbered rfl _
    · split
      · exact word_str 0
      · split
        · exact word_numbered rfl _
        · refine ⟨by simp, fun c hc => ?_⟩
          simp only [List.cons_append, List.mem_cons, List.mem_append] at hc
          rcases hc with rfl | hc | rfl | rfl | hc
          · exact space_no (.inr (.inl rfl))
          · exact (word_str _).2 c hc
          · exact space_no (.inr (.inr (.inr rfl)))
          · exact space_no (.inr (.inl rfl))
          · exact (word_str _).2 c hc
  · by_cases h0 : j = 0
    · subst h0
      right
      intro i
      simpa [namedCell] using plain_numbered (x := 's') rfl i []
    · by_cases h1 : j = 1 ∨ j = 2
      · left
        intro i
        simp only [namedCell, Nat.add_eq_zero_iff, Nat.one_ne_zero, and_false, if_false, h0, h1, if_true]
        exact digits_str 0
      · right
        intro i
        simp only [namedCell, Nat.add_eq_zero_iff, Nat.one_ne_zero, and_false, if_false, h0, h1]
        split
        · simpa using plain_numbered (x := 'i') rfl i []
        · exact plain_numbered rfl _ _

theorem generated_header {f : Nat → Nat → Text} (hf : Generated f) (base n repeats : Nat) :
    ∃ header, table f base n repeats = header :: (table f base n repeats).tail ∧ header.Nodup ∧ header.length = n + 4 ∧ ∀ w ∈ header, Word w := by
  have hc : (table f base n repeats) = (List.range (n + 4)).map (f 0) :: (table f base n repeats).tail := by
    rw [table_tail]
    unfold table
    rw [List.range_succ_eq_map (n := base ^ n * (repeats + 1)), List.map_cons, List.map_map]
    rfl
  refine ⟨_, hc, ?_, by simp, ?_⟩
  · refine List.Nodup.map_on ?_ List.nodup_range
    intro j _ k _ h
    rw [hf.head j, hf.head k] at h
    have h4 : ∀ m, f 0 3 ≠ 'c' :: str m := by
      intro m
      rcases hf.fourth with e | e <;> rw [e] <;> simp
    have hsome : ∀ j < 4, ∀ m, head4 (f 0 3) j ≠ 'c' :: str m := by
      intro j hj m
      match j, hj with
      | 0, _ => simp [head4]
      | 1, _ => simp [head4]
      | 2, _ => simp [head4]
      | 3, _ => simpa [head4] using h4 m
    by_cases hj : j < 4 <;> by_cases hk : k < 4
    · rw [if_pos hj, if_pos hk] at h
      rcases hf.fourth with e | e <;> rw [e] at h <;> (interval_cases j <;> interval_cases k <;> first | rfl | (simp [head4] at h))
    · rw [if_pos hj, if_neg hk] at h
      exact absurd h (hsome j hj _)
    · rw [if_neg hj, if_pos hk] at h
      exact absurd h.symm (hsome k hk _)
    · rw [if_neg hj, if_neg hk] at h
      have := str_inj (List.cons.inj h).2
      omega
  · intro w hw
    obtain ⟨j, -, rfl⟩ := List.mem_map.mp hw
    rw [hf.head j]
    have wordLit : ∀ s : List Char, s ≠ [] → (∀ c ∈ s, c.isAlpha = true ∨ c = '#') → Word s := fun s h1 h2 => ⟨h1, fun c hc => by
      rcases h2 c hc with h | h
      · exact space_no (.inr (.inl h))
      · exact space_no (.inr (.inr (.inl h)))⟩
    split
    · unfold head4
      split
      · exact wordLit _ (by decide) (by decide)
      · exact wordLit _ (by decide) (by decide)
      · exact wordLit _ (by decide) (by decide)
      · rcases hf.fourth with e | e <;> rw [e] <;> exact wordLit _ (by decide) (by decide)
    · exact word_numbered rfl _

theorem generated_read {c : Conv Val} (hc : Lawful c) {f : Nat → Nat → Text} (hf : Generated f) (base n repeats : Nat) :
    readCsv c (Items.render (table f base n repeats)) = .ok ⟨0, rawOf wordValue (table f base n repeats)⟩ := by
  obtain ⟨header, e, hd, hlen, hw⟩ := generated_header hf base n repeats
  have htail := table_tail f base n repeats
  have hrow : ∀ r ∈ (table f base n repeats).tail, ∃ i, r = (List.range (n + 4)).map (f (i + 1)) := by
    rw [htail]
    intro r hr
    obtain ⟨i, -, rfl⟩ := List.mem_map.mp hr
    exact ⟨i, rfl⟩
  have ht : TextOf (header :: (table f base n repeats).tail) (Items.render (table f base n repeats)) := by
    rw [← e]
    apply C97_render
    rw [e]
    intro r hr
    rcases List.mem_cons.mp hr with rfl | hr
    · refine ⟨?_, hw⟩
      rintro rfl
      simp at hlen
    · obtain ⟨i, rfl⟩ := hrow r hr
      refine ⟨by simp, fun w hw => ?_⟩
      obtain ⟨j, -, rfl⟩ := List.mem_map.mp hw
      exact hf.word i j
  have hl : ∀ r ∈ (table f base n repeats).tail, r.length = header.length := by
    intro r hr
    obtain ⟨i, rfl⟩ := hrow r hr
    simp [hlen]
  rw [readCsv_short c ht hd (fun r hr => (hl r hr).le)]
  congr 2
  have hv := C97_values hc ht hl (by
    intro j _
    have key : ∀ k w, WordAt (table f base n repeats).tail k j w → ∃ i, w = f (i + 1) j := by
      rintro k w ⟨row, h1, h2⟩
      obtain ⟨i, rfl⟩ := hrow row (List.mem_of_getElem? h1)
      rw [List.getElem?_map] at h2
      cases hr : (List.range (n + 4))[j]? with
      | none => rw [hr] at h2; cases h2
      | some j' =>
        rw [hr] at h2
        obtain ⟨_, hj'⟩ := List.getElem?_eq_some_iff.mp hr
        rw [List.getElem_range] at hj'
        exact ⟨i, by rw [hj']; exact (Option.some.inj h2).symm⟩
    rcases hf.column j with h | h
    · left
      intro k w hw
      obtain ⟨i, rfl⟩ := key k w hw
      exact h i
    · right
      intro k w hw
      obtain ⟨i, rfl⟩ := key k w hw
      exact h i)
  unfold rawOf
  rw [show (table f base n repeats).headD [] = header by rw [e]; rfl]
  exact congrArg _ hv

theorem filesOf_one {c : Conv Val} {name t : Text} {p : Parsed Val} (h : readCsv c t = .ok p) : filesOf c (oneText name t) = oneFile name p.raw := by
  funext f
  unfold filesOf oneText oneFile
  by_cases hf : f = name
  · rw [if_pos hf, if_pos hf]
    dsimp only
    rw [h]
  · rw [if_neg hf, if_neg hf]

/-- C97: the text of a generated item file is read by pandas with the values of its words: texts for the words that begin with a letter, integers for those of digits.  So what is proved of generated files
(C60, C92-C96) holds of the texts that are written. -/
theorem C97_generated {c : Conv Val} (hc : Lawful c) (name : Text) (base n repeats : Nat) :
    filesOf c (oneText name (Items.render (testitems base n repeats))) = oneFile name (rawOf wordValue (testitems base n repeats)) ∧
    filesOf c (oneText name (Items.render (namedTestitems base n repeats))) = oneFile name (rawOf wordValue (namedTestitems base n repeats)) :=
  ⟨filesOf_one (generated_read hc (generated_plain base) base n repeats), filesOf_one (generated_read hc (generated_named base) base n repeats)⟩

theorem decimal_snoc (t : Text) (x : Char) : decimal (t ++ [x]) = 10 * decimal t + (x.toNat - '0'.toNat : Nat) := by
  unfold decimal
  rw [List.foldl_append]
  rfl

/-- C97: a number is read as it was written. -/
theorem C97_number (m : Nat) : wordValue (str m) = .int m := by
  have hdec : ∀ m, decimal (str m) = m := by
    intro m
    induction m using Nat.strong_induction_on with
    | _ m ih =>
      unfold str at ih ⊢
      have hch : ∀ k < 10, ((Nat.digitChar k).toNat - '0'.toNat : Nat) = k := by decide
      rw [Nat.toDigits_eq_if (by decide)]
      split
      · rename_i h
        unfold decimal
        simp only [List.foldl_cons, List.foldl_nil]
        rw [hch m h]
        omega
      · rw [decimal_snoc, ih (m / 10) (by omega), hch _ (Nat.mod_lt _ (by decide))]
        omega
  rw [wordValue, if_pos ⟨str_ne m, List.all_eq_true.mpr (fun _ h => str_digit h)⟩, hdec]

theorem wordValue_letter {x : Char} (hx : x.isDigit = false) (t : Text) : wordValue (x :: t) = .str (String.ofList (x :: t)) := by
  rw [wordValue, if_neg]
  rintro ⟨-, h⟩
  rw [List.all_cons, hx] at h
  cases h

/-- C60: from the texts of the generated files a task can be created. -/
theorem C60_text {c : Conv Val} (hc : Lawful c) (name : Text) (base n repeats : Nat) (hs : (base ^ n * (repeats + 1)) ^ 3 < 2 ^ 64) {e : Task.Env} (he : e.Lawful)
    (on : String) (across by_ : List String) :
    ((∀ c ∈ on :: across ++ by_, c.toList ∈ "src".toList :: colNames n) →
      ∃ T, fromFile e (filesOf c (oneText (addExt name) (Items.render (testitems base n repeats)))) name on across by_ [] [] = .ok T) ∧
    ((∀ c ∈ on :: across ++ by_, c.toList ∈ "item".toList :: colNames n) →
      ∃ T, fromFile e (filesOf c (oneText (addExt name) (Items.render (namedTestitems base n repeats)))) name on across by_ [] [] = .ok T) := by
  rw [(C97_generated hc _ base n repeats).1, (C97_generated hc _ base n repeats).2]
  exact C60_task wordValue name base n repeats hs he on across by_

section
open ABX.Spec Analyze RegInfo ABX.Names.Spec Items.Spec

/-- C92: the complete run of the example with generated features, from the text of the item file to the text of the results: as in `C92_run_partial`.  Exact real numbers; missing as there. -/
theorem C92_text_partial {cv : Conv Val} (hcv : Lawful cv) {base n repeats : Nat} (name : Text) (hb : 2 ≤ base) (hn : 3 ≤ n) (hN : base ^ n * (repeats + 1) ≤ 3535)
    (hfit : base ^ n * (repeats + 1) ≤ 128 ∨ base ^ n * (repeats + 1) ≤ (base ^ (n - 3) * (repeats + 1)) ^ 3) {e : Task.Env} (he : e.Lawful)
    {kind : DBFun Nat → Kind} (hk : IsColumn e (plainArgs (rawOf wordValue (namedTestitems base n repeats)) 3 ("item".toList :: colNames n) "c0" ["c1"] ["c2"]) kind)
    {c : Pipeline.Choices} (hc : c.Lawful) (hcpu : 0 < c.nCpu) {d : Nat} (first : Nat → Fin d → ℝ) (rest : Nat → List (Fin d → ℝ)) (junk : Nat → Nat → ℝ) (normalized : Bool) :
    ∃ T, fromFile e (filesOf cv (oneText (addExt name) (Items.render (namedTestitems base n repeats)))) name "c0" ["c1"] ["c2"] [] [] = .ok T ∧
      (∃ F S, Pipeline.Ran c e T (itemFeatures (genFeatures ((List.range (base ^ n * (repeats + 1))).map (fun i => first i :: rest i)))) (dtwCosineDistance junk normalized) distLt F S) ∧
      ∀ F S, Pipeline.Ran c e T (itemFeatures (genFeatures ((List.range (base ^ n * (repeats + 1))).map (fun i => first i :: rest i)))) (dtwCosineDistance junk normalized) distLt F S →
        ∃ (f : H5IO.File Val) (vars : List Var) (outs : List (List OutRow)),
        regFile kind ResultFile.groupName e c.num 0 c.src ⟨[], []⟩ T = .ok f ∧ vars.Perm (plainVars "c0" ["c1"]) ∧ (∃ first g, f.groups.lookup first = some g) ∧
        (∀ num : ℚ → Text, (∀ q, Clean (num q)) → ∀ first g, f.groups.lookup first = some g → ∃ t, ResultFile.analyze num c.sortRows f first F.bys F.byIndex S = .ok t ∧
          Reads t ((vars.map (fun v => (extName v).toList) ++ ["by".toList, "score".toList, "n".toList]) :: outs.flatten.map (cells num))) ∧
        outs.flatten.length = base * (base * (base - 1)) ^ 2 ∧ F.bys.Perm ((List.range base).map (fun z => [named 2 z])) ∧
        List.Forall₂ (fun key out => ∃ abx : Line × Line × Line → ℚ,
          (∀ l : Labels, l.Possible ["c1"] → ∀ t ∈ lineGroup (lineLabel [] "item".toList (colNames n)) "c0" ["c1"] (levelLines (rawOf wordValue (namedTestitems base n repeats)) 3 ("item".toList :: colNames n) ["c2"] key) l,
            IsFrameAbx first t (abx t)) ∧
          FullTable base ((base ^ (n - 3) * (repeats + 1)) ^ 3) vars key
            (lineGroup (lineLabel [] "item".toList (colNames n)) "c0" ["c1"] (levelLines (rawOf wordValue (namedTestitems base n repeats)) 3 ("item".toList :: colNames n) ["c2"] key)) abx out) F.bys outs := by
  rw [(C97_generated hcv _ base n repeats).2]
  exact C92_run_partial (parse := wordValue) (fun t => wordValue_letter rfl t) (fun t => wordValue_letter rfl t) (C97_number 0) name hb hn hN hfit he hk hc hcpu first rest junk normalized
end

/-! ### examples -/

/-- C97, example: the text of a generated file and what is read of it -/
example : Items.render (testitems 2 1 0) = "#file onset offset #src c0\ns0 n0 f0 i0 0\ns1 n1 f1 i1 1\n".toList ∧
    rawOf wordValue (testitems 2 1 0) = ⟨["#file".toList, "onset".toList, "offset".toList, "#src".toList, "c0".toList],
      [[some (.str "s0"), some (.str "n0"), some (.str "f0"), some (.str "i0"), some (.int 0)], [some (.str "s1"), some (.str "n1"), some (.str "f1"), some (.str "i1"), some (.int 1)]]⟩ := by
  exact ⟨by decide +kernel, by rfl⟩

/-- the lines of a file of which the second has the label `NA` -/
def rowsNA : List (List Text) := [["f1", "0", "1", "a", "s1"], ["f2", "1", "2", "NA", "s2"], ["f3", "2", "3", "b", "s1"]].map (·.map String.toList)

/-- the header of the file -/
def headerNA : List Text := ["#file", "onset", "offset", "#phone", "talker"].map String.toList

/-- C97, example: no task can be created from an item file in which a label is `NA` -/
example {e : Task.Env} (he : e.Lawful) {c : Conv Val} (hc : Lawful c) :
    fromFile e (filesOf c (oneText (addExt "d".toList) (Items.render (headerNA :: rowsNA)))) "d".toList "phone" ["talker"] [] [] [] = .error .indexError := by
  have hword : ∀ r ∈ headerNA :: rowsNA, r ≠ [] ∧ ∀ w ∈ r, w ≠ [] ∧ ∀ c ∈ w, isSpace c = false := by decide +kernel
  refine C97_violated_missing he hc (by unfold oneText; rw [if_pos rfl]) (C97_render (fun r hr => ⟨(hword r hr).1, fun w hw => ⟨((hword r hr).2 w hw).1, fun c hc => isSpace_false.mp (((hword r hr).2 w hw).2 c hc)⟩⟩))
    (loc := []) (x := "phone".toList) (lab := ["talker".toList]) ?_ (by decide) (by decide) (by decide) ?_ ?_ (by decide) (j := 1) (k := 2) (i := 3) (by decide) (by decide)
    ⟨_, rfl, rfl⟩ (by decide) rfl ?_
  · exact ⟨rfl, by simp, by decide⟩
  · intro y hy
    have : y = "phone".toList ∨ y = "talker".toList := by simpa using hy
    right
    unfold filesOf oneText
    rw [if_neg]
    rcases this with rfl | rfl <;> decide
  · exact ⟨by decide, by decide, by decide, by decide⟩
  · intro i hi w hw hm
    have hi' : i < 5 := (List.getElem?_eq_some_iff.mp hw).1
    obtain rfl | rfl : i = 3 ∨ i = 4 := by simp at hi; omega
    · obtain rfl : "b".toList = w := Option.some.inj hw
      exact absurd hm (by decide)
    · obtain rfl : "s1".toList = w := Option.some.inj hw
      exact absurd hm (by decide)

#print axioms C97_render
#print axioms C97_values
#print axioms C97_generated
#print axioms C97_number
#print axioms C60_text
#print axioms C92_text_partial

end ABX.ReadCsv
