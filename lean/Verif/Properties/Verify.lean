import Verif.Model.Verify
import Verif.Proofs.Database
/-!
Property C59: what `verify.check` accepts.
-/
namespace ABX.Verify
open Database (Text)

namespace Spec
/-- white space: blank, tab, line feed, carriage return, vertical tab, form feed -/
def Space (c : Char) : Prop := c = ' ' ∨ c = '\t' ∨ c = '\n' ∨ c = '\r' ∨ c = '\x0b' ∨ c = '\x0c'
def Blank (s : Text) : Prop := ∀ c ∈ s, Space c
/-- a word -/
def Word (s : Text) : Prop := s ≠ [] ∧ ∀ c ∈ s, ¬ Space c

/-- `s` is made of the words `ws`, in order, separated by white space, with white space around them -/
inductive Made : Text → List Text → Prop
  | none {s} : Blank s → Made s []
  | one {a w b} : Blank a → Word w → Blank b → Made (a ++ w ++ b) [w]
  | cons {a w b s ws} : Blank a → Word w → Blank b → b ≠ [] → Made s ws → ws ≠ [] → Made (a ++ w ++ b ++ s) (w :: ws)

/-- the lines of a text: their concatenation is the text, each but the last ends with its only end of line, none is empty -/
structure Lines (ls : List Text) (s : Text) : Prop where
  all : ls.flatten = s
  ends : ∀ l ∈ ls.dropLast, ∃ t, l = t ++ ['\n']
  only : ∀ l ∈ ls, l ≠ [] ∧ ∀ t u, l = t ++ '\n' :: u → u = []

/-- the first field of a line of an item file: up to the first blank or the end of the line -/
def firstField (line : Text) : Text := line.takeWhile (fun c => c ≠ ' ' && c ≠ '\t' && c ≠ '\n')

/-- a line without field -/
def Empty (line : Text) : Prop := ∀ c ∈ line, c = ' ' ∨ c = '\t' ∨ c = '\n'

/-- a consistent item file: the header is one that `database.load` accepts (`Database.Spec.Header`) and every line with fields names a file of the
feature file -/
structure Consistent (ls : List Text) (fs : List Text) : Prop where
  header : ∃ h, ls.head? = some h ∧ ∃ cols loc x lab, Made h cols ∧ Database.Spec.Header cols loc x lab
  rows : ∀ l ∈ ls.tail, ¬ Empty l → firstField l ∈ fs
end Spec
open Spec

theorem isSpace_iff (c : Char) : isSpace c = true ↔ Space c := by
  unfold isSpace Space
  simp only [Bool.or_eq_true, decide_eq_true_eq, or_assoc]

theorem wordsAux_blank {b : Text} (hb : Blank b) (s : Text) : wordsAux [] (b ++ s) = wordsAux [] s := by
  induction b with
  | nil => rfl
  | cons c b ih =>
    rw [List.cons_append, wordsAux, if_pos ((isSpace_iff c).mpr (hb c (by simp))), if_pos rfl]
    exact ih (fun c hc => hb c (by simp [hc]))

theorem wordsAux_word {w : Text} (hw : ∀ c ∈ w, ¬ Space c) (acc s : Text) : wordsAux acc (w ++ s) = wordsAux (acc ++ w) s := by
  induction w generalizing acc with
  | nil => simp
  | cons c w ih =>
    rw [List.cons_append, wordsAux, if_neg (fun h => hw c (by simp) ((isSpace_iff c).mp h)), ih (fun c hc => hw c (by simp [hc]))]
    simp

theorem words_of_made {s : Text} {ws : List Text} (h : Made s ws) : words s = ws := by
  unfold words
  induction h with
  | none hb =>
    have := wordsAux_blank hb []
    simp only [List.append_nil] at this
    rw [this]
    rfl
  | @one a w b ha hw hb =>
    rw [List.append_assoc, wordsAux_blank ha, wordsAux_word hw.2, List.nil_append]
    cases b with
    | nil => simp [wordsAux, hw.1]
    | cons c b =>
      rw [wordsAux, if_pos ((isSpace_iff c).mpr (hb c (by simp))), if_neg hw.1]
      have := wordsAux_blank (b := b) (fun c hc => hb c (by simp [hc])) []
      simp only [List.append_nil] at this
      rw [this]
      rfl
  | @cons a w b s ws ha hw hb hne _ _ ih =>
    rw [List.append_assoc, List.append_assoc, wordsAux_blank ha, wordsAux_word hw.2, List.nil_append]
    cases b with
    | nil => exact absurd rfl hne
    | cons c b =>
      rw [List.cons_append, wordsAux, if_pos ((isSpace_iff c).mpr (hb c (by simp))), if_neg hw.1]
      rw [wordsAux_blank (b := b) (fun c hc => hb c (by simp [hc])), ih]

theorem made_prefix {b s : Text} {ws : List Text} (hb : Blank b) (h : Made s ws) : Made (b ++ s) ws := by
  cases h with
  | none hs => exact .none (fun c hc => (List.mem_append.mp hc).elim (hb c) (hs c))
  | @one a w b' ha hw hb' =>
    have := Made.one (a := b ++ a) (fun c hc => (List.mem_append.mp hc).elim (hb c) (ha c)) hw hb'
    simpa using this
  | @cons a w b' s ws ha hw hb' hne hm hws =>
    have := Made.cons (a := b ++ a) (fun c hc => (List.mem_append.mp hc).elim (hb c) (ha c)) hw hb' hne hm hws
    simpa using this

theorem made_words_aux : ∀ (s acc : Text), (∀ c ∈ acc, ¬ Space c) → Made (acc ++ s) (wordsAux acc s)
  | [], acc, h => by
    rw [wordsAux]
    by_cases ha : acc = []
    · rw [if_pos ha, ha]
      exact .none (by intro c hc; simp at hc)
    · rw [if_neg ha]
      have := Made.one (a := []) (b := []) (by intro c hc; simp at hc) ⟨ha, h⟩ (by intro c hc; simp at hc)
      simpa using this
  | c :: cs, acc, h => by
    rw [wordsAux]
    by_cases hc : isSpace c = true
    · rw [if_pos hc]
      have ih := made_words_aux cs [] (by simp)
      have hb : Blank [c] := by intro d hd; rw [List.mem_singleton.mp hd]; exact (isSpace_iff c).mp hc
      by_cases ha : acc = []
      · rw [if_pos ha, ha]
        exact made_prefix (b := [c]) hb ih
      · rw [if_neg ha]
        simp only [List.nil_append] at ih
        by_cases hw : wordsAux [] cs = []
        · rw [hw] at ih ⊢
          have hcs : Blank cs := by
            generalize hg : ([] : List Text) = l at ih
            cases ih with
            | none h => exact h
            | one => cases hg
            | cons => cases hg
          have := Made.one (a := []) (b := c :: cs) (by intro c hc; simp at hc) ⟨ha, h⟩ (by
            intro d hd
            rcases List.mem_cons.mp hd with rfl | hd
            · exact (isSpace_iff _).mp hc
            · exact hcs d hd)
          simpa using this
        · have := Made.cons (a := []) (b := [c]) (by intro c hc; simp at hc) ⟨ha, h⟩ hb (by simp) ih hw
          simpa using this
    · rw [if_neg hc]
      have := made_words_aux cs (acc ++ [c]) (by
        intro d hd
        rcases List.mem_append.mp hd with hd | hd
        · exact h d hd
        · rw [List.mem_singleton.mp hd]; exact fun h => hc ((isSpace_iff c).mpr h))
      simpa using this

/-- the words of a text are the only ones it is made of -/
theorem made_iff (s : Text) (ws : List Text) : Made s ws ↔ words s = ws :=
  ⟨words_of_made, fun h => h ▸ (show Made s (wordsAux [] s) from by simpa using made_words_aux s [] (by simp))⟩

/-- C59, the lines of a text -/
theorem C59_lines : ∀ s : Text, Lines (lines s) s
  | [] => ⟨rfl, by simp [lines], by simp [lines]⟩
  | c :: cs => by
    have ih := C59_lines cs
    unfold lines
    by_cases hc : c = '\n'
    · rw [if_pos hc]
      refine ⟨by simp [ih.all, hc], ?_, ?_⟩
      · intro l hl
        cases hls : lines cs with
        | nil => rw [hls] at hl; simp at hl
        | cons l' ls =>
          rw [hls, List.dropLast_cons_of_ne_nil (by simp)] at hl
          rcases List.mem_cons.mp hl with rfl | hl
          · exact ⟨[], rfl⟩
          · exact ih.ends l (by rw [hls]; exact hl)
      · intro l hl
        rcases List.mem_cons.mp hl with rfl | hl
        · refine ⟨by simp, ?_⟩
          intro t u h
          cases t with
          | nil => simpa using h.symm
          | cons a t => simp at h
        · exact ih.only l hl
    · rw [if_neg hc]
      cases hls : lines cs with
      | nil =>
        have := ih.all
        rw [hls] at this
        simp only [List.flatten_nil] at this
        subst this
        refine ⟨rfl, by simp, ?_⟩
        intro l hl
        rw [List.mem_singleton.mp hl]
        refine ⟨by simp, ?_⟩
        intro t u h
        cases t with
        | nil => simp only [List.nil_append, List.cons.injEq] at h; exact absurd h.1 hc
        | cons a t => simp at h
      | cons l ls =>
        have hall := ih.all
        rw [hls] at hall
        refine ⟨by simpa using hall, ?_, ?_⟩
        · intro l' hl'
          cases ls with
          | nil => simp at hl'
          | cons m ls =>
            rw [List.dropLast_cons_of_ne_nil (by simp)] at hl'
            rcases List.mem_cons.mp hl' with rfl | hl'
            · obtain ⟨t, ht⟩ := ih.ends l (by rw [hls]; simp)
              exact ⟨c :: t, by simp [ht]⟩
            · exact ih.ends l' (by rw [hls, List.dropLast_cons_of_ne_nil (by simp)]; simp [hl'])
        · intro l' hl'
          rcases List.mem_cons.mp hl' with rfl | hl'
          · refine ⟨by simp, ?_⟩
            intro t u h
            cases t with
            | nil => simp only [List.nil_append, List.cons.injEq] at h; exact absurd h.1 hc
            | cons a t =>
              simp only [List.cons_append, List.cons.injEq] at h
              exact (ih.only l (by rw [hls]; simp)).2 t u h.2
          · exact ih.only l' (by rw [hls]; simp [hl'])

theorem checkHeader_iff (cols : List Text) (h : ∀ c ∈ cols, c ≠ []) :
    checkHeader cols = .ok () ↔ ∃ w ws, cols = "#file".toList :: "onset".toList :: "offset".toList :: ('#' :: w) :: ws := by
  unfold checkHeader
  match cols, h with
  | [], _ => simp
  | [_], _ => simp
  | [_, _], _ => simp
  | [_, _, _], _ => simp
  | c0 :: c1 :: c2 :: c3 :: cs, h =>
    simp only
    by_cases h0 : c0 = "#file".toList
    swap
    · rw [if_pos h0]
      simp only [reduceCtorEq, List.cons.injEq, false_iff, not_exists, not_and]
      exact fun w ws h => absurd h h0
    rw [if_neg (not_not.mpr h0)]
    by_cases h1 : c1 = "onset".toList
    swap
    · rw [if_pos h1]
      simp only [reduceCtorEq, List.cons.injEq, false_iff, not_exists, not_and]
      exact fun w ws _ h => absurd h h1
    rw [if_neg (not_not.mpr h1)]
    by_cases h2 : c2 = "offset".toList
    swap
    · rw [if_pos h2]
      simp only [reduceCtorEq, List.cons.injEq, false_iff, not_exists, not_and]
      exact fun w ws _ _ h => absurd h h2
    rw [if_neg (not_not.mpr h2)]
    cases c3 with
    | nil => exact absurd rfl (h [] (by simp))
    | cons c w =>
      simp only
      by_cases h3 : c = '#'
      · simp [h0, h1, h2, h3]
      · rw [if_pos h3]
        simp only [reduceCtorEq, List.cons.injEq, false_iff, not_exists, not_and]
        exact fun w ws _ _ _ h => absurd h.1 h3

theorem checkLines_iff (fs : List Text) : ∀ ls, checkLines fs ls = .ok () ↔ ∀ l ∈ ls, source l ∈ fs
  | [] => by simp [checkLines]
  | l :: ls => by
    unfold checkLines
    by_cases h : source l ∈ fs
    · rw [if_pos (by simpa using h), checkLines_iff fs ls]
      simp [h]
    · rw [if_neg (by simpa using h)]
      simp [h]

theorem source_iff (line src : Text) : source line = src ↔ ' ' ∉ src ∧ (line = src ∨ ∃ t, line = src ++ ' ' :: t) := by
  unfold source
  induction line generalizing src with
  | nil =>
    simp only [List.takeWhile_nil]
    constructor
    · rintro rfl; simp
    · rintro ⟨-, h | ⟨t, h⟩⟩
      · exact h
      · simp at h
  | cons c cs ih =>
    by_cases hc : c = ' '
    · subst hc
      simp only [ne_eq, not_true_eq_false, decide_false, Bool.false_eq_true, not_false_eq_true, List.takeWhile_cons_of_neg]
      constructor
      · rintro rfl; simp
      · rintro ⟨h1, h | ⟨t, h⟩⟩
        · rw [← h] at h1; simp at h1
        · cases src with
          | nil => rfl
          | cons a s => simp only [List.cons_append, List.cons.injEq] at h; rw [← h.1] at h1; simp at h1
    · rw [List.takeWhile_cons_of_pos (by simpa using hc)]
      constructor
      · rintro rfl
        obtain ⟨h1, h2⟩ := (ih _).mp rfl
        refine ⟨?_, ?_⟩
        · intro hm
          rcases List.mem_cons.mp hm with h | h
          · exact hc h.symm
          · exact h1 h
        · rcases h2 with h2 | ⟨t, h2⟩
          · exact Or.inl (by rw [← h2])
          · exact Or.inr ⟨t, by rw [List.cons_append, ← h2]⟩
      · rintro ⟨h1, h2⟩
        cases src with
        | nil =>
          rcases h2 with h2 | ⟨t, h2⟩
          · simp at h2
          · simp only [List.nil_append, List.cons.injEq] at h2; exact absurd h2.1 hc
        | cons a s =>
          simp only [List.mem_cons, not_or] at h1
          have hcs : c = a ∧ (cs = s ∨ ∃ t, cs = s ++ ' ' :: t) := by
            rcases h2 with h2 | ⟨t, h2⟩
            · simp only [List.cons.injEq] at h2; exact ⟨h2.1, Or.inl h2.2⟩
            · simp only [List.cons_append, List.cons.injEq] at h2; exact ⟨h2.1, Or.inr ⟨t, h2.2⟩⟩
          rw [(ih s).mpr ⟨h1.2, hcs.2⟩, hcs.1]

theorem words_ne (s : Text) : ∀ c ∈ words s, c ≠ [] := by
  have h := (made_iff s (words s)).mpr rfl
  generalize words s = ws at h
  induction h with
  | none => simp
  | one _ hw _ => intro c hc; rw [List.mem_singleton.mp hc]; exact hw.1
  | cons _ hw _ _ _ _ ih =>
    intro c hc
    rcases List.mem_cons.mp hc with rfl | hc
    · exact hw.1
    · exact ih c hc

/-- C59, what is accepted exactly: the first line is made of the words '#file', 'onset', 'offset', a word that starts with '#', and any other
words; the feature file has names; and every other line is a name of the feature file, up to its first blank (or as a whole, end of line included). -/
theorem C59_accepts (item : Text) (files : Option (List Text)) :
    check item files = .ok () ↔ ∃ h ls fs, lines item = h :: ls ∧ files = some fs ∧
      (∃ w ws, Made h ("#file".toList :: "onset".toList :: "offset".toList :: ('#' :: w) :: ws)) ∧
      ∀ l ∈ ls, ∃ src ∈ fs, ' ' ∉ src ∧ (l = src ∨ ∃ t, l = src ++ ' ' :: t) := by
  unfold check
  simp only
  cases hl : lines item with
  | nil =>
    simp [words, wordsAux, checkHeader]
  | cons h ls =>
    simp only [List.tail_cons]
    have hh := checkHeader_iff (words h) (words_ne h)
    cases hch : checkHeader (words h) with
    | error e =>
      rw [hch] at hh
      simp only [reduceCtorEq, false_iff] at hh
      simp only [reduceCtorEq, false_iff]
      rintro ⟨h', ls', fs, he, -, ⟨w, ws, hm⟩, -⟩
      obtain ⟨rfl, rfl⟩ := List.cons.inj he
      exact hh ⟨w, ws, (made_iff _ _).mp hm⟩
    | ok u =>
      have hw := hh.mp hch
      cases files with
      | none => simp
      | some fs =>
        simp only
        rw [checkLines_iff]
        constructor
        · intro h1
          obtain ⟨w, ws, hw⟩ := hw
          refine ⟨h, ls, fs, rfl, rfl, ⟨w, ws, (made_iff _ _).mpr hw⟩, ?_⟩
          intro l hlm
          exact ⟨source l, h1 l hlm, (source_iff l _).mp rfl⟩
        · rintro ⟨h', ls', fs', he, hf, -, h1⟩ l hlm
          obtain ⟨rfl, rfl⟩ := List.cons.inj he
          obtain rfl := Option.some.inj hf
          obtain ⟨src, hs, h2⟩ := h1 l hlm
          rw [(source_iff l src).mpr h2]
          exact hs

/-- C59, soundness: if the names of the feature file have no tab and no end of line, all lines of an accepted item file name a file of the feature
file. -/
theorem C59_sound_partial {item : Text} {fs : List Text} (hn : ∀ n ∈ fs, '\t' ∉ n ∧ '\n' ∉ n) (h : check item (some fs) = .ok ()) :
    ∀ l ∈ (lines item).tail, Spec.firstField l ∈ fs := by
  obtain ⟨hd, ls, fs', hl, hf, -, h1⟩ := (C59_accepts _ _).mp h
  obtain rfl := Option.some.inj hf
  rw [hl]
  intro l hlm
  obtain ⟨src, hs, hsp, h2⟩ := h1 l hlm
  obtain ⟨ht, hnl⟩ := hn src hs
  have hall : ∀ c ∈ src, (c ≠ ' ' && c ≠ '\t' && c ≠ '\n') = true := by
    intro c hc
    simp only [ne_eq, decide_not, Bool.and_eq_true, Bool.not_eq_true', decide_eq_false_iff_not]
    exact ⟨⟨fun e => hsp (e ▸ hc), fun e => ht (e ▸ hc)⟩, fun e => hnl (e ▸ hc)⟩
  have : firstField l = src := by
    unfold firstField
    rcases h2 with rfl | ⟨t, rfl⟩
    · have := List.takeWhile_append_of_pos (l₂ := []) hall
      simpa using this
    · rw [List.takeWhile_append_of_pos hall]
      simp
  rw [this]
  exact hs

/-- C59 for item files with the fourth column as first label column, whose lines have a blank after their first field: the file is accepted
exactly when it is consistent.  Missing: lines with tabs, lines with one field, empty lines, and location columns before the label columns
(`C59_violated`). -/
theorem C59_iff_partial {item : Text} {fs : List Text} {h : Text} {ls : List Text} (hl : lines item = h :: ls) {x : Text} {lab : List Text}
    (hm : Made h ("#file".toList :: "onset".toList :: "offset".toList :: ('#' :: x) :: lab)) (hlab : ∀ c ∈ lab, c.head? ≠ some '#')
    (hls : ∀ l ∈ ls, ∃ n t, l = n ++ ' ' :: t ∧ n ≠ [] ∧ ∀ c ∈ n, c ≠ ' ' ∧ c ≠ '\t' ∧ c ≠ '\n') :
    check item (some fs) = .ok () ↔ Consistent (lines item) fs := by
  rw [C59_accepts, hl]
  have hff : ∀ l ∈ ls, ∃ n t, l = n ++ ' ' :: t ∧ ' ' ∉ n ∧ firstField l = n ∧ ¬ Empty l := by
    intro l hlm
    obtain ⟨n, t, rfl, hne, hn⟩ := hls l hlm
    refine ⟨n, t, rfl, fun h => (hn _ h).1 rfl, ?_, ?_⟩
    · unfold firstField
      rw [List.takeWhile_append_of_pos (by
        intro c hc
        simp [hn c hc])]
      simp
    · intro hE
      obtain ⟨c, hc⟩ := List.exists_mem_of_ne_nil _ hne
      have := hE c (by simp [hc])
      have := hn c hc
      tauto
  constructor
  · rintro ⟨h', ls', fs', he, hf, -, h1⟩
    obtain ⟨rfl, rfl⟩ := List.cons.inj he
    obtain rfl := Option.some.inj hf
    refine ⟨⟨h, rfl, _, [], x, lab, hm, ⟨rfl, by simp, hlab⟩⟩, ?_⟩
    intro l hlm _
    rw [List.tail_cons] at hlm
    obtain ⟨n, t, hnt, hsp, hfl, -⟩ := hff l hlm
    obtain ⟨src, hs, h2⟩ := h1 l hlm
    have e1 := (source_iff l src).mpr h2
    have e2 := (source_iff l n).mpr ⟨hsp, Or.inr ⟨t, hnt⟩⟩
    rw [hfl, ← e2, e1]
    exact hs
  · rintro ⟨-, hr⟩
    refine ⟨h, ls, fs, rfl, rfl, ⟨x, lab, hm⟩, ?_⟩
    intro l hlm
    obtain ⟨n, t, hnt, hsp, hfl, hE⟩ := hff l hlm
    refine ⟨n, ?_, hsp, Or.inr ⟨t, hnt⟩⟩
    rw [← hfl]
    exact hr l hlm hE

/-- text of a literal -/
abbrev tx (s : String) : Text := s.toList

/-- C59 is violated: consistent item files that are refused (tabs as separators, an empty line at the end, a location column before the labels), and
a file that is accepted although `database.load` refuses its header (three names start with '#'). -/
theorem C59_violated :
    (Consistent (lines (tx "#file\tonset\toffset\t#phone\ns1\t0\t1\ta\n")) [tx "s1"] ∧ check (tx "#file\tonset\toffset\t#phone\ns1\t0\t1\ta\n") (some [tx "s1"]) = .error .assertion) ∧
    (Consistent (lines (tx "#file onset offset #phone\ns1 0 1 a\n\n")) [tx "s1"] ∧ check (tx "#file onset offset #phone\ns1 0 1 a\n\n") (some [tx "s1"]) = .error .assertion) ∧
    (Consistent (lines (tx "#file onset offset chan #phone\ns1 0 1 0 a\n")) [tx "s1"] ∧ check (tx "#file onset offset chan #phone\ns1 0 1 0 a\n") (some [tx "s1"]) = .error .assertion) ∧
    (¬ Consistent (lines (tx "#file onset offset #phone #spk\ns1 0 1 a b\n")) [tx "s1"] ∧ check (tx "#file onset offset #phone #spk\ns1 0 1 a b\n") (some [tx "s1"]) = .ok ()) := by
  have he : ¬ Empty (tx "s1\t0\t1\ta\n") := fun h => absurd (h 's' (by decide)) (by decide)
  refine ⟨⟨⟨⟨_, rfl, _, [], tx "phone", [], (made_iff _ _).mpr rfl, ⟨by decide, by simp, by simp⟩⟩, ?_⟩, by rfl⟩,
    ⟨⟨⟨_, rfl, _, [], tx "phone", [], (made_iff _ _).mpr rfl, ⟨by decide, by simp, by simp⟩⟩, ?_⟩, by rfl⟩,
    ⟨⟨⟨_, rfl, _, [tx "chan"], tx "phone", [], (made_iff _ _).mpr rfl, ⟨by decide, by decide, by simp⟩⟩, ?_⟩, by rfl⟩, ?_, by rfl⟩
  · intro l hl _
    have : l = tx "s1\t0\t1\ta\n" := List.mem_singleton.mp (show l ∈ [tx "s1\t0\t1\ta\n"] from hl)
    subst this
    decide
  · intro l hl hne
    have : l = tx "s1 0 1 a\n" ∨ l = ['\n'] := by
      simpa using (show l ∈ [tx "s1 0 1 a\n", ['\n']] from hl)
    rcases this with rfl | rfl
    · decide
    · exact absurd (by intro c hc; right; right; simpa using hc) hne
  · intro l hl _
    have : l = tx "s1 0 1 0 a\n" := List.mem_singleton.mp (show l ∈ [tx "s1 0 1 0 a\n"] from hl)
    subst this
    decide
  · rintro ⟨⟨h, hh, cols, loc, x, lab, hm, hH⟩, -⟩
    obtain rfl : tx "#file onset offset #phone #spk\n" = h := Option.some.inj hh
    have hc := (made_iff _ _).mp hm
    have hp := Database.header_pos hH
    rw [← hc] at hp
    have h3 : Database.sharpPos 0 (words (tx "#file onset offset #phone #spk\n")) = [0, 3, 4] := by decide
    rw [h3] at hp
    simp at hp

/-- example: a file that `C59_iff_partial` is about -/
example : check (tx "#file onset offset #phone spk\ns1 0 1 a b\ns2 0.5 1 a c") (some [tx "s1", tx "s2"]) = .ok () ∧
    check (tx "#file onset offset #phone spk\ns1 0 1 a b\ns3 0.5 1 a c") (some [tx "s1", tx "s2"]) = .error .assertion := ⟨by rfl, by rfl⟩

#print axioms C59_lines
#print axioms C59_accepts
#print axioms C59_sound_partial
#print axioms C59_iff_partial
#print axioms C59_violated

end ABX.Verify

#print axioms ABX.Verify.C59_lines
#print axioms ABX.Verify.C59_accepts
#print axioms ABX.Verify.C59_sound_partial
#print axioms ABX.Verify.C59_iff_partial
#print axioms ABX.Verify.C59_violated
