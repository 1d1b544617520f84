import Verif.Properties.ItemText
/-!
C97: the texts that the property is about are all texts whose white space is made of blanks, tabulations and ends of line.
-/
namespace ABX.ReadCsv
open Database ReadCsv.Spec

namespace Spec
/-- the only white space of the text is made of blanks and tabulations -/
def Usual (t : Text) : Prop := ∀ c ∈ t, Space c → c = ' ' ∨ c = '\t'

/-- the only white space of the text is made of blanks, tabulations and ends of line -/
def UsualText (t : Text) : Prop := ∀ c ∈ t, Space c → c = ' ' ∨ c = '\t' ∨ c = '\n' ∨ c = '\r'
end Spec

theorem isSep_iff {c : Char} : isSep c = true ↔ c = ' ' ∨ c = '\t' := by simp [isSep]

theorem split_usual : ∀ {t : Text}, Usual t →
    (∀ acc, Word acc → (∀ c, t.getLast? = some c → ¬ Space c) → LineOf (split acc false t) (acc ++ t)) ∧
    (t ≠ [] → (∀ c, t.getLast? = some c → ¬ Space c) → ∃ b t', t = b ++ t' ∧ (∀ c ∈ b, c = ' ' ∨ c = '\t') ∧ LineOf (split [] true t) t')
  | [], _ => ⟨fun acc ha _ => by simpa [split] using LineOf.one ha, fun h => absurd rfl h⟩
  | c :: cs, hu => by
    have hus : Usual cs := fun d hd => hu d (List.mem_cons_of_mem _ hd)
    obtain ⟨ih1, ih2⟩ := split_usual hus
    have hlast : (∀ d, (c :: cs).getLast? = some d → ¬ Space d) → ∀ d, cs.getLast? = some d → ¬ Space d := by
      intro h d hd
      refine h d ?_
      rw [List.getLast?_cons, hd]
      rfl
    have hne : Space c → (∀ d, (c :: cs).getLast? = some d → ¬ Space d) → cs ≠ [] := by
      rintro hs h rfl
      exact h c rfl hs
    by_cases hc : isSep c = true
    · have hs := sep_space hc
      constructor
      · intro acc ha h
        obtain ⟨b, t', rfl, hb, hl⟩ := ih2 (hne hs h) (hlast h)
        rw [split, if_pos hc, if_neg (by simp)]
        have := LineOf.more ha (b := c :: b) (by simp) (by
          intro d hd
          rcases List.mem_cons.mp hd with rfl | hd
          · exact isSep_iff.mp hc
          · exact hb d hd) hl
        simpa using this
      · intro _ h
        obtain ⟨b, t', rfl, hb, hl⟩ := ih2 (hne hs h) (hlast h)
        refine ⟨c :: b, t', rfl, ?_, ?_⟩
        · intro d hd
          rcases List.mem_cons.mp hd with rfl | hd
          · exact isSep_iff.mp hc
          · exact hb d hd
        · rw [split, if_pos hc, if_pos rfl]
          exact hl
    · have hs : ¬ Space c := fun hs => hc (isSep_iff.mpr (hu c (by simp) hs))
      constructor
      · intro acc ha h
        rw [split, if_neg hc]
        have := ih1 (acc ++ [c]) ⟨by simp, fun d hd => by
          rcases List.mem_append.mp hd with hd | hd
          · exact ha.2 d hd
          · rw [List.mem_singleton.mp hd]; exact hs⟩ (hlast h)
        simpa using this
      · intro _ h
        refine ⟨[], c :: cs, rfl, by simp, ?_⟩
        rw [split, if_neg hc]
        exact ih1 [c] ⟨by simp, fun d hd => by rw [List.mem_singleton.mp hd]; exact hs⟩ (hlast h)

theorem strip_parts (l : Text) : ∃ p q, l = p ++ strip l ++ q ∧ (∀ c ∈ p, Space c) ∧ (∀ c ∈ q, Space c) ∧ (∀ c, (strip l).head? = some c → ¬ Space c) ∧ ∀ c, (strip l).getLast? = some c → ¬ Space c := by
  have htake : ∀ (m : Text), ∀ c ∈ m.takeWhile isSpace, Space c := fun m c hc => (isSpace_iff c).mp (List.all_eq_true.mp List.all_takeWhile c hc)
  have hhead : ∀ (m : Text) c, (m.dropWhile isSpace).head? = some c → ¬ Space c := by
    intro m c hc hs
    have := List.head?_dropWhile_not isSpace m
    rw [hc] at this
    dsimp only at this
    rw [(isSpace_iff c).mpr hs] at this
    cases this
  have h1 := List.takeWhile_append_dropWhile (p := isSpace) (l := l)
  have h2 := List.takeWhile_append_dropWhile (p := isSpace) (l := (l.dropWhile isSpace).reverse)
  have h3 : l.dropWhile isSpace = strip l ++ ((l.dropWhile isSpace).reverse.takeWhile isSpace).reverse := by
    have := congrArg List.reverse h2
    rw [List.reverse_append, List.reverse_reverse] at this
    exact this.symm
  refine ⟨l.takeWhile isSpace, ((l.dropWhile isSpace).reverse.takeWhile isSpace).reverse, ?_, htake l, ?_, ?_, ?_⟩
  · rw [List.append_assoc, ← h3, h1]
  · intro c hc
    exact htake _ c (List.mem_reverse.mp hc)
  · intro c hc
    refine hhead l c ?_
    rw [h3, List.head?_append, hc]
    rfl
  · intro c hc
    unfold strip at hc
    rw [List.getLast?_reverse] at hc
    exact hhead _ c hc

theorem line_usual {l : Text} (hu : Usual l) (hne : strip l ≠ []) : LineOf (split [] false (strip l)) (strip l) := by
  obtain ⟨p, q, e, -, -, h1, h2⟩ := strip_parts l
  have hus : Usual (strip l) := fun c hc => hu c (by rw [e]; simp [hc])
  cases hs : strip l with
  | nil => exact absurd hs hne
  | cons c cs =>
    rw [hs] at h1 h2 hus
    have hc := h1 c rfl
    have hsep : ¬ isSep c = true := fun h => hc (sep_space h)
    rw [split, if_neg hsep]
    exact (split_usual (fun d hd => hus d (List.mem_cons_of_mem _ hd))).1 [c] ⟨by simp, fun d hd => by rw [List.mem_singleton.mp hd]; exact hc⟩ (by
      intro d hd
      refine h2 d ?_
      rw [List.getLast?_cons, hd]
      rfl)

theorem text_space {rows : List (List Text)} {p t : Text} (hp : ∀ c ∈ p, Space c) (h : TextOf rows t) : TextOf rows (p ++ t) := by
  have happ : ∀ {q : Text}, (∀ c ∈ q, Space c) → ∀ c ∈ p ++ q, Space c := fun hq c hc => (List.mem_append.mp hc).elim (hp c) (hq c)
  cases h with
  | nil h => exact .nil (happ h)
  | last h1 h2 h3 => simpa using TextOf.last (happ h1) h2 h3
  | line h1 h2 h3 h4 h5 => simpa using TextOf.line (happ h1) h2 h3 h4 h5

theorem strip_nil {l : Text} (h : strip l = []) : ∀ c ∈ l, Space c := by
  obtain ⟨p, q, e, hp, hq, -⟩ := strip_parts l
  rw [h, List.append_nil] at e
  rw [e]
  intro c hc
  exact (List.mem_append.mp hc).elim (hp c) (hq c)

theorem lineOf_not_blank {ws : List Text} {l : Text} (h : LineOf ws l) : ws ≠ [[]] := by
  cases h with
  | one hw => intro e; exact hw.1 (List.cons.inj e).1
  | more hw => intro e; exact hw.1 (List.cons.inj e).1

theorem lines_usual : ∀ (t acc : Text), UsualText t → Usual acc → TextOf (((lines acc t).map (fun l => split [] false (strip l))).filter (· ≠ [[]])) (acc ++ t)
  | [], acc, _, ha => by
    rw [lines, List.map_singleton]
    by_cases hs : strip acc = []
    · rw [hs]
      simpa [split] using TextOf.nil (strip_nil hs)
    · have hl := line_usual ha hs
      obtain ⟨p, q, e, hp, hq, -⟩ := strip_parts acc
      rw [List.filter_cons_of_pos (by simpa using lineOf_not_blank hl), List.filter_nil, List.append_nil]
      have := TextOf.last hp hl hq
      rwa [← e] at this
  | c :: cs, acc, hu, ha => by
    have hus : UsualText cs := fun d hd => hu d (List.mem_cons_of_mem _ hd)
    by_cases hc : isEnd c = true
    · rw [lines, if_pos hc, List.map_cons]
      have ih := lines_usual cs [] hus (fun d hd => by cases hd)
      rw [List.nil_append] at ih
      by_cases hs : strip acc = []
      · rw [List.filter_cons_of_neg (by simp [hs, split])]
        have := text_space (p := acc ++ [c]) (fun d hd => by
          rcases List.mem_append.mp hd with hd | hd
          · exact strip_nil hs d hd
          · rw [List.mem_singleton.mp hd]; exact end_space hc) ih
        simpa using this
      · have hl := line_usual ha hs
        obtain ⟨p, q, e, hp, hq, -⟩ := strip_parts acc
        rw [List.filter_cons_of_pos (by simpa using lineOf_not_blank hl)]
        have he : c = '\n' ∨ c = '\r' := by simpa [isEnd] using hc
        have := TextOf.line hp hl hq he ih
        rwa [← e] at this
    · rw [lines, if_neg hc]
      have := lines_usual cs (acc ++ [c]) hus (by
        intro d hd hs
        rcases List.mem_append.mp hd with hd | hd
        · exact ha d hd hs
        · obtain rfl := List.mem_singleton.mp hd
          rcases hu d (by simp) hs with h | h | h | h
          · exact .inl h
          · exact .inr h
          · exact absurd (by simp [isEnd, h]) hc
          · exact absurd (by simp [isEnd, h]) hc)
      simpa using this

/-- C97: every text whose white space is made of blanks, tabulations and ends of line is a text with lines of words, and these are its fields: what is proved of the texts `TextOf` holds of every such file. -/
theorem C97_every_text {t : Text} (h : UsualText t) (rows : List (List Text)) : TextOf rows t ↔ fields t = rows := by
  refine ⟨C97_words, ?_⟩
  rintro rfl
  have := lines_usual t [] h (fun d hd => by cases hd)
  rwa [List.nil_append] at this

/-- C97, example: a no-break space is white space of python but does not separate words; the text with it is none of those above -/
example : fields "a\u00a0b\n".toList = [["a\u00a0b".toList]] ∧ ¬ UsualText "a\u00a0b\n".toList := by
  refine ⟨by decide +kernel, fun h => ?_⟩
  have := h '\u00a0' (by decide) (by simp [Space])
  revert this
  decide

/-- C97, example: a text of two words -/
example : UsualText " a\tb\r\n\n".toList ∧ TextOf [["a".toList, "b".toList]] " a\tb\r\n\n".toList := by
  have h : UsualText " a\tb\r\n\n".toList := by
    intro c hc hs
    have : ∀ c ∈ " a\tb\r\n\n".toList, isSpace c = true → c = ' ' ∨ c = '\t' ∨ c = '\n' ∨ c = '\r' := by decide
    exact this c hc ((isSpace_iff c).mpr hs)
  exact ⟨h, (C97_every_text h _).mpr (by decide +kernel)⟩

#print axioms C97_every_text

end ABX.ReadCsv
