import Verif.Model.ReadCsv
import Verif.Properties.FromFile
/-!
Lemmas about the reading of item files as text (Model/ReadCsv.lean) and the texts that they are about (`Spec.TextOf`).
-/
namespace ABX.ReadCsv
open Database (Text Raw)

namespace Spec
/-- white space -/
def Space (c : Char) : Prop :=
  c.toNat ∈ [9, 10, 11, 12, 13, 28, 29, 30, 31, 32, 0x85, 0xa0, 0x1680, 0x2000, 0x2001, 0x2002, 0x2003, 0x2004, 0x2005, 0x2006, 0x2007, 0x2008, 0x2009, 0x200a, 0x2028, 0x2029, 0x202f, 0x205f, 0x3000]

/-- a word: at least one character, no white space -/
def Word (w : Text) : Prop := w ≠ [] ∧ ∀ c ∈ w, ¬ Space c

/-- a line with these words: blanks and tabulations between them -/
inductive LineOf : List Text → Text → Prop
  | one {w : Text} (hw : Word w) : LineOf [w] w
  | more {w b t : Text} {ws : List Text} (hw : Word w) (hb : b ≠ []) (hs : ∀ c ∈ b, c = ' ' ∨ c = '\t') (h : LineOf ws t) : LineOf (w :: ws) (w ++ b ++ t)

/-- a text with these lines: white space (also empty lines) before, after and between them, an end of line after each of them but the last -/
inductive TextOf : List (List Text) → Text → Prop
  | nil {p : Text} (hp : ∀ c ∈ p, Space c) : TextOf [] p
  | last {p l q : Text} {ws : List Text} (hp : ∀ c ∈ p, Space c) (hl : LineOf ws l) (hq : ∀ c ∈ q, Space c) : TextOf [ws] (p ++ l ++ q)
  | line {p l q t : Text} {e : Char} {ws : List Text} {rows : List (List Text)} (hp : ∀ c ∈ p, Space c) (hl : LineOf ws l) (hq : ∀ c ∈ q, Space c) (he : e = '\n' ∨ e = '\r') (h : TextOf rows t) :
      TextOf (ws :: rows) (p ++ l ++ q ++ e :: t)
end Spec
open Spec

theorem isSpace_iff (c : Char) : isSpace c = true ↔ Space c := by
  unfold isSpace Space
  simp only [Bool.or_eq_true, Bool.and_eq_true, decide_eq_true_eq, beq_iff_eq, List.mem_cons, List.not_mem_nil, or_false]
  omega

theorem isSpace_false {c : Char} : isSpace c = false ↔ ¬ Space c := by
  rw [← isSpace_iff]; simp

theorem sep_space {c : Char} (h : isSep c = true) : Space c := by
  unfold isSep at h
  simp only [Bool.or_eq_true, beq_iff_eq] at h
  rcases h with rfl | rfl <;> simp [Space]

theorem end_space {c : Char} (h : isEnd c = true) : Space c := by
  unfold isEnd at h
  simp only [Bool.or_eq_true, beq_iff_eq] at h
  rcases h with rfl | rfl <;> simp [Space]

theorem blank_sep {c : Char} (h : c = ' ' ∨ c = '\t') : isSep c = true := by
  rcases h with rfl | rfl <;> rfl

theorem blank_not_end {c : Char} (h : c = ' ' ∨ c = '\t') : isEnd c = false := by
  rcases h with rfl | rfl <;> rfl

/-! ### one line -/

theorem split_word : ∀ (w acc : Text) (skip : Bool) (s : Text), w ≠ [] → (∀ c ∈ w, ¬ Space c) → split acc skip (w ++ s) = split (acc ++ w) false s
  | [], _, _, _, h, _ => absurd rfl h
  | [c], acc, skip, s, _, h => by
    rw [List.singleton_append, split, if_neg (fun hc => h c (by simp) (sep_space hc))]
  | c :: d :: w, acc, skip, s, _, h => by
    rw [List.cons_append, split, if_neg (fun hc => h c (by simp) (sep_space hc)), split_word (d :: w) _ _ _ (by simp) (fun x hx => h x (List.mem_cons_of_mem _ hx))]
    simp

theorem split_skip : ∀ (b s acc : Text), (∀ c ∈ b, c = ' ' ∨ c = '\t') → split acc true (b ++ s) = split acc true s
  | [], _, _, _ => rfl
  | c :: b, s, acc, h => by
    rw [List.cons_append, split, if_pos (blank_sep (h c (by simp))), if_pos rfl, split_skip b s acc (fun x hx => h x (List.mem_cons_of_mem _ hx))]

theorem split_line {ws : List Text} {l : Text} (h : LineOf ws l) : ∀ skip, split [] skip l = ws := by
  induction h with
  | @one w hw =>
    intro skip
    have := split_word w [] skip [] hw.1 hw.2
    rw [List.append_nil] at this
    rw [this]; rfl
  | @more w b t ws hw hb hs h ih =>
    intro skip
    rw [List.append_assoc, split_word _ _ _ _ hw.1 hw.2]
    cases b with
    | nil => exact absurd rfl hb
    | cons c b =>
      rw [List.cons_append, split, if_pos (blank_sep (hs c (by simp))), if_neg (by simp), split_skip b t [] (fun x hx => hs x (List.mem_cons_of_mem _ hx)), ih true]
      simp

theorem line_ends {ws : List Text} {l : Text} (h : LineOf ws l) : (∃ c u, l = c :: u ∧ ¬ Space c) ∧ ∃ u c, l = u ++ [c] ∧ ¬ Space c := by
  induction h with
  | @one w hw =>
    refine ⟨?_, ?_⟩
    · cases w with
      | nil => exact absurd rfl hw.1
      | cons c u => exact ⟨c, u, rfl, hw.2 c (by simp)⟩
    · obtain ⟨u, c, rfl⟩ := List.eq_nil_or_concat w |>.resolve_left hw.1
      rw [List.concat_eq_append] at hw ⊢
      exact ⟨u, c, rfl, hw.2 c (by simp)⟩
  | @more w b t ws hw hb hs h ih =>
    refine ⟨?_, ?_⟩
    · cases w with
      | nil => exact absurd rfl hw.1
      | cons c u => exact ⟨c, u ++ b ++ t, rfl, hw.2 c (by simp)⟩
    · obtain ⟨u, c, rfl, hc⟩ := ih.2
      exact ⟨w ++ b ++ u, c, by simp, hc⟩

theorem line_not_end {ws : List Text} {l : Text} (h : LineOf ws l) : ∀ c ∈ l, isEnd c = false := by
  induction h with
  | @one w hw =>
    intro c hc
    by_contra hn
    exact hw.2 c hc (end_space (by simpa using hn))
  | @more w b t ws hw hb hs h ih =>
    intro c hc
    rw [List.mem_append, List.mem_append] at hc
    rcases hc with (hc | hc) | hc
    · by_contra hn
      exact hw.2 c hc (end_space (by simpa using hn))
    · exact blank_not_end (hs c hc)
    · exact ih c hc

theorem dropWhile_spaces : ∀ (p s : Text), (∀ c ∈ p, Space c) → (p ++ s).dropWhile isSpace = s.dropWhile isSpace
  | [], _, _ => rfl
  | c :: p, s, h => by
    rw [List.cons_append, List.dropWhile_cons_of_pos ((isSpace_iff c).mpr (h c (by simp))), dropWhile_spaces p s (fun x hx => h x (List.mem_cons_of_mem _ hx))]

theorem strip_line {ws : List Text} {p l q : Text} (h : LineOf ws l) (hp : ∀ c ∈ p, Space c) (hq : ∀ c ∈ q, Space c) : strip (p ++ l ++ q) = l := by
  obtain ⟨⟨c, u, e1, hc⟩, ⟨u', c', e2, hc'⟩⟩ := line_ends h
  unfold strip
  have h1 : (p ++ l ++ q).dropWhile isSpace = l ++ q := by
    rw [List.append_assoc, dropWhile_spaces _ _ hp, e1, List.cons_append, List.dropWhile_cons_of_neg (by rw [isSpace_iff]; exact hc)]
  rw [h1, List.reverse_append, dropWhile_spaces _ _ (fun c hc => hq c (List.mem_reverse.mp hc)), e2, List.reverse_append, List.reverse_singleton, List.singleton_append,
    List.dropWhile_cons_of_neg (by rw [isSpace_iff]; exact hc'), List.reverse_cons, List.reverse_reverse]

theorem strip_spaces {p : Text} (hp : ∀ c ∈ p, Space c) : strip p = [] := by
  unfold strip
  have := dropWhile_spaces p [] hp
  rw [List.append_nil] at this
  rw [this]; rfl

/-! ### all lines -/

/-- the fields of the lines, when `acc` was read of the first one -/
def fieldsFrom (acc t : Text) : List (List Text) := ((lines acc t).map (fun l => split [] false (strip l))).filter (· ≠ [[]])

theorem fieldsFrom_cons {acc : Text} {c : Char} (t : Text) (hc : isEnd c = true) : fieldsFrom acc (c :: t) = (if split [] false (strip acc) = [[]] then [] else [split [] false (strip acc)]) ++ fieldsFrom [] t := by
  unfold fieldsFrom
  rw [lines, if_pos hc, List.map_cons, List.filter_cons]
  by_cases h : split [] false (strip acc) = [[]] <;> simp [h]

theorem fieldsFrom_char {acc : Text} {c : Char} (t : Text) (hc : isEnd c = false) : fieldsFrom acc (c :: t) = fieldsFrom (acc ++ [c]) t := by
  unfold fieldsFrom
  rw [lines, if_neg (by simp [hc])]

theorem fieldsFrom_chars : ∀ (l acc t : Text), (∀ c ∈ l, isEnd c = false) → fieldsFrom acc (l ++ t) = fieldsFrom (acc ++ l) t
  | [], acc, t, _ => by simp
  | c :: l, acc, t, h => by
    rw [List.cons_append, fieldsFrom_char _ (h c (by simp)), fieldsFrom_chars l _ t (fun x hx => h x (List.mem_cons_of_mem _ hx))]
    simp

theorem fieldsFrom_spaces : ∀ (p acc t : Text), (∀ c ∈ p, Space c) → (∀ c ∈ acc, Space c) → ∃ acc', (∀ c ∈ acc', Space c) ∧ fieldsFrom acc (p ++ t) = fieldsFrom acc' t
  | [], acc, t, _, ha => ⟨acc, ha, rfl⟩
  | c :: p, acc, t, hp, ha => by
    rw [List.cons_append]
    cases hc : isEnd c with
    | true =>
      obtain ⟨acc', h1, h2⟩ := fieldsFrom_spaces p [] t (fun x hx => hp x (List.mem_cons_of_mem _ hx)) (by simp)
      refine ⟨acc', h1, ?_⟩
      rw [fieldsFrom_cons _ hc, strip_spaces ha, if_pos (show split [] false [] = [[]] from rfl), List.nil_append, h2]
    | false =>
      obtain ⟨acc', h1, h2⟩ := fieldsFrom_spaces p (acc ++ [c]) t (fun x hx => hp x (List.mem_cons_of_mem _ hx)) (by
        intro x hx
        rcases List.mem_append.mp hx with hx | hx
        · exact ha x hx
        · rw [List.mem_singleton.mp hx]; exact hp c (by simp))
      exact ⟨acc', h1, by rw [fieldsFrom_char _ hc, h2]⟩

theorem fieldsFrom_nil {acc : Text} (ha : ∀ c ∈ acc, Space c) : fieldsFrom acc [] = [] := by
  unfold fieldsFrom
  rw [lines, List.map_singleton, strip_spaces ha]
  rfl

theorem line_ne {ws : List Text} {l : Text} (h : LineOf ws l) : ws ≠ [[]] ∧ ws ≠ [] := by
  cases h with
  | one hw => exact ⟨by simpa using hw.1, by simp⟩
  | more hw hb hs h => refine ⟨fun e => hw.1 (List.cons.inj e).1, by simp⟩

theorem read_line {ws : List Text} {l : Text} (h : LineOf ws l) {acc q : Text} (ha : ∀ c ∈ acc, Space c) (hq : ∀ c ∈ q, Space c) : split [] false (strip (acc ++ l ++ q)) = ws := by
  rw [strip_line h ha hq, split_line h]

theorem fieldsFrom_line {ws : List Text} {l : Text} (h : LineOf ws l) {acc : Text} (ha : ∀ c ∈ acc, Space c) {e : Char} (he : isEnd e = true) (t : Text) : ∀ (q q0 : Text), (∀ c ∈ q, Space c) → (∀ c ∈ q0, Space c) →
    ∃ q', (∀ c ∈ q', Space c) ∧ fieldsFrom (acc ++ l ++ q0) (q ++ e :: t) = ws :: fieldsFrom q' t
  | [], q0, _, h0 => by
    refine ⟨[], by simp, ?_⟩
    rw [List.nil_append, fieldsFrom_cons _ he, read_line h ha h0, if_neg (line_ne h).1, List.singleton_append]
  | c :: q, q0, hq, h0 => by
    rw [List.cons_append]
    cases hc : isEnd c with
    | true =>
      obtain ⟨q', h1, h2⟩ := fieldsFrom_spaces (q ++ [e]) [] t (by
        intro x hx
        rcases List.mem_append.mp hx with hx | hx
        · exact hq x (List.mem_cons_of_mem _ hx)
        · rw [List.mem_singleton.mp hx]; exact end_space he) (by simp)
      refine ⟨q', h1, ?_⟩
      rw [List.append_assoc, List.singleton_append] at h2
      rw [fieldsFrom_cons _ hc, read_line h ha h0, if_neg (line_ne h).1, List.singleton_append, h2]
    | false =>
      obtain ⟨q', h1, h2⟩ := fieldsFrom_line h ha he t q (q0 ++ [c]) (fun x hx => hq x (List.mem_cons_of_mem _ hx)) (by
        intro x hx
        rcases List.mem_append.mp hx with hx | hx
        · exact h0 x hx
        · rw [List.mem_singleton.mp hx]; exact hq c (by simp))
      refine ⟨q', h1, ?_⟩
      rw [fieldsFrom_char _ hc, List.append_assoc, h2]

theorem fieldsFrom_last {ws : List Text} {l : Text} (h : LineOf ws l) {acc : Text} (ha : ∀ c ∈ acc, Space c) : ∀ (q q0 : Text), (∀ c ∈ q, Space c) → (∀ c ∈ q0, Space c) →
    fieldsFrom (acc ++ l ++ q0) q = [ws]
  | [], q0, _, h0 => by
    unfold fieldsFrom
    rw [lines, List.map_singleton, read_line h ha h0]
    simp [(line_ne h).1]
  | c :: q, q0, hq, h0 => by
    cases hc : isEnd c with
    | true =>
      obtain ⟨q', h1, h2⟩ := fieldsFrom_spaces q [] [] (fun x hx => hq x (List.mem_cons_of_mem _ hx)) (by simp)
      rw [List.append_nil] at h2
      rw [fieldsFrom_cons _ hc, read_line h ha h0, if_neg (line_ne h).1, h2, fieldsFrom_nil h1]
      rfl
    | false =>
      rw [fieldsFrom_char _ hc, List.append_assoc, fieldsFrom_last h ha q (q0 ++ [c]) (fun x hx => hq x (List.mem_cons_of_mem _ hx)) (by
        intro x hx
        rcases List.mem_append.mp hx with hx | hx
        · exact h0 x hx
        · rw [List.mem_singleton.mp hx]; exact hq c (by simp))]

theorem fieldsFrom_text {rows : List (List Text)} {t : Text} (h : TextOf rows t) : ∀ acc, (∀ c ∈ acc, Space c) → fieldsFrom acc t = rows := by
  induction h with
  | @nil p hp =>
    intro acc ha
    obtain ⟨q', h1, h2⟩ := fieldsFrom_spaces p acc [] hp ha
    rw [List.append_nil] at h2
    rw [h2, fieldsFrom_nil h1]
  | @last p l q ws hp hl hq =>
    intro acc ha
    rw [List.append_assoc]
    obtain ⟨q', h1, h2⟩ := fieldsFrom_spaces p acc (l ++ q) hp ha
    rw [h2, fieldsFrom_chars l q' q (line_not_end hl)]
    have := fieldsFrom_last hl h1 q [] hq (by simp)
    rwa [List.append_nil] at this
  | @line p l q t e ws rows hp hl hq he h ih =>
    intro acc ha
    rw [List.append_assoc, List.append_assoc]
    obtain ⟨q', h1, h2⟩ := fieldsFrom_spaces p acc (l ++ (q ++ e :: t)) hp ha
    obtain ⟨q'', h3, h4⟩ := fieldsFrom_line hl h1 (e := e) (by rcases he with rfl | rfl <;> rfl) t q [] hq (by simp)
    rw [List.append_nil] at h4
    rw [h2, fieldsFrom_chars l q' _ (line_not_end hl), h4, ih q'' h3]

theorem fields_text {rows : List (List Text)} {t : Text} (h : TextOf rows t) : fields t = rows := fieldsFrom_text h [] (by simp)

theorem text_rows {rows : List (List Text)} {t : Text} (h : TextOf rows t) : ∀ r ∈ rows, r ≠ [] ∧ ∀ w ∈ r, Word w := by
  have hline : ∀ {ws l}, LineOf ws l → ∀ w ∈ ws, Word w := by
    intro ws l h
    induction h with
    | one hw => simpa using hw
    | more hw hb hs h ih => simpa using ⟨hw, ih⟩
  induction h with
  | nil hp => simp
  | last hp hl hq => simpa using ⟨(line_ne hl).2, hline hl⟩
  | line hp hl hq he h ih => simpa using ⟨⟨(line_ne hl).2, hline hl⟩, ih⟩

/-! ### names of columns -/

theorem rename_new {fuel : Nat} {counts : List (Text × Nat)} {c : Text} (h : ∀ p ∈ counts, p.1 ≠ c) : rename (fuel + 1) counts c = (c, (c, 1) :: counts) := by
  have : counts.lookup c = none := by
    rw [List.lookup_eq_none_iff]
    intro p hp
    simpa using (h p hp).symm
  rw [rename, this]
  rfl

theorem dedupe_nodup : ∀ (cs : List Text) (counts : List (Text × Nat)), cs.Nodup → (∀ c ∈ cs, ∀ p ∈ counts, p.1 ≠ c) → dedupe counts cs = cs
  | [], _, _, _ => rfl
  | c :: cs, counts, hd, h => by
    rw [List.nodup_cons] at hd
    rw [dedupe, rename_new (h c (by simp)), dedupe_nodup cs _ hd.2]
    intro d hd' p hp
    rcases List.mem_cons.mp hp with rfl | hp
    · rintro rfl; exact hd.1 hd'
    · exact h d (List.mem_cons_of_mem _ hd') p hp

/-! ### the table -/

theorem indexOf_short {n : Nat} (hn : 0 < n) : ∀ {rows : List (List Text)}, (∀ r ∈ rows, r ≠ [] ∧ r.length ≤ n) → indexOf n rows = (0, rows)
  | [], _ => rfl
  | [r], h => by simp [indexOf, Nat.sub_eq_zero_of_le (h r (by simp)).2]
  | r :: s :: rows, h => by
    have h1 := h r (by simp)
    have h2 := h s (by simp)
    have h3 := List.length_pos_of_ne_nil h1.1
    rw [indexOf, if_neg (by omega), Nat.sub_eq_zero_of_le h1.2]

/-- the rows of the table that is read -/
def tableRows (c : Conv β) (n k : Nat) (rows : List (List Text)) : List (List (Option β)) :=
  (List.range rows.length).map (fun j => ((List.range n).map (fun i => convert c (rows.map (fun row => cell k row i)))).map (fun col => (col[j]?).join))

theorem readCsv_short (c : Conv β) {header : List Text} {rows : List (List Text)} {t : Text} (h : TextOf (header :: rows) t) (hd : header.Nodup) (hl : ∀ r ∈ rows, r.length ≤ header.length) :
    readCsv c t = .ok ⟨0, header, tableRows c header.length 0 rows⟩ := by
  have hn : 0 < header.length := List.length_pos_of_ne_nil (text_rows h header (by simp)).1
  unfold readCsv
  rw [fields_text h]
  dsimp only
  rw [indexOf_short hn (fun r hr => ⟨(text_rows h r (by simp [hr])).1, hl r hr⟩)]
  dsimp only
  rw [if_neg, dedupe_nodup _ _ hd (by simp)]
  · rfl
  · simp only [List.any_eq_true, decide_eq_true_eq, not_exists, not_and, not_lt]
    intro r hr
    have := hl r hr
    omega

theorem convert_length (c : Conv β) (col : List (Option Text)) : (convert c col).length = col.length := by
  unfold convert
  dsimp only
  split
  · simp
  · split <;> simp

theorem tableRows_length (c : Conv β) (n k : Nat) (rows : List (List Text)) : (tableRows c n k rows).length = rows.length := by simp [tableRows]

theorem tableRows_row (c : Conv β) {n k j : Nat} {rows : List (List Text)} (hj : j < rows.length) :
    (tableRows c n k rows)[j]? = some ((List.range n).map (fun i => ((convert c (rows.map (fun row => cell k row i)))[j]?).join)) := by
  unfold tableRows
  rw [List.getElem?_map, List.getElem?_range hj, Option.map_some, List.map_map]
  rfl

/-- a field of the table -/
theorem tableRows_field (c : Conv β) {n k j : Nat} {rows : List (List Text)} (hj : j < rows.length) {r : List (Option β)} (hr : (tableRows c n k rows)[j]? = some r) {i : Nat} (hi : i < n) :
    Database.fieldAt r i = ((convert c (rows.map (fun row => cell k row i)))[j]?).join := by
  rw [tableRows_row c hj] at hr
  obtain rfl := Option.some.inj hr
  unfold Database.fieldAt
  rw [List.getElem?_map, List.getElem?_range hi, Option.map_some]

theorem convert_missing (c : Conv β) (col : List (Option Text)) {j : Nat} (h : (col[j]?).join = none) : ((convert c col)[j]?).join = none := by
  unfold convert
  dsimp only
  split
  · rw [List.getElem?_map]
    cases hx : col[j]? with
    | none => rfl
    | some x => rw [hx] at h; obtain rfl : x = none := h; rfl
  · split
    · rw [List.getElem?_map]
      cases hx : col[j]? with
      | none => rfl
      | some x => rw [hx] at h; obtain rfl : x = none := h; rfl
    · rw [List.getElem?_map]
      cases hx : col[j]? with
      | none => rfl
      | some x => rw [hx] at h; obtain rfl : x = none := h; rfl

theorem convert_words (c : Conv β) (col : List (Option Text)) {j : Nat} {t : Text} (h : col[j]? = some (some t)) (h1 : ∃ u, some u ∈ col ∧ c.num false u = none) (h2 : ∃ u, some u ∈ col ∧ boolWord u = none) :
    ((convert c col)[j]?).join = some (c.text t) := by
  unfold convert
  dsimp only
  rw [if_neg, if_neg, List.getElem?_map, h]
  · rfl
  · obtain ⟨u, hu, hn⟩ := h2
    intro hall
    rw [List.all_eq_true] at hall
    have := hall u (List.mem_filterMap.mpr ⟨some u, hu, rfl⟩)
    rw [hn] at this
    cases this
  · obtain ⟨u, hu, hn⟩ := h1
    intro hall
    rw [List.all_eq_true] at hall
    have := hall u (List.mem_filterMap.mpr ⟨some u, hu, rfl⟩)
    rw [hn] at this
    cases this

theorem convert_numbers (c : Conv β) (col : List (Option Text)) {j : Nat} {t : Text} (h : col[j]? = some (some t)) (h1 : ∀ u, some u ∈ col → (c.num false u).isSome = true) :
    ((convert c col)[j]?).join = c.num (col.any Option.isNone || !(col.filterMap id).all c.isInt) t := by
  unfold convert
  dsimp only
  rw [if_pos, List.getElem?_map, h]
  · rfl
  · rw [List.all_eq_true]
    intro u hu
    obtain ⟨x, hx, hxu⟩ := List.mem_filterMap.mp hu
    obtain rfl : x = some u := hxu
    exact h1 u hx

theorem convert_isSome (c : Conv β) (hc : ∀ t, (c.num true t).isSome = (c.num false t).isSome) (col : List (Option Text)) {j : Nat} : ((convert c col)[j]?).join.isSome = ((col[j]?).join).isSome := by
  cases hx : (col[j]?).join with
  | none => rw [convert_missing c col hx]; rfl
  | some t =>
    have hx' : col[j]? = some (some t) := by
      cases h : col[j]? with
      | none => rw [h] at hx; cases hx
      | some x => rw [h] at hx; rw [show x = some t from hx]
    have hm : some t ∈ col := List.mem_of_getElem? hx'
    have hg : t ∈ col.filterMap id := List.mem_filterMap.mpr ⟨some t, hm, rfl⟩
    unfold convert
    dsimp only
    split
    · rename_i hall
      have := List.all_eq_true.mp hall t hg
      rw [List.getElem?_map, hx']
      simp only [Option.map_some, Option.join_some, Option.bind_some, Option.isSome_some]
      cases (col.any Option.isNone || !(col.filterMap id).all c.isInt)
      · exact this
      · rw [hc]; exact this
    · split
      · rename_i hall
        have := List.all_eq_true.mp hall t hg
        rw [List.getElem?_map, hx']
        simpa using this
      · rw [List.getElem?_map, hx']
        rfl

theorem indexOf_long {n k : Nat} (hk : 0 < k) : ∀ {rows : List (List Text)}, rows ≠ [] → (∀ r ∈ rows, r.length = n + k) → n ≠ 0 → indexOf n rows = (k, rows)
  | [], h, _, _ => absurd rfl h
  | [r], _, h, _ => by simp [indexOf, h r]
  | r :: s :: rows, _, h, hn => by
    have h1 := h r (by simp)
    have h2 := h s (by simp)
    rw [indexOf, if_neg (by omega), h1, Nat.add_sub_cancel_left]

end ABX.ReadCsv
