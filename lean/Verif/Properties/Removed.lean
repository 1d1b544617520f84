import Verif.Model.Removed
import Verif.Properties.ItemText
/-!
Property C98: the file that lists the lines removed from an item file.
-/
namespace ABX.Database
open ABX.Database.Spec
variable {β : Type}

namespace Spec
/-- where the reader of a csv file is: outside of quotes, between quotes, after a quote that ends a field or is the first of two -/
inductive CsvAt where
  | out | quoted | closing

/-- the reader of csv files: lines of fields separated by commas; a field may be between quotes, in which two quotes stand for one -/
def csvRead : CsvAt → (field : Text) → (line : List Text) → Text → List (List Text)
  | _, [], [], [] => []
  | _, field, line, [] => [line ++ [field]]
  | .out, field, line, c :: cs =>
    if c = ',' then csvRead .out [] (line ++ [field]) cs
    else if c = '\n' then (line ++ [field]) :: csvRead .out [] [] cs
    else if c = '"' ∧ field = [] then csvRead .quoted [] line cs
    else csvRead .out (field ++ [c]) line cs
  | .quoted, field, line, c :: cs => if c = '"' then csvRead .closing field line cs else csvRead .quoted (field ++ [c]) line cs
  | .closing, field, line, c :: cs =>
    if c = '"' then csvRead .quoted (field ++ ['"']) line cs
    else if c = ',' then csvRead .out [] (line ++ [field]) cs
    else if c = '\n' then (line ++ [field]) :: csvRead .out [] [] cs
    else csvRead .out (field ++ [c]) line cs

/-- the lines of an item file that have a value but miss one in some label column, with their number -/
def incomplete (r : Raw β) (first : Nat) : List (List (Option β) × Nat) :=
  r.rows.zipIdx.filter (fun p => (List.range r.columns.length).any (fun i => (fieldAt p.1 i).isSome) && (List.range' first (r.columns.length - first)).any (fun i => (fieldAt p.1 i).isNone))

/-- the text of a value, nothing for a missing one -/
def shown (sh : β → Text) : Option β → Text
  | none => []
  | some v => sh v
end Spec

/-! ### reading what was written -/

theorem read_out : ∀ (t field : Text) (line : List Text) (rest : Text), (∀ c ∈ t, c ≠ ',' ∧ c ≠ '"' ∧ c ≠ '\n') → csvRead .out field line (t ++ rest) = csvRead .out (field ++ t) line rest
  | [], _, _, _, _ => by simp
  | c :: t, field, line, rest, h => by
    obtain ⟨h1, h2, h3⟩ := h c (by simp)
    rw [List.cons_append, csvRead, if_neg h1, if_neg h3, if_neg (fun h => h2 h.1), read_out t _ line rest (fun c hc => h c (List.mem_cons_of_mem _ hc))]
    simp

theorem read_quoted : ∀ (t field : Text) (line : List Text) (rest : Text),
    csvRead .quoted field line (t.flatMap (fun c => if c = '"' then ['"', '"'] else [c]) ++ '"' :: rest) = csvRead .closing (field ++ t) line rest
  | [], field, line, rest => by
    rw [List.flatMap_nil, List.nil_append, csvRead, if_pos rfl, List.append_nil]
  | c :: t, field, line, rest => by
    rw [List.flatMap_cons]
    by_cases hc : c = '"'
    · subst hc
      rw [if_pos rfl]
      simp only [List.cons_append, List.nil_append]
      rw [csvRead, if_pos rfl, csvRead, if_pos rfl, read_quoted t]
      simp
    · rw [if_neg hc]
      simp only [List.cons_append, List.nil_append]
      rw [csvRead, if_neg hc, read_quoted t]
      simp

/-- after a field -/
theorem read_field (t : Text) (line : List Text) (rest : Text) :
    csvRead .out [] line (csvField t ++ ',' :: rest) = csvRead .out [] (line ++ [t]) rest ∧
    csvRead .out [] line (csvField t ++ '\n' :: rest) = (line ++ [t]) :: csvRead .out [] [] rest := by
  unfold csvField
  split
  · simp only [List.cons_append, List.append_assoc, List.nil_append]
    constructor
    · rw [csvRead, if_neg (by decide), if_neg (by decide), if_pos ⟨rfl, rfl⟩, read_quoted, csvRead, if_neg (by decide), if_pos rfl]
      rfl
    · rw [csvRead, if_neg (by decide), if_neg (by decide), if_pos ⟨rfl, rfl⟩, read_quoted, csvRead, if_neg (by decide), if_neg (by decide), if_pos rfl]
      rfl
  · rename_i h
    have ht : ∀ c ∈ t, c ≠ ',' ∧ c ≠ '"' ∧ c ≠ '\n' := by
      intro c hc
      simp only [List.any_eq_true, not_exists, not_and, Bool.not_eq_true] at h
      have := h c hc
      simpa [not_or, and_assoc] using this
    constructor
    · rw [read_out t _ _ _ ht, csvRead, if_pos rfl]
      rfl
    · rw [read_out t _ _ _ ht, csvRead, if_neg (by decide), if_pos rfl]
      rfl

theorem read_join : ∀ (fields : List Text) (line : List Text) (rest : Text), fields ≠ [] → csvRead .out [] line (csvJoin fields ++ '\n' :: rest) = (line ++ fields) :: csvRead .out [] [] rest
  | [], _, _, h => absurd rfl h
  | [x], line, rest, _ => (read_field x line rest).2
  | x :: y :: xs, line, rest, _ => by
    rw [csvJoin, List.append_assoc, List.cons_append, (read_field x line _).1, read_join (y :: xs) _ rest (by simp)]
    · simp
    · simp

theorem read_line (fields : List Text) (rest : Text) (h : fields ≠ []) : csvRead .out [] [] (csvLine fields ++ rest) = fields :: csvRead .out [] [] rest := by
  unfold csvLine
  split
  · rename_i e
    subst e
    rfl
  · rw [List.append_assoc]
    exact read_join fields [] rest h

/-- C98: a csv file is read as the lines that were written, whatever the fields. -/
theorem C98_csv : ∀ (lines : List (List Text)), (∀ l ∈ lines, l ≠ []) → csvRead .out [] [] (lines.map csvLine).flatten = lines
  | [], _ => rfl
  | l :: lines, h => by
    rw [List.map_cons, List.flatten_cons, read_line l _ (h l (by simp)), C98_csv lines (fun l hl => h l (List.mem_cons_of_mem _ hl))]

/-! ### the lines that are listed -/

section
variable {fs : Text → Option (Raw β)} {f : Text} {r : Raw β} {loc : List Text} {x : Text} {lab : List Text}

theorem labelTable_eq (hn : Named r.columns) (h : Header r.columns loc x lab) (hd : ("file".toList :: "onset".toList :: "offset".toList :: loc ++ x :: lab).Nodup) :
    labelTable (readTable r) = some ⟨x :: lab, (readTable r).rows.map (fun p => (p.1, (List.range' (3 + loc.length) (lab.length + 1)).map (fieldAt p.2)))⟩ := by
  unfold labelTable
  have hn' : ∀ c ∈ (readTable r).columns, c ≠ [] := fun c hc => (hn c hc).1
  have h' : Header (readTable r).columns loc x lab := h
  rw [sharps_ok hn', header_pos h']
  dsimp only
  have hnames : (readTable r).columns.map strip = ("file".toList :: "onset".toList :: "offset".toList :: loc) ++ x :: lab := header_names h'
  generalize hN : (readTable r).columns.map strip = N at *
  have hNlen : N.length = 3 + loc.length + (lab.length + 1) := by rw [hnames]; simp; omega
  have hNd : N.Nodup := by rw [hnames]; exact hd
  have hdrop : N.drop (3 + loc.length) = x :: lab := by
    rw [hnames]
    simp [show 3 + loc.length = loc.length + 1 + 1 + 1 by omega]
  have s2 : selectPos N (N.drop (3 + loc.length)) = List.range' (3 + loc.length) (lab.length + 1) := by
    rw [selectPos_drop hNd (by omega), hNlen]
    congr 1
    omega
  have c2 : (List.range' (3 + loc.length) (lab.length + 1)).filterMap (fun i => N[i]?) = x :: lab := by
    rw [filterMap_range' N _ _ (by omega), hdrop]
    simp
  unfold select
  simp only [s2, c2]

theorem dropped_rows (h : Header r.columns loc x lab) :
    ((readTable r).rows.map (fun p => (p.1, (List.range' (3 + loc.length) (lab.length + 1)).map (fieldAt p.2)))).filter (fun p => p.2.any Option.isNone) =
    (incomplete r (3 + loc.length)).map (fun p => (p.2, (List.range' (3 + loc.length) (lab.length + 1)).map (fieldAt p.1))) := by
  have hlen : r.columns.length = 3 + loc.length + (lab.length + 1) := by
    rw [h.eq]; simp; omega
  unfold incomplete readTable
  dsimp only
  rw [hlen, show 3 + loc.length + (lab.length + 1) - (3 + loc.length) = lab.length + 1 by omega, List.map_map, List.filter_map]
  have : ∀ l : List (List (Option β) × Nat), l.filter (fun p => (List.range (3 + loc.length + (lab.length + 1))).any (fun i => (fieldAt p.1 i).isSome) &&
      (List.range' (3 + loc.length) (lab.length + 1)).any (fun i => (fieldAt p.1 i).isNone)) =
      (l.filter (fun p => (List.range (3 + loc.length + (lab.length + 1))).any (fun i => (fieldAt p.1 i).isSome))).filter (fun p => (List.range' (3 + loc.length) (lab.length + 1)).any (fun i => (fieldAt p.1 i).isNone)) := by
    intro l
    rw [List.filter_filter]
    apply List.filter_congr
    intro p _
    rw [Bool.and_comm]
  rw [this]
  congr 1
  apply List.filter_congr
  intro p _
  simp only [Function.comp, List.any_map]
  rfl

/-- C98: the file of removed lines is written exactly when some line has a value but misses one in a label column; it is called after the item file, and read as a csv file it has the names of the label columns and,
for each such line, its number and its labels, with nothing for the missing ones. -/
theorem C98_listed_partial (sh : β → Text) (hf : fs (addExt f) = some r) (hn : Named r.columns) (h : Header r.columns loc x lab)
    (hd : ("file".toList :: "onset".toList :: "offset".toList :: loc ++ x :: lab).Nodup) (ha : ∀ c ∈ x :: lab, Alone fs f c) :
    (removedFile sh fs f = none ↔ incomplete r (3 + loc.length) = []) ∧
    ∀ name t, removedFile sh fs f = some (name, t) → name = base f ++ "-removed.item".toList ∧
      csvRead .out [] [] t = ([] :: x :: lab) :: (incomplete r (3 + loc.length)).map (fun p => Nat.toDigits 10 p.2 :: (List.range' (3 + loc.length) (lab.length + 1)).map (fun i => shown sh (fieldAt p.1 i))) := by
  obtain ⟨L, hL⟩ := (C54_accepts fs f hf hn).mpr ⟨loc, x, lab, h, ha⟩
  have e : removedFile sh fs f = if (incomplete r (3 + loc.length)).isEmpty then none else
      some (base f ++ "-removed".toList ++ itemExt, toCsv sh ⟨x :: lab, (incomplete r (3 + loc.length)).map (fun p => (p.2, (List.range' (3 + loc.length) (lab.length + 1)).map (fieldAt p.1)))⟩) := by
    unfold removedFile
    rw [hL]
    dsimp only
    rw [hf]
    dsimp only
    rw [labelTable_eq hn h hd]
    have hdr : droppedOf ⟨x :: lab, (readTable r).rows.map (fun p => (p.1, (List.range' (3 + loc.length) (lab.length + 1)).map (fieldAt p.2)))⟩ =
        ⟨x :: lab, (incomplete r (3 + loc.length)).map (fun p => (p.2, (List.range' (3 + loc.length) (lab.length + 1)).map (fieldAt p.1)))⟩ := by
      unfold droppedOf
      dsimp only
      rw [dropped_rows h]
    dsimp only
    rw [hdr]
    simp only [List.isEmpty_map]
    rfl
  rw [e]
  constructor
  · split
    · rename_i h
      simp [List.isEmpty_iff.mp h]
    · rename_i h
      simp only [reduceCtorEq, false_iff]
      intro he
      exact h (by rw [he]; rfl)
  · intro name t he
    split at he
    · cases he
    · obtain ⟨rfl, rfl⟩ := Prod.mk.inj (Option.some.inj he)
      refine ⟨by rw [List.append_assoc]; rfl, ?_⟩
      unfold toCsv
      dsimp only
      have := C98_csv (([] :: x :: lab) :: (incomplete r (3 + loc.length)).map (fun p => Nat.toDigits 10 p.2 :: (List.range' (3 + loc.length) (lab.length + 1)).map (fun i => shown sh (fieldAt p.1 i)))) (by
        intro l hl
        rcases List.mem_cons.mp hl with rfl | hl
        · simp
        · obtain ⟨p, -, rfl⟩ := List.mem_map.mp hl
          simp)
      rw [← this]
      simp only [List.map_cons, List.map_map]
      congr 3
      apply List.map_congr_left
      intro p _
      simp only [Function.comp, List.map_map]
      refine congrArg csvLine (congrArg _ ?_)
      apply List.map_congr_left
      intro i _
      simp only [Function.comp]
      unfold csvValue shown
      cases fieldAt p.1 i <;> rfl

/-- C98: a line with a value is either loaded or listed, not both. -/
theorem C98_partition (r : Raw β) (first : Nat) (j : Nat) (row : List (Option β)) (hrow : r.rows[j]? = some row) (hv : ∃ i < r.columns.length, (fieldAt row i).isSome = true) :
    (j ∈ (complete r first).map (·.2) ∨ j ∈ (incomplete r first).map (·.2)) ∧ ¬ (j ∈ (complete r first).map (·.2) ∧ j ∈ (incomplete r first).map (·.2)) := by
  have hz : (row, j) ∈ r.rows.zipIdx := List.mem_zipIdx_iff_getElem?.mpr hrow
  have huniq : ∀ p ∈ r.rows.zipIdx, p.2 = j → p = (row, j) := by
    rintro ⟨row', j'⟩ hp rfl
    have := List.mem_zipIdx_iff_getElem?.mp hp
    rw [hrow] at this
    rw [Option.some.inj this]
  have hc : j ∈ (complete r first).map (·.2) ↔ (List.range' first (r.columns.length - first)).all (fun i => (fieldAt row i).isSome) = true := by
    rw [List.mem_map]
    constructor
    · rintro ⟨p, hp, rfl⟩
      obtain ⟨h1, h2⟩ := List.mem_filter.mp hp
      rw [huniq p h1 rfl] at h2
      exact h2
    · intro h
      exact ⟨(row, j), List.mem_filter.mpr ⟨hz, h⟩, rfl⟩
  have hi : j ∈ (incomplete r first).map (·.2) ↔ (List.range' first (r.columns.length - first)).any (fun i => (fieldAt row i).isNone) = true := by
    rw [List.mem_map]
    constructor
    · rintro ⟨p, hp, rfl⟩
      obtain ⟨h1, h2⟩ := List.mem_filter.mp hp
      rw [huniq p h1 rfl, Bool.and_eq_true] at h2
      exact h2.2
    · intro h
      refine ⟨(row, j), List.mem_filter.mpr ⟨hz, ?_⟩, rfl⟩
      rw [Bool.and_eq_true]
      obtain ⟨i, h1, h2⟩ := hv
      exact ⟨List.any_eq_true.mpr ⟨i, List.mem_range.mpr h1, h2⟩, h⟩
  rw [hc, hi, List.all_eq_true, List.any_eq_true]
  constructor
  · by_cases h : ∀ i ∈ List.range' first (r.columns.length - first), (fieldAt row i).isSome = true
    · exact .inl h
    · right
      push Not at h
      obtain ⟨i, h1, h2⟩ := h
      exact ⟨i, h1, by simpa using h2⟩
  · rintro ⟨h1, i, h2, h3⟩
    have := h1 i h2
    rw [Option.isSome_iff_ne_none] at this
    exact this (by simpa using h3)

/-- C98 is false of lines without any value: they are neither loaded nor listed. -/
theorem C98_violated_empty (r : Raw β) (first : Nat) (hfirst : first < r.columns.length) (j : Nat) (row : List (Option β)) (hrow : r.rows[j]? = some row) (hv : ∀ i < r.columns.length, fieldAt row i = none) :
    j ∉ (complete r first).map (·.2) ∧ j ∉ (incomplete r first).map (·.2) := by
  constructor <;> intro hj <;> obtain ⟨⟨row', j'⟩, hp, rfl⟩ := List.mem_map.mp hj <;> obtain ⟨h1, h2⟩ := List.mem_filter.mp hp <;>
    have h3 := List.mem_zipIdx_iff_getElem?.mp h1 <;> dsimp only at hrow <;> rw [hrow] at h3 <;> obtain rfl := Option.some.inj h3
  · have := List.all_eq_true.mp h2 first (List.mem_range'_1.mpr ⟨le_rfl, by omega⟩)
    rw [hv first hfirst] at this
    cases this
  · rw [Bool.and_eq_true] at h2
    obtain ⟨i, h4, h5⟩ := List.any_eq_true.mp h2.1
    rw [hv i (List.mem_range.mp h4)] at h5
    cases h5
end

/-! ### the file is not an item file -/
section
open ReadCsv ReadCsv.Spec

theorem csvField_chars {t : Text} {c : Char} (h : c ∈ csvField t) : c ∈ t ∨ c = '"' := by
  unfold csvField at h
  split at h
  · simp only [List.cons_append, List.mem_cons, List.mem_append, List.mem_flatMap, List.not_mem_nil, or_false] at h
    rcases h with h | ⟨d, hd, hc⟩ | h
    · exact .inr h
    · split at hc
      · simp at hc; exact .inr hc
      · rw [List.mem_singleton] at hc; subst hc; exact .inl hd
    · exact .inr h
  · exact .inl h

theorem csvJoin_chars : ∀ {fields : List Text} {c : Char}, c ∈ csvJoin fields → (∃ t ∈ fields, c ∈ t) ∨ c = '"' ∨ c = ','
  | [], _, h => by cases h
  | [x], c, h => by
    rcases csvField_chars h with h | h
    · exact .inl ⟨x, by simp, h⟩
    · exact .inr (.inl h)
  | x :: y :: xs, c, h => by
    rw [csvJoin] at h
    · rcases List.mem_append.mp h with h | h
      · rcases csvField_chars h with h | h
        · exact .inl ⟨x, by simp, h⟩
        · exact .inr (.inl h)
      · rcases List.mem_cons.mp h with h | h
        · exact .inr (.inr h)
        · rcases csvJoin_chars h with ⟨t, ht, hc⟩ | h
          · exact .inl ⟨t, List.mem_cons_of_mem _ ht, hc⟩
          · exact .inr h
    · simp

theorem csv_word {fields : List Text} (h2 : 2 ≤ fields.length) (h : ∀ t ∈ fields, ∀ c ∈ t, ¬ Space c) : Word (csvJoin fields) := by
  constructor
  · match fields, h2 with
    | x :: y :: xs, _ => simp [csvJoin]
  · intro c hc
    rcases csvJoin_chars hc with ⟨t, ht, hc⟩ | rfl | rfl
    · exact h t ht c hc
    · simp [Space]
    · simp [Space]

/-- C98: the file of removed lines, although it is called '.item', is not an item file: loading it raises AssertionError, if no name and no text of a label has white space. -/
theorem C98_violated_reload (cv : Conv Val) (sh : Val → Text) (hsh : ∀ v, ∀ c ∈ sh v, ¬ Space c) {fs : Text → Option (Raw Val)} {f : Text} {r : Raw Val} {loc : List Text} {x : Text} {lab : List Text}
    (hf : fs (addExt f) = some r) (hn : Named r.columns) (h : Header r.columns loc x lab)
    (hd : ("file".toList :: "onset".toList :: "offset".toList :: loc ++ x :: lab).Nodup) (ha : ∀ c ∈ x :: lab, Alone fs f c) (hw : ∀ c ∈ x :: lab, ∀ ch ∈ c, ¬ Space ch)
    {name t : Text} (hr : removedFile sh fs f = some (name, t)) {texts : Text → Option Text} (ht : texts (addExt name) = some t) : loadText cv texts name = .error .assertion := by
  obtain ⟨L, hL⟩ := (C54_accepts fs f hf hn).mpr ⟨loc, x, lab, h, ha⟩
  obtain ⟨rows, hne, rfl⟩ : ∃ rows : List (Nat × List (Option Val)), (∀ p ∈ rows, p.2 ≠ []) ∧ t = toCsv sh ⟨x :: lab, rows⟩ := by
    unfold removedFile at hr
    rw [hL] at hr
    dsimp only at hr
    rw [hf] at hr
    dsimp only at hr
    rw [labelTable_eq hn h hd] at hr
    dsimp only at hr
    split at hr
    · cases hr
    · refine ⟨_, ?_, (Prod.mk.inj (Option.some.inj hr)).2.symm⟩
      intro p hp
      obtain ⟨q, -, rfl⟩ := List.mem_map.mp (List.mem_filter.mp hp).1
      simp
  have hdig : ∀ n, ∀ c ∈ Nat.toDigits 10 n, ¬ Space c := by
    intro n c hc hs
    have := Char.isDigit_iff_toNat.mp (Nat.isDigit_of_mem_toDigits (by decide) (by decide) hc)
    have h1 : (48 : Nat) ≤ c.toNat := this.1
    have h2 : c.toNat ≤ (57 : Nat) := this.2
    unfold Space at hs
    simp only [List.mem_cons, List.not_mem_nil, or_false] at hs
    omega
  have hval : ∀ v, ∀ c ∈ csvValue sh v, ¬ Space c := by
    intro v
    cases v with
    | none => intro c hc; cases hc
    | some v => exact hsh v
  have hhead : Word (csvJoin ([] :: x :: lab)) := csv_word (by simp) (by
    intro t ht c hc
    rcases List.mem_cons.mp ht with rfl | ht
    · cases hc
    · exact hw t ht c hc)
  have lineOf : ∀ {fields : List Text}, fields ≠ [[]] → csvLine fields = [] ++ csvJoin fields ++ [] ++ ['\n'] := by
    intro fields hne
    unfold csvLine
    rw [if_neg hne]
    simp
  have hrows : ∀ rows : List (Nat × List (Option Val)), (∀ p ∈ rows, p.2 ≠ []) → ∃ ws : List Text, TextOf (ws.map (fun w => [w])) (rows.map (fun p => csvLine (Nat.toDigits 10 p.1 :: p.2.map (csvValue sh)))).flatten := by
    intro rows
    induction rows with
    | nil => exact fun _ => ⟨[], .nil (fun c hc => by cases hc)⟩
    | cons p rows ih =>
      intro hp
      obtain ⟨ws, hws⟩ := ih (fun q hq => hp q (List.mem_cons_of_mem _ hq))
      have h1 := hp p (by simp)
      obtain ⟨v, vs, hv⟩ : ∃ v vs, p.2 = v :: vs := List.exists_cons_of_ne_nil h1
      have hword : Word (csvJoin (Nat.toDigits 10 p.1 :: p.2.map (csvValue sh))) := csv_word (by rw [hv]; simp) (by
        intro t ht c hc
        rcases List.mem_cons.mp ht with rfl | ht
        · exact hdig _ c hc
        · obtain ⟨v, -, rfl⟩ := List.mem_map.mp ht
          exact hval v c hc)
      refine ⟨csvJoin (Nat.toDigits 10 p.1 :: p.2.map (csvValue sh)) :: ws, ?_⟩
      rw [List.map_cons, List.map_cons, List.flatten_cons, lineOf (by rw [hv]; simp), List.append_assoc _ ['\n']]
      exact TextOf.line (by simp) (.one hword) (by simp) (.inl rfl) hws
  obtain ⟨ws, hws⟩ := hrows rows hne
  have htext : TextOf ([csvJoin ([] :: x :: lab)] :: ws.map (fun w => [w])) (toCsv sh ⟨x :: lab, rows⟩) := by
    unfold toCsv
    dsimp only
    rw [List.flatten_cons, lineOf (by simp), List.append_assoc _ ['\n']]
    exact TextOf.line (by simp) (.one hhead) (by simp) (.inl rfl) hws
  unfold loadText
  rw [ht]
  dsimp only
  rw [readCsv_short cv htext (by simp) (by
    intro r hr
    obtain ⟨w, -, rfl⟩ := List.mem_map.mp hr
    simp)]
  dsimp only
  unfold process
  rw [if_pos]
  show join [csvJoin ([] :: x :: lab)] ≠ _
  unfold join csvJoin
  intro he
  have := congrArg List.head? he
  simp [csvField] at this
end

/-! ### examples -/

/-- a file whose second line misses a label, and whose fourth has no value at all -/
def raw98 : Raw Val := ⟨["#file", "onset", "offset", "#phone", "talker"].map String.toList,
  [[some (.str "f1"), some (.int 0), some (.int 1), some (.str "a"), some (.str "s1")], [some (.str "f2"), some (.int 1), some (.int 2), none, some (.str "x,\"y\"")],
    [some (.str "f3"), some (.int 2), some (.int 3), some (.str "b"), some (.str "s1")], [none, none, none, none, none]]⟩

/-- the text of a label -/
def show98 : Val → Text
  | .str s => s.toList
  | .int n => (toString n).toList

/-- C98, example -/
example : removedFile show98 (fun f => if f = "d.item".toList then some raw98 else none) "d".toList = some ("d-removed.item".toList, ",phone,talker\n1,,\"x,\"\"y\"\"\"\n".toList) := by decide +kernel

example : csvRead .out [] [] ",phone,talker\n1,,\"x,\"\"y\"\"\"\n".toList = [[[], "phone".toList, "talker".toList], ["1".toList, [], "x,\"y\"".toList]] := by decide +kernel

#print axioms C98_csv
#print axioms C98_listed_partial
#print axioms C98_partition
#print axioms C98_violated_empty
#print axioms C98_violated_reload

end ABX.Database
