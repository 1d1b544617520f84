import Verif.Properties.ItemText
/-!
C97, continued: files that cannot be read, repeated names of columns, and columns of booleans.
-/
namespace ABX.ReadCsv
open Database ReadCsv.Spec Database.Spec SideOps

/-- how many times a name was given -/
def cnt (counts : List (Text × Nat)) (k : Text) : Nat := (counts.lookup k).getD 0

theorem cnt_cons (counts : List (Text × Nat)) (c k : Text) (n : Nat) : cnt ((c, n) :: counts) k = if k = c then n else cnt counts k := by
  unfold cnt
  rw [List.lookup_cons]
  by_cases h : k = c
  · subst h; simp
  · rw [if_neg h]
    have : (k == c) = false := by simpa using h
    rw [this]

theorem cnt_mem {counts : List (Text × Nat)} {k : Text} (h : 0 < cnt counts k) : ∃ n, (k, n) ∈ counts := by
  induction counts with
  | nil => simp [cnt] at h
  | cons p counts ih =>
    obtain ⟨c, n⟩ := p
    rw [cnt_cons] at h
    by_cases hk : k = c
    · exact ⟨n, by simp [hk]⟩
    · rw [if_neg hk] at h
      obtain ⟨m, hm⟩ := ih h
      exact ⟨m, List.mem_cons_of_mem _ hm⟩

theorem rename_spec : ∀ (fuel : Nat) (counts : List (Text × Nat)) (c : Text), (counts.filter (fun p => decide (c.length ≤ p.1.length))).length < fuel →
    ∃ r counts', rename fuel counts c = (r, (r, 1) :: counts') ∧ cnt counts' r = 0 ∧ (∀ k, 0 < cnt counts' k ↔ 0 < cnt counts k) ∧ c <+: r ∧ (cnt counts c = 0 → r = c)
  | 0, _, _, h => absurd h (Nat.not_lt_zero _)
  | fuel + 1, counts, c, h => by
    rw [rename]
    cases hn : (counts.lookup c).getD 0 with
    | zero => exact ⟨c, counts, rfl, hn, fun _ => Iff.rfl, List.prefix_refl _, fun _ => rfl⟩
    | succ n =>
      dsimp only
      have hpos : 0 < cnt counts c := by unfold cnt; omega
      obtain ⟨m, hm⟩ := cnt_mem hpos
      have hlen : c.length < (c ++ '.' :: Nat.toDigits 10 (n + 1)).length := by simp
      have hmeas : (((c, n + 2) :: counts).filter (fun p => decide ((c ++ '.' :: Nat.toDigits 10 (n + 1)).length ≤ p.1.length))).length < fuel := by
        rw [List.filter_cons_of_neg (by simp only [decide_eq_true_eq]; omega)]
        have hsub : (counts.filter (fun p => decide ((c ++ '.' :: Nat.toDigits 10 (n + 1)).length ≤ p.1.length))) =
            (counts.filter (fun p => decide (c.length ≤ p.1.length))).filter (fun p => decide ((c ++ '.' :: Nat.toDigits 10 (n + 1)).length ≤ p.1.length)) := by
          rw [List.filter_filter]
          refine List.filter_congr fun p _ => ?_
          rw [Bool.eq_iff_iff]
          simp only [Bool.and_eq_true, decide_eq_true_eq]
          omega
        rw [hsub]
        have hlt := List.length_filter_lt_length_iff_exists (l := counts.filter (fun p => decide (c.length ≤ p.1.length))) (p := fun p => decide ((c ++ '.' :: Nat.toDigits 10 (n + 1)).length ≤ p.1.length)) |>.mpr
          ⟨(c, m), List.mem_filter.mpr ⟨hm, by simp⟩, by simp⟩
        omega
      obtain ⟨r, counts', h1, h2, h3, h4, -⟩ := rename_spec fuel _ _ hmeas
      refine ⟨r, counts', h1, h2, fun k => ?_, (List.prefix_append _ _).trans h4, fun h0 => by omega⟩
      rw [h3, cnt_cons]
      by_cases hk : k = c
      · rw [if_pos hk, hk]; simp [hpos]
      · rw [if_neg hk]

theorem dedupe_spec : ∀ (cs : List Text) (counts : List (Text × Nat)) (given : List Text), (∀ k, 0 < cnt counts k ↔ k ∈ given) →
    (dedupe counts cs).Nodup ∧ (∀ r ∈ dedupe counts cs, r ∉ given) ∧ List.Forall₂ (· <+: ·) cs (dedupe counts cs) ∧
      ∀ (i : Nat) (c d : Text), cs[i]? = some c → (dedupe counts cs)[i]? = some d → c ∉ given → c ∉ (dedupe counts cs).take i → d = c
  | [], _, _, _ => ⟨by simp [dedupe], by simp [dedupe], by simp [dedupe], by simp⟩
  | c :: cs, counts, given, hg => by
    obtain ⟨r, counts', h1, h2, h3, h4, h5⟩ := rename_spec (counts.length + 2) counts c (lt_of_le_of_lt (List.length_filter_le _ _) (by omega))
    have hr : r ∉ given := fun hx => by
      have := (h3 r).mpr ((hg r).mpr hx)
      omega
    obtain ⟨i1, i2, i3, i4⟩ := dedupe_spec cs ((r, 1) :: counts') (r :: given) (by
      intro k
      rw [cnt_cons, List.mem_cons, ← hg, ← h3]
      by_cases hk : k = r
      · simp [hk]
      · simp [hk])
    rw [dedupe, h1]
    dsimp only
    refine ⟨List.nodup_cons.mpr ⟨fun hx => i2 r hx (by simp), i1⟩, ?_, List.Forall₂.cons h4 i3, ?_⟩
    · intro d hd
      rcases List.mem_cons.mp hd with rfl | hd
      · exact hr
      · exact fun hx => i2 d hd (List.mem_cons_of_mem _ hx)
    · intro i y d hy hd hng ht
      cases i with
      | zero =>
        rw [List.getElem?_cons_zero] at hy hd
        obtain rfl := Option.some.inj hy
        obtain rfl := Option.some.inj hd
        refine h5 ?_
        by_contra h0
        exact hng ((hg c).mp (Nat.pos_of_ne_zero h0))
      | succ i =>
        rw [List.getElem?_cons_succ] at hy hd
        rw [List.take_succ_cons, List.mem_cons, not_or] at ht
        exact i4 i y d hy hd (by rw [List.mem_cons, not_or]; exact ⟨ht.1, hng⟩) ht.2

section
variable {c : Conv Val} {texts : Text → Option Text} {f t : Text} {header : List Text} {rows : List (List Text)}

/-- C97: the names of the columns of the table are different from each other, also when the header repeats a name: the name of a column is the word of the header, followed by something if an earlier column has this name. -/
theorem C97_repeated (c : Conv Val) (h : TextOf (header :: rows) t) (hl : ∀ r ∈ rows, r.length ≤ header.length) :
    ∃ p, readCsv c t = .ok p ∧ p.raw.rows = (tableOf c header rows).rows ∧ p.raw.columns.Nodup ∧ List.Forall₂ (· <+: ·) header p.raw.columns ∧
      ∀ (i : Nat) (w d : Text), header[i]? = some w → p.raw.columns[i]? = some d → (d = w ↔ w ∉ p.raw.columns.take i) := by
  have hn : 0 < header.length := List.length_pos_of_ne_nil (text_rows h header (by simp)).1
  have hr : readCsv c t = .ok ⟨0, dedupe [] header, tableRows c header.length 0 rows⟩ := by
    unfold readCsv
    rw [fields_text h]
    dsimp only
    rw [indexOf_short hn (fun r hr => ⟨(text_rows h r (List.mem_cons_of_mem _ hr)).1, hl r hr⟩)]
    dsimp only
    rw [if_neg]
    · rfl
    · simp only [List.any_eq_true, decide_eq_true_eq, not_exists, not_and, not_lt]
      intro r hr
      rw [Nat.add_zero]
      exact hl r hr
  obtain ⟨h1, -, h3, h4⟩ := dedupe_spec header [] [] (by intro k; simp [cnt])
  refine ⟨_, hr, rfl, h1, h3, fun i w d hw hd => ⟨?_, fun hx => h4 i w d hw hd (by simp) hx⟩⟩
  rintro rfl hx
  obtain ⟨j, hj⟩ := List.mem_iff_getElem?.mp hx
  dsimp only at hd hj
  have hj1 := (List.getElem?_eq_some_iff.mp hj).1
  rw [List.length_take] at hj1
  rw [List.getElem?_take_of_lt (by omega)] at hj
  have hlt := (List.getElem?_eq_some_iff.mp hd).1
  have := (List.nodup_iff_getElem?_ne_getElem?.mp h1) j i (by omega) hlt
  exact this (by rw [hj, hd])

theorem boolWord_word {w : Text} (h : Boolean w) : boolWord w = some (decide (String.ofList w ∈ ["True", "TRUE", "true"])) := by
  have key : ∀ s : String, w = s.toList ↔ String.ofList w = s := by
    intro s
    constructor
    · rintro rfl; simp
    · intro h; rw [← h]; simp
  unfold Boolean at h
  unfold boolWord
  simp only [List.map_cons, List.map_nil, List.mem_cons, List.not_mem_nil, or_false, key] at h ⊢
  rcases h with h | h | h | h | h | h <;> rw [h] <;> decide

theorem boolean_not_number {w : Text} (h : Boolean w) : ¬ NumberLike w ∧ ¬ Missing w := by
  have key : ∀ s : String, String.ofList w = s → w = s.toList := by intro s h; rw [← h]; simp
  unfold Boolean at h
  simp only [List.mem_cons, List.not_mem_nil, or_false] at h
  have hn : ∀ s ∈ ["True", "TRUE", "true", "False", "FALSE", "false"], (∃ x u, s.toList = x :: u ∧ x ∉ "0123456789+-.".toList) ∧ s.toList.map Char.toLower ∉ ["inf".toList, "infinity".toList, "nan".toList] ∧ ¬ Missing s.toList := by
    intro s hs
    simp only [List.mem_cons, List.not_mem_nil, or_false] at hs
    rcases hs with rfl | rfl | rfl | rfl | rfl | rfl <;> exact ⟨⟨_, _, rfl, by decide⟩, by decide, by decide⟩
  obtain ⟨s, hs, rfl⟩ : ∃ s ∈ ["True", "TRUE", "true", "False", "FALSE", "false"], w = s.toList := by
    rcases h with h | h | h | h | h | h <;> exact ⟨_, by simp, key _ h⟩
  obtain ⟨⟨x, u, e, hx⟩, h2, h3⟩ := hn s hs
  refine ⟨?_, h3⟩
  rintro (⟨y, v, e', hy⟩ | h)
  · rw [e] at e'
    obtain ⟨rfl, -⟩ := List.cons.inj e'
    exact hx hy
  · exact h2 h

/-- C97: the words of a column in which all words are booleans, or missing values, are booleans. -/
theorem C97_booleans (hc : Lawful c) (h : TextOf (header :: rows) t) {i : Nat} (hi : i < header.length) (hp : ∀ j w, WordAt rows j i w → Boolean w ∨ Missing w) {j : Nat} {w : Text} (hw : WordAt rows j i w)
    (hb : Boolean w) {r : List (Option Val)} (hr : (tableOf c header rows).rows[j]? = some r) : fieldAt r i = some (c.bool (decide (String.ofList w ∈ ["True", "TRUE", "true"]))) := by
  rw [table_field hi hr]
  have hcol := field_column h hw
  rw [if_neg (boolean_not_number hb).2] at hcol
  have hget : (rows.map (fun row => cell 0 row i))[j]? = some (some w) := by
    cases hx : (rows.map (fun row => cell 0 row i))[j]? with
    | none => rw [hx] at hcol; cases hcol
    | some y => rw [hx] at hcol; rw [show y = some w from hcol]
  have hall : ∀ u ∈ (rows.map (fun row => cell 0 row i)).filterMap id, Boolean u := by
    intro u hu
    obtain ⟨y, hy, e⟩ := List.mem_filterMap.mp hu
    obtain rfl : y = some u := e
    obtain ⟨k, hk⟩ := List.mem_iff_getElem?.mp hy
    obtain ⟨row, h1, h2⟩ : ∃ row, rows[k]? = some row ∧ cell 0 row i = some u := by simpa using hk
    unfold cell at h2
    obtain ⟨h3, h4⟩ := Option.filter_eq_some_iff.mp h2
    rw [Nat.zero_add] at h3
    rcases hp k u ⟨row, h1, h3⟩ with h | hm
    · exact h
    · have hne : u ≠ [] := ((text_rows h row (List.mem_cons_of_mem _ (List.mem_of_getElem? h1))).2 u (List.mem_of_getElem? h3)).1
      rw [(naWords_iff hne).mpr hm] at h4
      cases h4
  unfold convert
  dsimp only
  have hwm : w ∈ (rows.map (fun row => cell 0 row i)).filterMap id := List.mem_filterMap.mpr ⟨some w, List.mem_of_getElem? hget, rfl⟩
  rw [if_neg, if_pos, List.getElem?_map, hget]
  · simp only [Option.map_some, Option.bind_some, boolWord_word hb, Option.join_some]
  · rw [List.all_eq_true]
    intro u hu
    rw [boolWord_word (hall u hu)]
    rfl
  · rw [List.all_eq_true]
    intro hx
    exact (boolean_not_number hb).1 (hc.first w (hx w hwm))

/-- C97: a file that does not exist raises an IOError, a file without words a ValueError (the EmptyDataError of pandas is one). -/
theorem C97_unreadable (c : Conv Val) : (texts (addExt f) = none → loadText c texts f = .error .ioError) ∧
    (texts (addExt f) = some t → (∀ ch ∈ t, Space ch) → loadText c texts f = .error .valueError) := by
  constructor
  · intro h
    unfold loadText
    rw [h]
  · intro h hs
    unfold loadText
    rw [h]
    dsimp only
    have : readCsv c t = .error .valueError := by
      unfold readCsv
      rw [fields_text (.nil hs)]
    rw [this]
end

/-- C97, example: a header with repeated names -/
example : (match readCsv conv0 "#file onset offset #phone a a a.1 a\nf1 0 1 x 1 2 3 4\n".toList with
      | .ok p => some (p.raw.columns.map String.ofList)
      | .error _ => none) = some ["#file", "onset", "offset", "#phone", "a", "a.1", "a.1.1", "a.2"] := by
  decide +kernel

/-- C97, example: a column of booleans, and a column with a boolean and another word -/
example : (match readCsv conv0 "#file onset offset #p q\nf1 0 1 true true\nf2 1 2 FALSE no\n".toList with
      | .ok p => some (p.raw.rows.map (fun r => r.drop 3))
      | .error _ => none) = some [[some (.int 1), some (.str "true")], [some (.int 0), some (.str "no")]] := by
  decide +kernel

/-- C97, example: what the theorem on columns of booleans is about -/
example : WordAt [["f1".toList, "true".toList]] 0 1 "true".toList ∧ Boolean "true".toList := ⟨⟨_, rfl, rfl⟩, by simp [Boolean]⟩

/-- C97: the extension is added to the name exactly when the name does not end with it -/
theorem C97_extension (f : Text) : (".item".toList <:+ f → addExt f = f) ∧ (¬ ".item".toList <:+ f → addExt f = f ++ ".item".toList) := by
  have key : (itemExt.length ≤ f.length && f.drop (f.length - itemExt.length) == itemExt) = true ↔ itemExt <:+ f := by
    rw [Bool.and_eq_true, decide_eq_true_eq, beq_iff_eq]
    constructor
    · rintro ⟨-, h⟩
      exact ⟨f.take (f.length - itemExt.length), by rw [← h, h, ← h, h]; nth_rewrite 2 [← h]; exact List.take_append_drop ..⟩
    · rintro ⟨p, rfl⟩
      simp
  constructor
  · intro h
    unfold addExt
    rw [if_pos (key.mpr h)]
  · intro h
    unfold addExt
    rw [if_neg (fun hh => h (key.mp hh))]
    rfl
example : addExt "item".toList = "item.item".toList ∧ addExt ".item".toList = ".item".toList ∧ addExt "a.items".toList = "a.items.item".toList := by decide

#print axioms C97_extension
#print axioms C97_repeated
#print axioms C97_booleans
#print axioms C97_unreadable

end ABX.ReadCsv
