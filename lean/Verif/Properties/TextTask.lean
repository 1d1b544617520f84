import Verif.Properties.GeneratedText
import Verif.Properties.EveryText
import Verif.Properties.Lines
/-!
C97, C61 and C84: an experiment from the text of the item file to the results, in terms of the words of the file.
-/
namespace ABX.ReadCsv
open Database ReadCsv.Spec Database.Spec SideOps ABX.Task Pipeline ABX.Spec Analyze
variable {φ δ : Type}

namespace Spec
/-- the value of the word of a line in the label column `c`; the label columns begin at position `first` -/
def wordVal (first : Nat) (labels : List Text) (rows : List (List Text)) (j : Nat) (c : String) : Option Val :=
  ((rows[j]?).bind (fun row => row[first + labels.findIdx (fun d => String.ofList d == c)]?)).map wordValue

/-- the numbers of the lines with an 'on' label and 'across' labels; `val` gives the label of a line in a column -/
def numCell (val : Nat → String → Option Val) (on : String) (across : List String) (lines : List Nat) (l : Val) (s : String → Val) : List Nat :=
  lines.filter (fun j => val j on == some l && across.all (fun c => val j c == some (s c)))

/-- the triplets of numbers of lines with given labels; without across column X is another line than A -/
def numGroup (val : Nat → String → Option Val) (on : String) (across : List String) (lines : List Nat) (l : Labels) : List (Nat × Nat × Nat) :=
  (numCell val on across lines l.on1 l.across1).flatMap (fun A => (numCell val on across lines l.on2 l.across1).flatMap (fun B =>
    ((numCell val on across lines l.on1 l.across2).filter (fun X => !across.isEmpty || X != A)).map (fun X => (A, B, X))))

/-- the level of a line: its labels in the by columns, or the level 0 when there is no by column -/
def numLevel (val : Nat → String → Option Val) (by_ : List String) (j : Nat) (key : List Val) : Prop := if by_ = [] then key = [.int 0] else by_.map (val j) = key.map some

/-- the lines of a level, in the order of the file of `n` lines -/
def numLines (val : Nat → String → Option Val) (n : Nat) (by_ : List String) (key : List Val) : List Nat :=
  (List.range n).filter (fun j => by_.map (val j) == (if by_ = [] then [] else key.map some))

/-- `q` is the ABX score of three lines: 1 when X is nearer to A, 0 when it is nearer to B, 1/2 otherwise; `dist` is the distance of two lines -/
def IsNumAbx (lt : δ → δ → Bool) (dist : Nat → Nat → Except Err δ) (t : Nat × Nat × Nat) (q : ℚ) : Prop :=
  ∃ dAX dBX, dist t.1 t.2.2 = .ok dAX ∧ dist t.2.1 t.2.2 = .ok dBX ∧ q = if lt dAX dBX then 1 else if lt dBX dAX then 0 else 1 / 2

/-- each label column has only words of digits, or only plain words -/
def Uniform (header : List Text) (rows : List (List Text)) (first : Nat) : Prop :=
  ∀ i, first ≤ i → i < header.length → (∀ j w, WordAt rows j i w → Digits w) ∨ ∀ j w, WordAt rows j i w → Plain w

/-- the number of combinations of labels of the lines is at most 2^53 -/
def FewWords (val : Nat → String → Option Val) (n : Nat) (on : String) (across : List String) : Prop :=
  ((on :: across).map (fun c => (((List.range n).map (fun j => val j c)).dedup.length) ^ 2)).prod ≤ 2 ^ 53
end Spec

/-- the line as it is read, with its number -/
def lineAt (r : Raw Val) (j : Nat) : Line := ((r.rows[j]?).getD [], j)

theorem lineAt_mem {r : Raw Val} {p : Line} (h : p ∈ r.rows.zipIdx) : lineAt r p.2 = p := by
  have := List.mem_zipIdx_iff_getElem?.mp h
  unfold lineAt
  rw [this]
  rfl

theorem numCell_lines {val : Line → String → Option Val} {val' : Nat → String → Option Val} {on : String} {across : List String} {lines : List Line}
    (h : ∀ p ∈ lines, ∀ c ∈ on :: across, val p c = val' p.2 c) (l : Val) (s : String → Val) :
    numCell val' on across (lines.map (·.2)) l s = (lineCell val on across lines l s).map (·.2) := by
  unfold numCell lineCell
  rw [List.filter_map]
  congr 1
  refine List.filter_congr fun p hp => ?_
  simp only [Function.comp]
  rw [h p hp on (by simp)]
  congr 1
  rw [Bool.eq_iff_iff, List.all_eq_true, List.all_eq_true]
  exact forall₂_congr fun c hc => by rw [h p hp c (List.mem_cons_of_mem _ hc)]

theorem numGroup_lines {val : Line → String → Option Val} {val' : Nat → String → Option Val} {on : String} {across : List String} {lines : List Line}
    (h : ∀ p ∈ lines, ∀ c ∈ on :: across, val p c = val' p.2 c) (l : Labels) :
    numGroup val' on across (lines.map (·.2)) l = (lineGroup val on across lines l).map (fun t => (t.1.2, t.2.1.2, t.2.2.2)) := by
  unfold numGroup lineGroup
  simp only [numCell_lines h, List.flatMap_map, List.map_flatMap, List.filter_map, List.map_map]
  rfl

section
variable {c : Conv Val} {texts : Text → Option Text} {f t : Text} {header : List Text} {rows : List (List Text)} {loc : List Text} {x : Text} {lab : List Text}
  {on : String} {across by_ : List String}

theorem header_length (hH : Header header loc x lab) : header.length = 3 + loc.length + (lab.length + 1) := by rw [hH.eq]; simp; omega

theorem uniform_field (hc : Lawful c) (h : TextOf (header :: rows) t) {first : Nat} (hu : Uniform header rows first) (hl : ∀ r ∈ rows, r.length = header.length) {i : Nat} (h1 : first ≤ i)
    (h2 : i < header.length) {p : Line} (hp : p ∈ (tableOf c header rows).rows.zipIdx) : ∃ w, ((rows[p.2]?).bind (fun row => row[i]?)) = some w ∧ fieldAt p.1 i = some (wordValue w) := by
  have hr : (tableOf c header rows).rows[p.2]? = some p.1 := List.mem_zipIdx_iff_getElem?.mp hp
  have hj : p.2 < rows.length := by
    have := (List.getElem?_eq_some_iff.mp hr).1
    rwa [tableRows_length] at this
  have hlj := hl _ (List.getElem_mem hj)
  have hw : WordAt rows p.2 i (rows[p.2][i]'(by omega)) := ⟨_, List.getElem?_eq_getElem hj, List.getElem?_eq_getElem _⟩
  refine ⟨rows[p.2][i]'(by omega), ?_, ?_⟩
  · rw [List.getElem?_eq_getElem hj, Option.bind_some, List.getElem?_eq_getElem]
  · rcases hu i h1 h2 with hd | hpl
    · rw [C97_digits hc h h2 (fun r hr => by rw [hl r hr]; exact h2) hd hw hr]
      have hd := hd p.2 _ hw
      rw [wordValue, if_pos ⟨hd.1, List.all_eq_true.mpr hd.2⟩]
    · have hpw := hpl p.2 _ hw
      rw [C97_plain_partial hc h h2 ⟨p.2, _, hw, hpw⟩ hw hr, if_neg hpw.2.1, wordValue, if_neg (plain_not_digits hpw)]

theorem uniform_complete (hc : Lawful c) (h : TextOf (header :: rows) t) {first : Nat} (hu : Uniform header rows first) (hl : ∀ r ∈ rows, r.length = header.length) :
    complete (tableOf c header rows) first = (tableOf c header rows).rows.zipIdx := by
  unfold complete
  rw [List.filter_eq_self]
  intro p hp
  rw [List.all_eq_true]
  intro i hi
  have hi := List.mem_range'_1.mp hi
  dsimp only at hi
  obtain ⟨w, -, hw⟩ := uniform_field hc h hu hl hi.1 (by omega) hp
  rw [hw]
  rfl

theorem zipIdx_numbers {α : Type} (l : List α) : l.zipIdx.map (·.2) = List.range l.length := by
  apply List.ext_getElem?
  intro i
  rw [List.getElem?_map, List.getElem?_zipIdx]
  by_cases hi : i < l.length
  · rw [List.getElem?_eq_getElem hi, List.getElem?_range hi]; simp
  · rw [List.getElem?_eq_none (by omega), List.getElem?_eq_none (by simp; omega)]; rfl

theorem uniform_label (hc : Lawful c) (h : TextOf (header :: rows) t) (hH : Header header loc x lab) (hu : Uniform header rows (3 + loc.length)) (hl : ∀ r ∈ rows, r.length = header.length)
    {p : Line} (hp : p ∈ (tableOf c header rows).rows.zipIdx) {y : String} (hy : y.toList ∈ x :: lab) : lineLabel loc x lab p y = wordVal (3 + loc.length) (x :: lab) rows p.2 y := by
  have hi : (x :: lab).findIdx (fun d => String.ofList d == y) < (x :: lab).length := List.findIdx_lt_length_of_exists ⟨y.toList, hy, by simp⟩
  obtain ⟨w, h1, h2⟩ := uniform_field hc h hu hl (Nat.le_add_right (3 + loc.length) ((x :: lab).findIdx (fun d => String.ofList d == y))) (by rw [header_length hH]; simp only [List.length_cons] at hi; omega) hp
  unfold lineLabel label wordVal
  rw [h1, h2]
  rfl

theorem uniform_lines (hc : Lawful c) (h : TextOf (header :: rows) t) (hH : Header header loc x lab) (hu : Uniform header rows (3 + loc.length)) (hl : ∀ r ∈ rows, r.length = header.length)
    (hC : Columns (x :: lab) on across by_) (key : List Val) :
    (levelLines (tableOf c header rows) (3 + loc.length) (x :: lab) by_ key).map (·.2) = numLines (wordVal (3 + loc.length) (x :: lab) rows) rows.length by_ key := by
  unfold levelLines numLines
  rw [uniform_complete hc h hu hl]
  have : List.range rows.length = (tableOf c header rows).rows.zipIdx.map (·.2) := by rw [zipIdx_numbers, tableRows_length]
  rw [this, List.filter_map]
  congr 1
  refine List.filter_congr fun p hp => ?_
  simp only [Function.comp]
  congr 1
  exact List.map_congr_left fun y hy => uniform_label hc h hH hu hl hp (hC.by_ y hy)

theorem level_sub {r : Raw Val} {first : Nat} {labels : List Text} {key : List Val} {p : Line} (hp : p ∈ levelLines r first labels by_ key) : p ∈ r.rows.zipIdx :=
  List.mem_of_mem_filter (List.mem_of_mem_filter hp)

theorem uniform_group (hc : Lawful c) (h : TextOf (header :: rows) t) (hH : Header header loc x lab) (hu : Uniform header rows (3 + loc.length)) (hl : ∀ r ∈ rows, r.length = header.length)
    (hC : Columns (x :: lab) on across by_) (key : List Val) (l : Labels) :
    numGroup (wordVal (3 + loc.length) (x :: lab) rows) on across (numLines (wordVal (3 + loc.length) (x :: lab) rows) rows.length by_ key) l =
      (lineGroup (lineLabel loc x lab) on across (levelLines (tableOf c header rows) (3 + loc.length) (x :: lab) by_ key) l).map (fun t => (t.1.2, t.2.1.2, t.2.2.2)) := by
  rw [← uniform_lines hc h hH hu hl hC key]
  apply numGroup_lines
  intro p hp y hy
  refine uniform_label hc h hH hu hl (level_sub hp) ?_
  rcases List.mem_cons.mp hy with rfl | hy
  · exact hC.on
  · exact hC.across y hy

theorem uniform_level (hc : Lawful c) (h : TextOf (header :: rows) t) (hH : Header header loc x lab) (hu : Uniform header rows (3 + loc.length)) (hl : ∀ r ∈ rows, r.length = header.length)
    (hC : Columns (x :: lab) on across by_) {p : Line} (hp : p ∈ (tableOf c header rows).rows.zipIdx) (key : List Val) :
    lineLevel loc x lab by_ p key ↔ numLevel (wordVal (3 + loc.length) (x :: lab) rows) by_ p.2 key := by
  unfold lineLevel numLevel
  rw [List.map_congr_left fun y hy => uniform_label hc h hH hu hl hp (hC.by_ y hy)]

theorem uniform_levels (hc : Lawful c) (h : TextOf (header :: rows) t) (hH : Header header loc x lab) (hu : Uniform header rows (3 + loc.length)) (hl : ∀ r ∈ rows, r.length = header.length)
    (hC : Columns (x :: lab) on across by_) (key : List Val) :
    (∃ p ∈ complete (tableOf c header rows) (3 + loc.length), lineLevel loc x lab by_ p key) ↔ ∃ j < rows.length, numLevel (wordVal (3 + loc.length) (x :: lab) rows) by_ j key := by
  rw [uniform_complete hc h hu hl]
  constructor
  · rintro ⟨p, hp, hk⟩
    have := (List.getElem?_eq_some_iff.mp (List.mem_zipIdx_iff_getElem?.mp hp)).1
    rw [tableRows_length] at this
    exact ⟨p.2, this, (uniform_level hc h hH hu hl hC hp key).mp hk⟩
  · rintro ⟨j, hj, hk⟩
    have hp : ((tableOf c header rows).rows[j]'(by rw [tableRows_length]; exact hj), j) ∈ (tableOf c header rows).rows.zipIdx := List.mem_zipIdx_iff_getElem?.mpr (List.getElem?_eq_getElem _)
    exact ⟨_, hp, (uniform_level hc h hH hu hl hC hp key).mpr hk⟩

theorem uniform_few (hc : Lawful c) (h : TextOf (header :: rows) t) (hH : Header header loc x lab) (hu : Uniform header rows (3 + loc.length)) (hl : ∀ r ∈ rows, r.length = header.length)
    (hC : Columns (x :: lab) on across by_) (hf : FewWords (wordVal (3 + loc.length) (x :: lab) rows) rows.length on across) : FewLineLabels (tableOf c header rows) loc x lab on across := by
  unfold FewWords at hf
  unfold FewLineLabels
  refine le_of_eq_of_le (congrArg List.prod (List.map_congr_left fun y hy => ?_)) hf
  congr 3
  have : List.range rows.length = (tableOf c header rows).rows.zipIdx.map (·.2) := by rw [zipIdx_numbers, tableRows_length]
  rw [uniform_complete hc h hu hl, this, List.map_map]
  refine List.map_congr_left fun p hp => uniform_label hc h hH hu hl hp ?_
  rcases List.mem_cons.mp hy with rfl | hy
  · exact hC.on
  · exact hC.across y hy

/-- C97 and C61: from a file as text with the header of an item file, in which no line is shorter or longer than the header, a task without filter is created exactly when its columns are label columns, and
no line with a word for a missing value in a label column comes before a line without. -/
theorem C97_created_iff {e : Env} (he : e.Lawful) (hc : Lawful c) (ht : texts (addExt f) = some t) (h : TextOf (header :: rows) t) (hH : Header header loc x lab) (hd : header.Nodup)
    (hn : ("file".toList :: "onset".toList :: "offset".toList :: loc ++ x :: lab).Nodup) (hl : ∀ r ∈ rows, r.length = header.length) (ha : ∀ y ∈ x :: lab, Alone (filesOf c texts) f y)
    (hs : rows.length ^ 3 < 2 ^ 64) :
    (∃ T, fromFile e (filesOf c texts) f on across by_ [] [] = .ok T) ↔ Columns (x :: lab) on across by_ ∧
      ∀ j k : Nat, j < k → ∀ row row' : List Text, rows[j]? = some row → rows[k]? = some row' → (∀ w ∈ row'.drop (3 + loc.length), ¬ Missing w) → ∀ w ∈ row.drop (3 + loc.length), ¬ Missing w := by
  have hl' : ∀ r ∈ rows, r.length ≤ header.length := fun r hr => (hl r hr).le
  obtain ⟨hI, hlen, L, hL, hL'⟩ := C97_item_file (c := c) ht h hH hd hn hl' ha
  have hO : Ops (x :: lab) on across by_ [] [] := ⟨by simp, by simp, by simp, by simp⟩
  rw [C61_file_created_iff he hI hO (by rw [hlen]; exact hs)]
  have key := fun j => (C97_loaded hc ht h hH hd hn hl' hL j).1
  obtain ⟨-, -, -, -, h4⟩ := C54_tables_partial hI.file hI.named hI.header hI.distinct hL'
  have hmap : L.db.rows.map (·.1) = (complete (tableOf c header rows) (3 + loc.length)).map (·.2) := by rw [h4, List.map_map]; rfl
  rw [hmap] at key
  have key' : ∀ j, j ∈ (complete (tableOf c header rows) (3 + loc.length)).map (·.2) ↔ ∃ row, rows[j]? = some row ∧ ∀ w ∈ row.drop (3 + loc.length), ¬ Missing w := by
    intro j
    rw [key j]
    constructor
    · rintro ⟨row, h1, -, h3⟩
      refine ⟨row, h1, fun w hw => ?_⟩
      obtain ⟨i, hi⟩ := List.mem_iff_getElem?.mp hw
      rw [List.getElem?_drop] at hi
      exact h3 _ (Nat.le_add_right _ _) w hi
    · rintro ⟨row, h1, h3⟩
      refine ⟨row, h1, hl row (List.mem_of_getElem? h1), fun i hi w hw => h3 w (List.mem_iff_getElem?.mpr ⟨i - (3 + loc.length), ?_⟩)⟩
      rw [List.getElem?_drop, Nat.add_sub_cancel' hi]
      exact hw
  have hsort : ((complete (tableOf c header rows) (3 + loc.length)).map (·.2)).Pairwise (· < ·) := by
    unfold complete
    refine List.Pairwise.sublist (List.Sublist.map _ List.filter_sublist) ?_
    rw [zipIdx_numbers]
    exact List.pairwise_lt_range
  refine ⟨?_, ?_⟩
  · rintro ⟨hC, -, hg⟩
    refine ⟨hC, fun j k hjk row row' hj hk hrow => ?_⟩
    unfold NoGap at hg
    have hk' := (key' k).mpr ⟨row', hk, hrow⟩
    rw [hg, List.mem_range] at hk'
    obtain ⟨row'', h1, h2⟩ := (key' j).mp (by rw [hg, List.mem_range]; omega)
    rw [hj] at h1
    obtain rfl := Option.some.inj h1
    exact h2
  · rintro ⟨hC, hq⟩
    refine ⟨hC, by simp, ?_⟩
    unfold NoGap
    generalize hm : (complete (tableOf c header rows) (3 + loc.length)).map (·.2) = m at *
    have hml : (complete (tableOf c header rows) (3 + loc.length)).length = m.length := by rw [← hm, List.length_map]
    rw [hml]
    have hdown : ∀ k ∈ m, ∀ j < k, j ∈ m := by
      intro k hk j hjk
      obtain ⟨row', h1, h2⟩ := (key' k).mp hk
      have hk := (List.getElem?_eq_some_iff.mp h1).1
      have hj : rows[j]? = some rows[j] := List.getElem?_eq_getElem (by omega)
      exact (key' j).mpr ⟨_, hj, hq j k hjk _ _ hj h1 h2⟩
    -- a strictly increasing list closed downwards is a range
    have hmem : ∀ j, j ∈ m ↔ j < m.length := by
      have hnd : m.Nodup := hsort.imp (fun h => Nat.ne_of_lt h)
      intro j
      constructor
      · intro hj
        have hsub : List.range (j + 1) ⊆ m := fun i hi => by
          rcases Nat.lt_succ_iff_lt_or_eq.mp (List.mem_range.mp hi) with h | rfl
          · exact hdown j hj i h
          · exact hj
        have := (List.subperm_of_subset List.nodup_range hsub).length_le
        rw [List.length_range] at this
        omega
      · intro hj
        by_contra hno
        have hsub : m ⊆ List.range j := fun i hi => by
          rw [List.mem_range]
          by_contra hij
          rcases Nat.lt_or_ge j i with h | h
          · exact hno (hdown i hi j h)
          · exact hno (by rw [show j = i by omega]; exact hi)
        have := (List.subperm_of_subset hnd hsub).length_le
        rw [List.length_range] at this
        omega
    have hp : m.Perm (List.range m.length) := (List.perm_ext_iff_of_nodup (hsort.imp (fun h => Nat.ne_of_lt h)) List.nodup_range).mpr (fun j => by rw [hmem, List.mem_range])
    exact hp.eq_of_pairwise (le := (· < ·)) (fun a b _ _ h1 h2 => absurd h1 (by omega)) hsort List.pairwise_lt_range

theorem group_le_trips {r : Raw Val} {first : Nat} {labels : List Text} {e : Env} (he : e.Lawful) {key : List Val} {l : Labels} (hl : l.Possible across) :
    (group on across (itemsOf (plainArgs r first labels on across by_) key) l).length ≤ (tripsSpec (plainArgs r first labels on across by_) key).length := by
  have hpl : Pipeline.Plain (plainArgs r first labels on across by_) := ⟨rfl, rfl, rfl⟩
  by_cases hne : group on across (itemsOf (plainArgs r first labels on across by_) key) l = []
  · rw [hne]; exact Nat.zero_le _
  · obtain ⟨t, ht⟩ := List.exists_mem_of_ne_nil _ hne
    have ht' := group_trips hpl hl ht
    obtain ⟨-, -, -, g1, g2, g3, g4, g5, g6, -⟩ := mem_group.mp ht
    have := filter_group hpl he (List.Perm.refl _) ht'
    rw [← group_congr (l := labelsOfTrip on t) (l' := l) _ ⟨g1, g3, g2, g6⟩]
    refine List.Sublist.length_le ?_
    show (group (plainArgs r first labels on across by_).on (plainArgs r first labels on across by_).across _ (labelsOfTrip (plainArgs r first labels on across by_).on t)).Sublist _
    rw [← this]
    exact List.filter_sublist

/-- C97 and C84: an experiment from a file as text.  The file has the header of an item file, each line has as many words as the header, each label column has only words of digits or only plain words, there are at most 3535 lines,
and at most 128 or as many as the triplets of some group.  Then the results of a run without options are those that the words give: the levels are the values of the words in the by columns of which there are triplets, and each level has
one row for each combination of labels of which there are triplets of lines, with their number, and their mean score up to 2^-52.  Missing: label columns with words for missing values, or with numbers that are not written in digits. -/
theorem C97_results_partial {e : Env} (he : e.Lawful) (hc : Lawful c) (ht : texts (addExt f) = some t) (h : TextOf (header :: rows) t) (hH : Header header loc x lab) (hd : header.Nodup)
    (hn : ("file".toList :: "onset".toList :: "offset".toList :: loc ++ x :: lab).Nodup) (hl : ∀ r ∈ rows, r.length = header.length) (ha : ∀ y ∈ x :: lab, Alone (filesOf c texts) f y)
    (hu : Uniform header rows (3 + loc.length)) (hN : rows.length ≤ 3535) (h0 : rows ≠ [])
    (hfit : rows.length ≤ 128 ∨ ∃ key l, (∃ j < rows.length, numLevel (wordVal (3 + loc.length) (x :: lab) rows) by_ j key) ∧ l.Possible across ∧
      rows.length ≤ (numGroup (wordVal (3 + loc.length) (x :: lab) rows) on across (numLines (wordVal (3 + loc.length) (x :: lab) rows) rows.length by_ key) l).length)
    (hfew : FewWords (wordVal (3 + loc.length) (x :: lab) rows) rows.length on across) {T : Task.Task (Nat × List (Option Val))} (hT : fromFile e (filesOf c texts) f on across by_ [] [] = .ok T)
    {ch : Choices} (hch : ch.Lawful) {getFeat : Nat × List (Option Val) → Except Err φ} {distance : φ → φ → Except Err δ} {lt : δ → δ → Bool} (hlt : ∀ x y, lt x y = true → lt y x = false) {F : File} {S : List Int}
    (hr : Ran ch e T getFeat distance lt F S) :
    ∃ vars outs, vars.Perm (plainVars on across) ∧
      collapse ch.sortRows (vars.map (fun v => columnIndex e.sort ((plainArgs (tableOf c header rows) (3 + loc.length) (x :: lab) on across by_).db.map (fun p => p.2 v.1)))) F S = .ok outs.flatten ∧
      F.bys.Nodup ∧ (∀ key, key ∈ F.bys ↔ (∃ j < rows.length, numLevel (wordVal (3 + loc.length) (x :: lab) rows) by_ j key) ∧
        ∃ l : Labels, l.Possible across ∧ numGroup (wordVal (3 + loc.length) (x :: lab) rows) on across (numLines (wordVal (3 + loc.length) (x :: lab) rows) rows.length by_ key) l ≠ []) ∧
      List.Forall₂ (fun key out => ∃ abx : Nat × Nat × Nat → ℚ,
        (∀ l : Labels, l.Possible across → ∀ t ∈ numGroup (wordVal (3 + loc.length) (x :: lab) rows) on across (numLines (wordVal (3 + loc.length) (x :: lab) rows) rows.length by_ key) l,
          IsNumAbx lt (fun j k => recDist getFeat distance (record (3 + loc.length) (lineAt (tableOf c header rows) j)) (record (3 + loc.length) (lineAt (tableOf c header rows) k))) t (abx t)) ∧
        PlainResults on across vars key (numGroup (wordVal (3 + loc.length) (x :: lab) rows) on across (numLines (wordVal (3 + loc.length) (x :: lab) rows) rows.length by_ key)) abx out) F.bys outs := by
  have hl' : ∀ r ∈ rows, r.length ≤ header.length := fun r hr => (hl r hr).le
  obtain ⟨hI, hlen, -⟩ := C97_item_file (c := c) ht h hH hd hn hl' ha
  have hs : rows.length ^ 3 < 2 ^ 64 := lt_of_le_of_lt (Nat.pow_le_pow_left hN 3) (by norm_num)
  obtain ⟨hC, -⟩ := (C97_created_iff he hc ht h hH hd hn hl ha hs).mp ⟨T, hT⟩
  have hgrp := uniform_group hc h hH hu hl hC
  have hdb : complete (tableOf c header rows) (3 + loc.length) ≠ [] := by
    rw [uniform_complete hc h hu hl]
    intro hx
    have := congrArg List.length hx
    rw [List.length_zipIdx, tableRows_length] at this
    exact h0 (List.eq_nil_of_length_eq_zero this)
  have hT' := hT
  rw [fromFile_args hI hC] at hT'
  have hz := (sizes_lines he hI hC hT' (by rw [hlen]; exact hN) (by
    rw [hlen]
    rcases hfit with hf | ⟨key, l, hk, hp, hf⟩
    · exact .inl hf
    · right
      obtain ⟨q, hq, hqk⟩ := (level_lines hI hC key).mpr ((uniform_levels hc h hH hu hl hC key).mpr hk)
      refine ⟨q, hq, hf.trans ?_⟩
      rw [hqk, hgrp, List.length_map, group_in_lines hI hC key l, List.length_map]
      exact group_le_trips he hp)).1
  obtain ⟨vars, outs, o1, o2, o3, o4, o5⟩ := C84_lines_partial he hI (by rw [hlen]; exact hs) hT hdb (uniform_few hc h hH hu hl hC hfew) hz hch hlt hr
  refine ⟨vars, outs, o1, o2, o3, fun key => ?_, o5.imp fun key out => ?_⟩
  · rw [o4 key, uniform_levels hc h hH hu hl hC]
    refine and_congr_right fun _ => exists_congr fun l => and_congr_right fun _ => ?_
    rw [hgrp, ne_eq, ne_eq, List.map_eq_nil_iff]
  · rintro ⟨abx, h1, h2⟩
    have hback : ∀ l, ∀ t ∈ lineGroup (lineLabel loc x lab) on across (levelLines (tableOf c header rows) (3 + loc.length) (x :: lab) by_ key) l,
        (lineAt (tableOf c header rows) t.1.2, lineAt (tableOf c header rows) t.2.1.2, lineAt (tableOf c header rows) t.2.2.2) = t := by
      intro l t ht
      unfold lineGroup lineCell at ht
      simp only [List.mem_flatMap, List.mem_map, List.mem_filter] at ht
      obtain ⟨A, ⟨hA, -⟩, B, ⟨hB, -⟩, X, ⟨⟨hX, -⟩, -⟩, rfl⟩ := ht
      rw [lineAt_mem (level_sub hA), lineAt_mem (level_sub hB), lineAt_mem (level_sub hX)]
    refine ⟨fun t => abx (lineAt (tableOf c header rows) t.1, lineAt (tableOf c header rows) t.2.1, lineAt (tableOf c header rows) t.2.2), ?_, ?_⟩
    · intro l hl t ht
      rw [hgrp] at ht
      obtain ⟨t, ht', rfl⟩ := List.mem_map.mp ht
      clear ht
      have ht := ht'
      dsimp only
      rw [hback l t ht]
      obtain ⟨d1, d2, g1, g2, g3⟩ := h1 l hl t ht
      have hb := hback l t ht
      refine ⟨d1, d2, ?_, ?_, g3⟩
      · dsimp only
        rw [show lineAt (tableOf c header rows) t.1.2 = t.1 from congrArg (·.1) hb, show lineAt (tableOf c header rows) t.2.2.2 = t.2.2 from congrArg (·.2.2) hb]
        exact g1
      · dsimp only
        rw [show lineAt (tableOf c header rows) t.2.1.2 = t.2.1 from congrArg (·.2.1) hb, show lineAt (tableOf c header rows) t.2.2.2 = t.2.2 from congrArg (·.2.2) hb]
        exact g2
    · have hsum : ∀ l, (numGroup (wordVal (3 + loc.length) (x :: lab) rows) on across (numLines (wordVal (3 + loc.length) (x :: lab) rows) rows.length by_ key) l).map
          (fun t => abx (lineAt (tableOf c header rows) t.1, lineAt (tableOf c header rows) t.2.1, lineAt (tableOf c header rows) t.2.2)) =
          (lineGroup (lineLabel loc x lab) on across (levelLines (tableOf c header rows) (3 + loc.length) (x :: lab) by_ key) l).map abx := by
        intro l
        rw [hgrp, List.map_map]
        exact List.map_congr_left fun t ht => congrArg abx (hback l t ht)
      have hrow : ∀ l o, PlainRow on vars key (lineGroup (lineLabel loc x lab) on across (levelLines (tableOf c header rows) (3 + loc.length) (x :: lab) by_ key)) abx l o →
          PlainRow on vars key (numGroup (wordVal (3 + loc.length) (x :: lab) rows) on across (numLines (wordVal (3 + loc.length) (x :: lab) rows) rows.length by_ key))
            (fun t => abx (lineAt (tableOf c header rows) t.1, lineAt (tableOf c header rows) t.2.1, lineAt (tableOf c header rows) t.2.2)) l o := by
        intro l o hr
        refine ⟨hr.labels, hr.by_, ?_, ?_, hr.range, ?_⟩
        · rw [hr.n, hgrp, List.length_map]
        · rw [hsum]; exact hr.score
        · have h2 := congrArg (List.map (fun q : ℚ => 2 * q - 1)) (hsum l)
          rw [List.map_map, List.map_map] at h2
          rw [hr.exact]
          exact congrArg (fun s : List ℚ => F64.rnd (F64.rnd (s.sum / o.n) + 1) / 2) h2.symm
      have hnil : ∀ l, numGroup (wordVal (3 + loc.length) (x :: lab) rows) on across (numLines (wordVal (3 + loc.length) (x :: lab) rows) rows.length by_ key) l ≠ [] ↔
          lineGroup (lineLabel loc x lab) on across (levelLines (tableOf c header rows) (3 + loc.length) (x :: lab) by_ key) l ≠ [] := by
        intro l
        rw [hgrp, ne_eq, ne_eq, List.map_eq_nil_iff]
      refine ⟨h2.once, fun o ho => ?_, fun l hp hne => ?_⟩
      · obtain ⟨l, g1, g2, g3⟩ := h2.rows o ho
        exact ⟨l, g1, (hnil l).mpr g2, hrow l o g3⟩
      · obtain ⟨o, ho, g⟩ := h2.all l hp ((hnil l).mp hne)
        exact ⟨o, ho, hrow l o g⟩

/-- C97 and C84: the experiment can be carried out from the text of the file: under the conditions of `C97_results_partial` on the file, if the columns of the task are label columns, there is a group of triplets of lines, with at least as
many triplets as lines if there are more than 128 lines, and the features of the lines and their distances can be computed, then for all choices, with at least one cpu, the task is created and the experiment can be run to its end. -/
theorem C97_ends_partial {e : Env} (he : e.Lawful) (hc : Lawful c) (ht : texts (addExt f) = some t) (h : TextOf (header :: rows) t) (hH : Header header loc x lab) (hd : header.Nodup)
    (hn : ("file".toList :: "onset".toList :: "offset".toList :: loc ++ x :: lab).Nodup) (hl : ∀ r ∈ rows, r.length = header.length) (ha : ∀ y ∈ x :: lab, Alone (filesOf c texts) f y)
    (hu : Uniform header rows (3 + loc.length)) (hN : rows.length ≤ 3535) (hC : Columns (x :: lab) on across by_) {j : Nat} (hj : j < rows.length) {key : List Val}
    (hk : numLevel (wordVal (3 + loc.length) (x :: lab) rows) by_ j key) {l : Labels} (hp : l.Possible across)
    (hne : numGroup (wordVal (3 + loc.length) (x :: lab) rows) on across (numLines (wordVal (3 + loc.length) (x :: lab) rows) rows.length by_ key) l ≠ [])
    (hfit : rows.length ≤ 128 ∨ rows.length ≤ (numGroup (wordVal (3 + loc.length) (x :: lab) rows) on across (numLines (wordVal (3 + loc.length) (x :: lab) rows) rows.length by_ key) l).length)
    {ch : Choices} (hch : ch.Lawful) (hcpu : 0 < ch.nCpu) {getFeat : Nat × List (Option Val) → Except Err φ} {distance : φ → φ → Except Err δ}
    (hf : ∀ j < rows.length, ∃ v, getFeat (record (3 + loc.length) (lineAt (tableOf c header rows) j)) = .ok v)
    (hdist : ∀ j < rows.length, ∀ k < rows.length, ∀ v w, getFeat (record (3 + loc.length) (lineAt (tableOf c header rows) j)) = .ok v → getFeat (record (3 + loc.length) (lineAt (tableOf c header rows) k)) = .ok w →
      ∃ d, distance v w = .ok d) (zero : δ) {lt : δ → δ → Bool} (hlt : ∀ x y, lt x y = true → lt y x = false) :
    ∃ T F S, fromFile e (filesOf c texts) f on across by_ [] [] = .ok T ∧ Ran ch e T getFeat distance lt F S := by
  have hl' : ∀ r ∈ rows, r.length ≤ header.length := fun r hr => (hl r hr).le
  obtain ⟨hI, hlen, -⟩ := C97_item_file (c := c) ht h hH hd hn hl' ha
  have hgrp := uniform_group hc h hH hu hl hC key l
  obtain ⟨p, hpm, hpk⟩ := (uniform_levels (c := c) hc h hH hu hl hC key).mpr ⟨j, hj, hk⟩
  have hg : NoGap (tableOf c header rows) (3 + loc.length) := by
    unfold NoGap
    rw [uniform_complete hc h hu hl, zipIdx_numbers, List.length_zipIdx]
  have hat : ∀ p ∈ complete (tableOf c header rows) (3 + loc.length), p.2 < rows.length ∧ lineAt (tableOf c header rows) p.2 = p := by
    intro p hp
    rw [uniform_complete hc h hu hl] at hp
    have := (List.getElem?_eq_some_iff.mp (List.mem_zipIdx_iff_getElem?.mp hp)).1
    rw [tableRows_length] at this
    exact ⟨this, lineAt_mem hp⟩
  obtain ⟨T, F, S, h1, -, h3⟩ := C84_ends_partial he hI hC hg (by rw [hlen]; exact hN) hpm hpk hp (by
      intro h0
      rw [h0] at hgrp
      exact hne hgrp) (by
      rw [hgrp, List.length_map] at hfit
      rw [hlen]
      exact hfit) hch hcpu (getFeat := getFeat) (distance := distance) (fun p hp => by
        have := hf _ (hat p hp).1
        rwa [(hat p hp).2] at this) (fun p hp p' hp' => by
        have := hdist _ (hat p hp).1 _ (hat p' hp').1
        rwa [(hat p hp).2, (hat p' hp').2] at this) zero hlt
  exact ⟨T, F, S, h1, h3⟩
end

/-! ### example -/

/-- five lines: two sounds, two speakers, the speakers in digits; blanks, tabulations and empty lines -/
def text5 : Text := "#file\tonset offset  #on sp\n\nf1 0.1 1 a 01 \r\nf2 1 2\tb 1\nf3 2 3 a 2\n \nf3 3 4 b 1\nf4 3 4 a 1".toList

def rows5 : List (List Text) := [["f1", "0.1", "1", "a", "01"], ["f2", "1", "2", "b", "1"], ["f3", "2", "3", "a", "2"], ["f3", "3", "4", "b", "1"], ["f4", "3", "4", "a", "1"]].map (List.map String.toList)
def header5 : List Text := ["#file", "onset", "offset", "#on", "sp"].map String.toList

theorem text5_rows : TextOf (header5 :: rows5) text5 := by
  have h : UsualText text5 := by
    intro c hc hs
    have : ∀ c ∈ text5, isSpace c = true → c = ' ' ∨ c = '\t' ∨ c = '\n' ∨ c = '\r' := by decide +kernel
    exact this c hc ((isSpace_iff c).mpr hs)
  exact (C97_every_text h _).mpr (by decide +kernel)

theorem plain_small {a : Char} (h : a.isLower = true) : Plain [a] := by
  have h1 : ∀ c ∈ "0123456789+-.".toList, c.isLower = false := by decide
  have key : ∀ s : String, String.ofList [a] = s → [a] = s.toList := by intro s h; rw [← h]; simp
  refine ⟨?_, ?_, ?_⟩
  · rintro (⟨y, v, e, hy⟩ | hx)
    · obtain ⟨rfl, -⟩ := List.cons.inj e
      rw [h1 _ hy] at h
      cases h
    · simp at hx
  · intro hm
    unfold Missing at hm
    simp only [List.mem_cons, List.not_mem_nil, or_false] at hm
    rcases hm with hm | hm | hm | hm | hm | hm | hm | hm | hm | hm | hm | hm | hm | hm | hm <;> have := key _ hm <;> simp at this
  · intro hm
    unfold Boolean at hm
    simp only [List.mem_cons, List.not_mem_nil, or_false] at hm
    rcases hm with hm | hm | hm | hm | hm | hm <;> have := key _ hm <;> simp at this

theorem rows5_uniform : Uniform header5 rows5 3 := by
  intro i h1 h2
  have h2 : i < 5 := h2
  obtain rfl | rfl : i = 3 ∨ i = 4 := by omega
  · right
    rintro j w ⟨row, hj, hw⟩
    have : ∀ row ∈ rows5, ∀ w, row[3]? = some w → ∃ a, w = [a] ∧ a.isLower = true := by
      have : ∀ row ∈ rows5, row[3]? = some ['a'] ∨ row[3]? = some ['b'] := by decide +kernel
      intro row hr w hw
      rcases this row hr with h | h <;> rw [h] at hw <;> obtain rfl := Option.some.inj hw <;> exact ⟨_, rfl, rfl⟩
    obtain ⟨a, rfl, ha⟩ := this row (List.mem_of_getElem? hj) w hw
    exact plain_small ha
  · left
    rintro j w ⟨row, hj, hw⟩
    have : ∀ row ∈ rows5, ∃ w, row[4]? = some w ∧ w ≠ [] ∧ w.all Char.isDigit = true := by
      have : ∀ row ∈ rows5, row[4]? = some ['0', '1'] ∨ row[4]? = some ['1'] ∨ row[4]? = some ['2'] := by decide +kernel
      intro row hr
      rcases this row hr with h | h | h <;> exact ⟨_, h, by simp, by decide⟩
    obtain ⟨w', h1, h2, h3⟩ := this row (List.mem_of_getElem? hj)
    rw [hw] at h1
    obtain rfl := Option.some.inj h1
    exact ⟨h2, fun c hc => List.all_eq_true.mp h3 c hc⟩

/-- C97, example: the file of five lines as text, on the sound across the speaker, with any number of cpus and any length of the buffer of the scores: the task is created, the experiment can be run, and there is a row for
A = a and B = b of speaker 1 (written 01 or 1), X = a of speaker 2, with 2 * 2 * 1 triplets of lines -/
example {cv : Conv Val} (hcv : Lawful cv) (n m : Nat) : ∃ T F S, ∃ vars : List Var, ∃ rows : List OutRow, fromFile E0 (filesOf cv (oneText (addExt "d".toList) text5)) "d".toList "on" ["sp"] [] [] [] = .ok T ∧
    Ran (choices0 (n + 1) (m + 1)) E0 T (fun ρ => .ok (ρ.1 * ρ.1)) (fun v w => .ok (v % (w + 2) : Nat)) (fun x y => decide (x < y)) F S ∧
    collapse insArgsort (vars.map (fun v => columnIndex E0.sort ((plainArgs (tableOf cv header5 rows5) 3 ["on".toList, "sp".toList] "on" ["sp"] []).db.map (fun p => p.2 v.1)))) F S = .ok rows ∧
    ∃ o ∈ rows, o.labels = vars.map (labels2.at "on") ∧ o.n = 4 := by
  have hlt : ∀ x y : Nat, decide (x < y) = true → decide (y < x) = false := by intro x y h; simp at h ⊢; omega
  have hC : Columns ["on".toList, "sp".toList] "on" ["sp"] [] := ⟨by decide, by decide, by decide, by decide⟩
  have hposs : labels2.Possible ["sp"] := ⟨by decide, fun _ _ => by show (Val.int 1) ≠ .int 2; decide⟩
  have hlen : (numGroup (wordVal 3 ["on".toList, "sp".toList] rows5) "on" ["sp"] (numLines (wordVal 3 ["on".toList, "sp".toList] rows5) 5 [] [.int 0]) labels2).length = 4 := by decide +kernel
  have hne : numGroup (wordVal 3 ["on".toList, "sp".toList] rows5) "on" ["sp"] (numLines (wordVal 3 ["on".toList, "sp".toList] rows5) 5 [] [.int 0]) labels2 ≠ [] := by intro h0; rw [h0] at hlen; cases hlen
  have hl := choices0_lawful (n := n + 1) (m := m + 1) (Nat.zero_lt_succ _)
  have hH : Header header5 [] "on".toList ["sp".toList] := ⟨rfl, by simp, by decide⟩
  have ha : ∀ y ∈ ["on".toList, "sp".toList], Alone (filesOf cv (oneText (addExt "d".toList) text5)) "d".toList y := by
    intro y hy
    have : y = "on".toList ∨ y = "sp".toList := by simpa using hy
    right
    unfold filesOf oneText
    rw [if_neg]
    rcases this with rfl | rfl <;> decide
  have ht : oneText (addExt "d".toList) text5 (addExt "d".toList) = some text5 := by unfold oneText; rw [if_pos rfl]
  obtain ⟨T, F, S, h1, h3⟩ := C97_ends_partial E0_lawful hcv ht text5_rows hH (by decide) (by decide) (by decide) ha rows5_uniform (by decide) hC (j := 0) (by decide) (key := [.int 0]) rfl hposs hne (.inl (by decide)) hl
    (Nat.zero_lt_succ _) (getFeat := fun ρ => .ok (ρ.1 * ρ.1)) (distance := fun v w => .ok (v % (w + 2) : Nat)) (fun _ _ => ⟨_, rfl⟩) (fun _ _ _ _ _ _ _ _ => ⟨_, rfl⟩) 0 (lt := fun x y => decide (x < y)) hlt
  obtain ⟨vars, outs, -, o2, -, o4, o5⟩ := C97_results_partial E0_lawful hcv ht text5_rows hH (by decide) (by decide) (by decide) ha rows5_uniform (by decide) (by decide) (.inl (by decide))
    (by unfold FewWords; decide +kernel) h1 hl hlt h3
  have hb := (o4 [.int 0]).mpr ⟨⟨0, by decide, rfl⟩, labels2, hposs, hne⟩
  obtain ⟨out, hout, abx, -, hres⟩ := forall₂_mem_left o5 _ hb
  obtain ⟨o, ho, hrow⟩ := hres.all labels2 hposs hne
  exact ⟨T, F, S, vars, _, h1, h3, o2, o, List.mem_flatten.mpr ⟨out, hout, ho⟩, hrow.labels, hrow.n.trans hlen⟩

#print axioms C97_created_iff
#print axioms C97_results_partial
#print axioms C97_ends_partial

end ABX.ReadCsv
