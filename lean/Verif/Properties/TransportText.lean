import Verif.Properties.Transport
import Verif.Properties.TextTask
/-!
Property C100, from the texts of the item files: the order of the lines of a text, its blanks and its empty lines do not matter.
-/
namespace ABX.ReadCsv
open ABX.Database ABX.Database.Spec ABX.Spec Spec SideOps ABX.Task ABX.Pipeline Analyze ExtSort
variable {φ δ δ' : Type}

/-- how a column converts one field -/
def convert1 {β : Type} (c : Conv β) (column : List (Option Text)) (x : Option Text) : Option β :=
  if (column.filterMap id).all (fun t => (c.num false t).isSome) then x.bind (c.num (column.any Option.isNone || !(column.filterMap id).all c.isInt))
  else if (column.filterMap id).all (fun t => (boolWord t).isSome) then (x.bind boolWord).map c.bool
  else x.map c.text

theorem convert_eq {β : Type} (c : Conv β) (column : List (Option Text)) : convert c column = column.map (convert1 c column) := by
  unfold convert convert1
  dsimp only
  split
  · rfl
  · split <;> rfl

theorem all_perm {α : Type} {l l' : List α} (h : l.Perm l') (p : α → Bool) : l.all p = l'.all p := by
  rw [Bool.eq_iff_iff, List.all_eq_true, List.all_eq_true]
  exact forall_congr' fun x => by rw [h.mem_iff]

theorem any_perm {α : Type} {l l' : List α} (h : l.Perm l') (p : α → Bool) : l.any p = l'.any p := by
  rw [Bool.eq_iff_iff, List.any_eq_true, List.any_eq_true]
  exact exists_congr fun x => by rw [h.mem_iff]

theorem convert1_perm {β : Type} (c : Conv β) {column column' : List (Option Text)} (h : column.Perm column') : convert1 c column = convert1 c column' := by
  funext x
  have h' := h.filterMap id
  unfold convert1
  rw [all_perm h', any_perm h, all_perm h' c.isInt, all_perm h' (fun t => (boolWord t).isSome)]

theorem tableRows_eq {β : Type} (c : Conv β) (n k : Nat) (rows : List (List Text)) :
    tableRows c n k rows = rows.map (fun row => (List.range n).map (fun i => convert1 c (rows.map (fun row => cell k row i)) (cell k row i))) := by
  unfold tableRows
  apply List.ext_getElem (by simp)
  intro j h1 h2
  simp only [List.getElem_map, List.getElem_range, List.map_map]
  refine List.map_congr_left fun i _ => ?_
  have hj : j < rows.length := by simpa using h2
  simp only [Function.comp_apply, convert_eq]
  rw [List.getElem?_eq_getElem (by simpa using hj)]
  simp

/-- the same lines in another order give the same rows in another order -/
theorem tableRows_perm {β : Type} (c : Conv β) (n k : Nat) {rows rows' : List (List Text)} (h : rows.Perm rows') : (tableRows c n k rows).Perm (tableRows c n k rows') := by
  rw [tableRows_eq, tableRows_eq]
  refine (h.map _).trans (List.Perm.of_eq ?_)
  refine List.map_congr_left fun row _ => List.map_congr_left fun i _ => ?_
  rw [convert1_perm c (h.map (fun row => cell k row i))]

/-- an experiment on an item file as text was run: the conditions of `C97_results_partial` -/
structure TextRun (c : Conv Val) (e : Env) (texts : Text → Option Text) (f t : Text) (header : List Text) (rows : List (List Text)) (loc : List Text) (x : Text) (lab : List Text) (on : String) (across by_ : List String)
    (T : Task.Task (Nat × List (Option Val))) (ch : Choices) (getFeat : Nat × List (Option Val) → Except Err φ) (distance : φ → φ → Except Err δ) (lt : δ → δ → Bool) (F : File) (S : List Int) : Prop where
  env : e.Lawful
  file : texts (addExt f) = some t
  text : TextOf (header :: rows) t
  head : Header header loc x lab
  names : header.Nodup
  distinct : ("file".toList :: "onset".toList :: "offset".toList :: loc ++ x :: lab).Nodup
  length : ∀ r ∈ rows, r.length = header.length
  alone : ∀ y ∈ x :: lab, Alone (filesOf c texts) f y
  uniform : Uniform header rows (3 + loc.length)
  few : rows.length ≤ 3535
  lines : rows ≠ []
  fit : rows.length ≤ 128 ∨ ∃ key l, (∃ j < rows.length, numLevel (wordVal (3 + loc.length) (x :: lab) rows) by_ j key) ∧ l.Possible across ∧
    rows.length ≤ (numGroup (wordVal (3 + loc.length) (x :: lab) rows) on across (numLines (wordVal (3 + loc.length) (x :: lab) rows) rows.length by_ key) l).length
  labels : FewWords (wordVal (3 + loc.length) (x :: lab) rows) rows.length on across
  task : fromFile e (filesOf c texts) f on across by_ [] [] = .ok T
  choices : ch.Lawful
  order : ∀ x y, lt x y = true → lt y x = false
  ran : Ran ch e T getFeat distance lt F S

section
variable {c : Conv Val} {e : Env} {texts : Text → Option Text} {f t : Text} {header : List Text} {rows : List (List Text)} {loc : List Text} {x : Text} {lab : List Text} {on : String} {across by_ : List String}
    {T : Task.Task (Nat × List (Option Val))} {ch : Choices} {getFeat : Nat × List (Option Val) → Except Err φ} {distance : φ → φ → Except Err δ} {lt : δ → δ → Bool} {F : File} {S : List Int}
    {e' : Env} {texts' : Text → Option Text} {f' t' : Text} {rows' : List (List Text)} {T' : Task.Task (Nat × List (Option Val))} {ch' : Choices} {distance' : φ → φ → Except Err δ'} {lt' : δ' → δ' → Bool} {F' : File} {S' : List Int}

theorem TextRun.plain (hc : Lawful c) (P : TextRun c e texts f t header rows loc x lab on across by_ T ch getFeat distance lt F S) :
    PlainRun e (filesOf c texts) f (tableOf c header rows) loc x lab on across by_ T ch getFeat distance lt F S := by
  have hl' : ∀ r ∈ rows, r.length ≤ header.length := fun r hr => (P.length r hr).le
  obtain ⟨hI, hlen, -⟩ := C97_item_file (c := c) P.file P.text P.head P.names P.distinct hl' P.alone
  have hs : rows.length ^ 3 < 2 ^ 64 := lt_of_le_of_lt (Nat.pow_le_pow_left P.few 3) (by norm_num)
  obtain ⟨hC, -⟩ := (C97_created_iff P.env hc P.file P.text P.head P.names P.distinct P.length P.alone hs).mp ⟨T, P.task⟩
  have hgrp := uniform_group hc P.text P.head P.uniform P.length hC
  have hdb : complete (tableOf c header rows) (3 + loc.length) ≠ [] := by
    rw [uniform_complete hc P.text P.uniform P.length]
    intro hx
    have := congrArg List.length hx
    rw [List.length_zipIdx, tableRows_length] at this
    exact P.lines (List.eq_nil_of_length_eq_zero this)
  have hT' := P.task
  rw [fromFile_args hI hC] at hT'
  have hz := (sizes_lines P.env hI hC hT' (by rw [hlen]; exact P.few) (by
    rw [hlen]
    rcases P.fit with hf | ⟨key, l, hk, hp, hf⟩
    · exact .inl hf
    · right
      obtain ⟨q, hq, hqk⟩ := (level_lines hI hC key).mpr ((uniform_levels hc P.text P.head P.uniform P.length hC key).mpr hk)
      refine ⟨q, hq, hf.trans ?_⟩
      rw [hqk, hgrp, List.length_map, group_in_lines hI hC key l, List.length_map]
      exact group_le_trips P.env hp)).1
  exact ⟨P.env, hI, by rw [hlen]; exact hs, P.task, hdb, uniform_few hc P.text P.head P.uniform P.length hC P.labels, hz, P.choices, P.order, P.ran⟩

/-- C100, from the texts: two item files with the same header and the same lines of words in any order (and any blanks and empty lines), with distances that are ordered in the same way, have the same results up to the order of the rows and
of the columns, whatever the choices of the two runs.  Missing: as in `C97_results_partial`. -/
theorem C100_texts_partial (hc : Lawful c) (P : TextRun c e texts f t header rows loc x lab on across by_ T ch getFeat distance lt F S)
    (P' : TextRun c e' texts' f' t' header rows' loc x lab on across by_ T' ch' getFeat distance' lt' F' S') (h : rows.Perm rows')
    (hf : ∀ n m v, getFeat (n, v) = getFeat (m, v)) {g : δ → δ'} (hd : ∀ v w d, distance v w = .ok d → distance' v w = .ok (g d)) (hg : ∀ d d', lt' (g d) (g d') = lt d d') :
    ∃ vars out vars' out', RunRows e (tableOf c header rows) loc x lab on across by_ T ch F S vars out ∧ RunRows e' (tableOf c header rows') loc x lab on across by_ T' ch' F' S' vars' out' ∧
      vars.Perm (plainVars on across) ∧ vars'.Perm (plainVars on across) ∧
      (out.map (fun o => (o.by_, told on across (fun _ x => x) vars o))).Perm (out'.map (fun o => (o.by_, told on across (fun _ x => x) vars' o))) := by
  obtain ⟨vars, out, R, hv, -⟩ := (P.plain hc).rows
  obtain ⟨vars', out', R', hv', -⟩ := (P'.plain hc).rows
  exact ⟨vars, out, vars', out', R, R', hv, hv', C100_order_partial (P.plain hc) (P'.plain hc) (tableRows_perm c _ _ h) hf hd hg R R'⟩

end

/-! ### example -/

/-- the lines of `text5` in another order, with other blanks -/
def text5s : Text := "#file onset offset #on sp\nf4 3 4 a 1\nf3\t2 3 a 2\nf1 0.1 1 a 01\n\n\nf3 3  4 b 1\nf2 1 2 b 1\n".toList

def rows5s : List (List Text) := [["f4", "3", "4", "a", "1"], ["f3", "2", "3", "a", "2"], ["f1", "0.1", "1", "a", "01"], ["f3", "3", "4", "b", "1"], ["f2", "1", "2", "b", "1"]].map (List.map String.toList)

theorem text5s_rows : TextOf (header5 :: rows5s) text5s := by
  have h : UsualText text5s := by
    intro c hc hs
    have : ∀ c ∈ text5s, isSpace c = true → c = ' ' ∨ c = '\t' ∨ c = '\n' ∨ c = '\r' := by decide +kernel
    exact this c hc ((isSpace_iff c).mpr hs)
  exact (C97_every_text h _).mpr (by decide +kernel)

theorem rows5_perm : rows5.Perm rows5s := by decide +kernel

theorem uniform_perm {header : List Text} {rows rows' : List (List Text)} {first : Nat} (h : rows.Perm rows') (hu : Uniform header rows first) : Uniform header rows' first := by
  have hw : ∀ j i w, WordAt rows' j i w → ∃ k, WordAt rows k i w := by
    rintro j i w ⟨row, hj, hw⟩
    obtain ⟨k, hk⟩ := List.mem_iff_getElem?.mp (h.mem_iff.mpr (List.mem_of_getElem? hj))
    exact ⟨k, row, hk, hw⟩
  intro i h1 h2
  rcases hu i h1 h2 with hu | hu
  · exact .inl fun j w hj => (hw j i w hj).elim fun k hk => hu k w hk
  · exact .inr fun j w hj => (hw j i w hj).elim fun k hk => hu k w hk

theorem exRun {cv : Conv Val} (hcv : Lawful cv) (n m : Nat) {text : Text} {rows : List (List Text)} (h : TextOf (header5 :: rows) text) (hp : rows5.Perm rows)
    (hlen : (numGroup (wordVal 3 ["on".toList, "sp".toList] rows) "on" ["sp"] (numLines (wordVal 3 ["on".toList, "sp".toList] rows) 5 [] [.int 0]) labels2).length = 4)
    (hfew : FewWords (wordVal 3 ["on".toList, "sp".toList] rows) 5 "on" ["sp"]) (dist : Nat → Nat → Nat) :
    ∃ T F S, TextRun cv E0 (oneText (addExt "d".toList) text) "d".toList text header5 rows [] "on".toList ["sp".toList] "on" ["sp"] [] T (choices0 (n + 1) (m + 1)) (fun ρ => .ok (exFeat ρ)) (fun v w => .ok (dist v w)) (fun x y => decide (x < y)) F S := by
  have hlt : ∀ x y : Nat, decide (x < y) = true → decide (y < x) = false := by intro x y h; simp at h ⊢; omega
  have hC : Columns ["on".toList, "sp".toList] "on" ["sp"] [] := ⟨by decide, by decide, by decide, by decide⟩
  have hposs : labels2.Possible ["sp"] := ⟨by decide, fun _ _ => by show (Val.int 1) ≠ .int 2; decide⟩
  have h5 : rows.length = 5 := hp.length_eq.symm
  have hne : numGroup (wordVal 3 ["on".toList, "sp".toList] rows) "on" ["sp"] (numLines (wordVal 3 ["on".toList, "sp".toList] rows) 5 [] [.int 0]) labels2 ≠ [] := by intro h0; rw [h0] at hlen; cases hlen
  have hl := choices0_lawful (n := n + 1) (m := m + 1) (Nat.zero_lt_succ _)
  have hH : Header header5 [] "on".toList ["sp".toList] := ⟨rfl, by simp, by decide⟩
  have ha : ∀ y ∈ ["on".toList, "sp".toList], Alone (filesOf cv (oneText (addExt "d".toList) text)) "d".toList y := by
    intro y hy
    have : y = "on".toList ∨ y = "sp".toList := by simpa using hy
    right
    unfold filesOf oneText
    rw [if_neg]
    rcases this with rfl | rfl <;> decide
  have ht : oneText (addExt "d".toList) text (addExt "d".toList) = some text := by unfold oneText; rw [if_pos rfl]
  have hr : ∀ r ∈ rows, r.length = header5.length := by
    have : ∀ r ∈ rows5, r.length = header5.length := by decide
    exact fun r hr => this r (hp.mem_iff.mpr hr)
  have hu := uniform_perm hp rows5_uniform
  obtain ⟨T, F, S, h1, h3⟩ := C97_ends_partial E0_lawful hcv ht h hH (by decide) (by decide) hr ha hu (by omega) hC (j := 0) (by omega) (key := [.int 0]) rfl hposs (by rw [h5]; exact hne) (.inl (by omega)) hl
    (Nat.zero_lt_succ _) (getFeat := fun ρ => .ok (exFeat ρ)) (distance := fun v w => .ok (dist v w)) (fun _ _ => ⟨_, rfl⟩) (fun _ _ _ _ _ _ _ _ => ⟨_, rfl⟩) 0 (lt := fun x y => decide (x < y)) hlt
  exact ⟨T, F, S, E0_lawful, ht, h, hH, by decide, by decide, hr, ha, hu, by omega, (by intro h0; rw [h0] at h5; cases h5), .inl (by omega), by rw [h5]; exact hfew, h1, hl, hlt, h3⟩

/-- C100, example: two texts with the same five lines, on the sound across the speaker, with different distances, numbers of cpus and buffers: both experiments can be run and have the same results, with a row of four triplets -/
example {cv : Conv Val} (hcv : Lawful cv) (n m n' m' : Nat) : ∃ T F S T' F' S', ∃ vars vars' : List Var, ∃ out out' : List OutRow,
    Ran (choices0 (n + 1) (m + 1)) E0 T (fun ρ => .ok (exFeat ρ)) (fun v w => .ok (exDist v w)) (fun x y => decide (x < y)) F S ∧
    Ran (choices0 (n' + 1) (m' + 1)) E0 T' (fun ρ => .ok (exFeat ρ)) (fun v w => .ok (exDist' v w)) (fun x y => decide (x < y)) F' S' ∧
    fromFile E0 (filesOf cv (oneText (addExt "d".toList) text5)) "d".toList "on" ["sp"] [] [] [] = .ok T ∧ fromFile E0 (filesOf cv (oneText (addExt "d".toList) text5s)) "d".toList "on" ["sp"] [] [] [] = .ok T' ∧
    RunRows E0 (tableOf cv header5 rows5) [] "on".toList ["sp".toList] "on" ["sp"] [] T (choices0 (n + 1) (m + 1)) F S vars out ∧
    RunRows E0 (tableOf cv header5 rows5s) [] "on".toList ["sp".toList] "on" ["sp"] [] T' (choices0 (n' + 1) (m' + 1)) F' S' vars' out' ∧
    (out.map (fun o => (o.by_, told "on" ["sp"] (fun _ x => x) vars o))).Perm (out'.map (fun o => (o.by_, told "on" ["sp"] (fun _ x => x) vars' o))) ∧ ∃ o ∈ out, o.n = 4 := by
  have hposs : labels2.Possible ["sp"] := ⟨by decide, fun _ _ => by show (Val.int 1) ≠ .int 2; decide⟩
  have hlen : (numGroup (wordVal 3 ["on".toList, "sp".toList] rows5) "on" ["sp"] (numLines (wordVal 3 ["on".toList, "sp".toList] rows5) 5 [] [.int 0]) labels2).length = 4 := by decide +kernel
  obtain ⟨T, F, S, P⟩ := exRun hcv n m text5_rows (List.Perm.refl _) hlen (by unfold FewWords; decide +kernel) exDist
  obtain ⟨T', F', S', P'⟩ := exRun hcv n' m' text5s_rows rows5_perm (by decide +kernel) (by unfold FewWords; decide +kernel) exDist'
  obtain ⟨vars, out, vars', out', R, R', -, -, h⟩ := C100_texts_partial hcv P P' rows5_perm (fun _ _ _ => rfl) (g := fun d => 2 * d + 1) (by
      intro v w d h
      rw [← Except.ok.inj h]
      rfl) (by intro d d'; simp)
  refine ⟨T, F, S, T', F', S', vars, vars', out, out', P.ran, P'.ran, P.task, P'.task, R, R', h, ?_⟩
  obtain ⟨vars₁, out₁, R₁, -, -, hk⟩ := (P.plain hcv).rows
  obtain ⟨rfl, rfl⟩ := R.unique R₁
  obtain ⟨abx, -, hres⟩ := hk [.int 0] (fun _ => rfl)
  have hg := uniform_group hcv P.text P.head P.uniform P.length (⟨by decide, by decide, by decide, by decide⟩ : Columns ["on".toList, "sp".toList] "on" ["sp"] []) [.int 0] labels2
  have hl : (lineGroup (lineLabel [] "on".toList ["sp".toList]) "on" ["sp"] (levelLines (tableOf cv header5 rows5) 3 ["on".toList, "sp".toList] [] [.int 0]) labels2).length = 4 := by
    have h2 := congrArg List.length hg
    rw [List.length_map] at h2
    exact h2.symm.trans hlen
  obtain ⟨o, ho, hrow⟩ := hres.all labels2 hposs (by intro h0; rw [show 3 + ([] : List Text).length = 3 from rfl] at h0; rw [h0] at hl; cases hl)
  exact ⟨o, (List.mem_filter.mp ho).1, hrow.n.trans hl⟩

#print axioms C100_texts_partial

end ABX.ReadCsv
