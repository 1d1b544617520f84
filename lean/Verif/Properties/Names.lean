import Verif.Proofs.Names
/-!
C74: the names of the levels of 'by' in the files.  C75: the text written by `analyze`.
-/
namespace ABX.Names
open Database (Text)
open ExtSort Task SideOps Spec

/-! ### C74 -/

/-- C74: with several 'by' columns, or with one column of integers or of strings, different levels have different names. -/
theorem C74_distinct_partial (k1 k2 : List Val) (hl : k1.length = k2.length) (hk : k1.length = 1 → List.Forall₂ SameKind k1 k2) (h : keyName k1 = keyName k2) : k1 = k2 := by
  match k1, k2, hl, hk, h with
  | [], [], _, _, _ => rfl
  | [v], [w], _, hk, h =>
    cases hk rfl with
    | cons hvw _ =>
      cases hvw with
      | int => rw [Val.int.injEq _ _ |>.mpr (decimal_inj h)]
      | str => rw [Val.str.injEq _ _ |>.mpr (String.ext h)]
  | v :: v' :: vs, w :: w' :: ws, _, _, h =>
    simp only [keyName, List.cons.injEq, true_and] at h
    obtain ⟨h1, h2⟩ := repr_inj v w _ _ (tupleRest_stops _) (tupleRest_stops _) h
    rw [h1, tupleRest_inj _ _ h2]

/-- C74: a column that holds an integer and the string of its digits has two levels with the same name. -/
theorem C74_not_distinct : ∃ k1 k2 : List Val, k1 ≠ k2 ∧ k1.length = k2.length ∧ keyName k1 = keyName k2 :=
  ⟨[.int 1], [.str "1"], by decide, rfl, by decide +kernel⟩

/-- C74 (partial): a level whose values have no slash, and, for one column, are neither empty nor a dot, has a group of its own right under `/regressors`, with the name of the level.
Missing: values with slashes, which HDF5 takes for nested groups (`C74_not_separate`). -/
theorem C74_place_partial (key : List Val) (h1 : ∀ v ∈ key, NoSlash v) (h2 : ∀ v ∈ key, Nameable v) : place key = ["regressors".toList, keyName key] :=
  place_noslash key (keyName_noslash key h1) (keyName_name key h2).1 (keyName_name key h2).2

/-- C74 (partial): the groups of two such levels are different, and none is inside the other. -/
theorem C74_separate_partial (k1 k2 : List Val) (hne : k1 ≠ k2) (hl : k1.length = k2.length) (hk : k1.length = 1 → List.Forall₂ SameKind k1 k2)
    (h1 : ∀ v ∈ k1 ++ k2, NoSlash v) (h2 : ∀ v ∈ k1 ++ k2, Nameable v) : ¬ place k1 <+: place k2 := by
  rw [C74_place_partial k1 (fun v hv => h1 v (List.mem_append_left _ hv)) (fun v hv => h2 v (List.mem_append_left _ hv)),
    C74_place_partial k2 (fun v hv => h1 v (List.mem_append_right _ hv)) (fun v hv => h2 v (List.mem_append_right _ hv))]
  intro h
  have := List.IsPrefix.eq_of_length h rfl
  rw [List.cons.injEq, List.cons.injEq] at this
  exact hne (C74_distinct_partial k1 k2 hl hk this.2.1)

/-- C74: values with slashes: two levels with one group, a level whose group is inside that of another one, and a level whose group is `/regressors` itself. -/
theorem C74_not_separate : (∃ k1 k2 : List Val, k1 ≠ k2 ∧ k1.length = k2.length ∧ keyName k1 ≠ keyName k2 ∧ place k1 = place k2) ∧
    (∃ k1 k2 : List Val, k1.length = k2.length ∧ place k1 ≠ place k2 ∧ place k1 <+: place k2) ∧ ∃ key : List Val, place key = ["regressors".toList] :=
  ⟨⟨[.str "a/b"], [.str "a//b"], by decide, rfl, by decide +kernel, by decide +kernel⟩, ⟨[.str "a"], [.str "a/b"], rfl, by decide +kernel, by decide +kernel⟩,
    ⟨[.str "."], by decide +kernel⟩⟩

/-- examples: names of levels -/
example : keyName [.int (-3)] = "-3".toList ∧ keyName [.str "it's"] = "it's".toList ∧ keyName [.int 1, .str "a"] = "(1, 'a')".toList ∧
    keyName [.str "it's", .str "b\\"] = "(\"it's\", 'b\\\\')".toList := by decide +kernel

/-- example: two levels of two columns that meet the hypotheses -/
example : ¬ place [.str "a, b", .int 1] <+: place [.str "a", .int 1] :=
  C74_separate_partial _ _ (by decide) rfl (fun h => by cases h) (by
    intro v hv
    simp only [List.cons_append, List.nil_append, List.mem_cons, List.not_mem_nil, or_false] at hv
    rcases hv with rfl | rfl | rfl | rfl <;> simp [NoSlash]) (by
    intro v hv
    simp only [List.cons_append, List.nil_append, List.mem_cons, List.not_mem_nil, or_false] at hv
    rcases hv with rfl | rfl | rfl | rfl <;> simp [Nameable])

/-! ### C75 -/

/-- the cells of a row -/
def Spec.cells (num : ℚ → Text) (r : Analyze.OutRow) : List Text := r.labels.map str ++ [keyName r.by_, num r.score, decimal r.n]

/-- C75: what a reader of tab-separated text finds is determined by the text. -/
theorem C75_unique (t : Text) (rows rows' : List (List Text)) (h : Reads t rows) (h' : Reads t rows') : rows = rows' := lines_unique h.1 h'.1 h.2 h'.2

/-- C75 (partial): when no name of a regressor, no label and no name of a level has a tab or an end of line, the file reads back as a table: the names of the regressors, `by`, `score` and `n`,
then for each row of the results its labels, its level, its score and its number of triplets.  Levels of several columns always satisfy this.
Missing: labels with tabs (`C75_not_reads`). -/
theorem C75_reads_partial (num : ℚ → Text) (hnum : ∀ q, Clean (num q)) (argsort : List Int → List Nat) (names : List Text) (first : Text) (indexes : List (List Val)) (F : File) (scores : List Int) (t : Text)
    (h : csv num argsort names first indexes F scores = .ok t) (hn : ∀ n ∈ names, Clean n) (hi : ∀ ix ∈ indexes, ∀ v ∈ ix, CleanVal v) (hb : ∀ key ∈ F.bys, key.length = 1 → ∀ v ∈ key, CleanVal v) :
    ∃ rows, Analyze.collapse argsort indexes F scores = .ok rows ∧ Reads t ((names ++ ["by".toList, "score".toList, "n".toList]) :: rows.map (Spec.cells num)) := by
  unfold csv headerNames at h
  split at h
  · cases h
  · rename_i names' hnames
    split at hnames
    · cases hnames
      cases hc : Analyze.collapse argsort indexes F scores with
      | error e => simp only [hc] at h; cases h
      | ok rows =>
        simp only [hc] at h
        cases h
        have hmem := collapse_mem argsort indexes F scores rows hc
        refine ⟨rows, rfl, ?_, ?_⟩
        · have hh : header names = (names.flatMap (· ++ ['\t']) ++ "by\tscore\tn".toList) ++ ['\n'] := by
            unfold header; rw [List.append_assoc]; rfl
          rw [hh]
          refine .cons (lineOf_header names) ?_
          exact lines_flatMap (Spec.cells num) (fun r => join (Spec.cells num r)) rows (fun r _ => lineOf_join _ (by simp [Spec.cells]))
        · intro row hrow c hcell
          rcases List.mem_cons.mp hrow with rfl | hrow
          · rcases List.mem_append.mp hcell with hcell | hcell
            · exact hn c hcell
            · simp only [List.mem_cons, List.not_mem_nil, or_false] at hcell
              rcases hcell with rfl | rfl | rfl <;> (constructor <;> decide)
          · obtain ⟨r, hr, rfl⟩ := List.mem_map.mp hrow
            obtain ⟨h1, h2⟩ := hmem r hr
            rcases List.mem_append.mp hcell with hcell | hcell
            · obtain ⟨v, hv, rfl⟩ := List.mem_map.mp hcell
              have : ∃ ix ∈ indexes, v ∈ ix := by
                clear hcell hi hc hmem
                generalize r.labels = labels at h2 hv
                induction h2 with
                | nil => simp at hv
                | cons ha _ ih =>
                  rcases List.mem_cons.mp hv with rfl | hv
                  · exact ⟨_, List.mem_cons_self, ha⟩
                  · obtain ⟨ix, h1, h2⟩ := ih hv
                    exact ⟨ix, List.mem_cons_of_mem _ h1, h2⟩
              obtain ⟨ix, hix, hvx⟩ := this
              exact str_clean v (hi ix hix v hvx)
            · simp only [List.mem_cons, List.not_mem_nil, or_false] at hcell
              rcases hcell with rfl | rfl | rfl
              · exact keyName_clean _ (hb _ h1)
              · exact hnum _
              · exact decimal_clean _
    · cases hnames

/-- C75: all lines have the same number of cells, when there is a name for each index. -/
theorem C75_width (num : ℚ → Text) (argsort : List Int → List Nat) (names : List Text) (indexes : List (List Val)) (F : File) (scores : List Int) (rows : List Analyze.OutRow)
    (h : Analyze.collapse argsort indexes F scores = .ok rows) (hl : names.length = indexes.length) :
    ∀ row ∈ (names ++ ["by".toList, "score".toList, "n".toList]) :: rows.map (Spec.cells num), row.length = names.length + 3 := by
  intro row hrow
  rcases List.mem_cons.mp hrow with rfl | hrow
  · simp
  · obtain ⟨r, hr, rfl⟩ := List.mem_map.mp hrow
    have := (collapse_mem argsort indexes F scores rows h r hr).2.length_eq
    simp [Spec.cells, this, hl]

/-- C75: the cells tell the rows: two rows with labels of the same kinds, levels of the same shape and the same cells are equal, when the text of a score tells the score. -/
theorem C75_cells (num : ℚ → Text) (hnum : ∀ p q, num p = num q → p = q) (r s : Analyze.OutRow) (hlab : List.Forall₂ SameKind r.labels s.labels) (hl : r.by_.length = s.by_.length)
    (hk : r.by_.length = 1 → List.Forall₂ SameKind r.by_ s.by_) (h : Spec.cells num r = Spec.cells num s) : r = s := by
  unfold Spec.cells at h
  obtain ⟨h1, h2⟩ := List.append_inj h (by simp [hlab.length_eq])
  simp only [List.cons.injEq, and_true] at h2
  obtain ⟨h3, h4, h5⟩ := h2
  have e1 : r.labels = s.labels := by
    clear h
    generalize r.labels = a at hlab h1
    generalize s.labels = b at hlab h1
    induction hlab with
    | nil => rfl
    | cons hvw _ ih =>
      rw [List.map_cons, List.map_cons, List.cons.injEq] at h1
      rw [ih h1.2]
      cases hvw with
      | int => rw [Val.int.injEq _ _ |>.mpr (decimal_inj h1.1)]
      | str => rw [Val.str.injEq _ _ |>.mpr (String.ext h1.1)]
  have e2 := C74_distinct_partial _ _ hl hk h3
  have e3 := hnum _ _ h4
  have e4 : r.n = s.n := by have := decimal_inj h5; omega
  cases r; cases s
  simp_all

/-- C75 (partial): the header can be read whatever group is listed first, when no value of a level has a slash or is empty or a dot.
Missing: values with slashes (`C75_not_header`). -/
theorem C75_header_partial (levels : List (List Val)) (names : List Text) (first : Text) (hf : ∃ key ∈ levels, ∃ rest, place key = "regressors".toList :: first :: rest)
    (h1 : ∀ key ∈ levels, ∀ v ∈ key, NoSlash v) (h2 : ∀ key ∈ levels, ∀ v ∈ key, Nameable v) : headerNames levels names first = .ok names := by
  obtain ⟨key, hkey, rest, hp⟩ := hf
  have hp' := C74_place_partial key (h1 key hkey) (h2 key hkey)
  rw [hp] at hp'
  simp only [List.cons.injEq, true_and] at hp'
  unfold headerNames
  rw [if_pos]
  rw [List.contains_iff_mem]
  refine List.mem_map.mpr ⟨key, hkey, ?_⟩
  rw [hp, hp'.1, hp'.2]

namespace Ex

/-- a level, a regressor with the value `x`, one triplet with the score 1 -/
def file (key x : String) : File × List (List Val) := (⟨[(0, 0, 0)], [0], [[.str key]], [(0, 1)], [([.str key], [[0]])]⟩, [[.str x]])

/-- text of numbers for the examples -/
def num (q : ℚ) : Text := decimal q.num ++ '/' :: decimal q.den

theorem num_clean (q : ℚ) : Clean (num q) := clean_append (decimal_clean _) (by
  have := decimal_clean (q.den : Int)
  exact clean_append (a := ['/']) (by simp [Clean]) this)

/-- the text of a file -/
example : csv num (fun l => List.range l.length) ["talker".toList] "b".toList (file "b" "x").2 (file "b" "x").1 [1] = .ok "talker\tby\tscore\tn\nx\tb\t1/1\t1\n".toList := by decide +kernel

/-- it meets the hypotheses of `C75_reads_partial` -/
example : ∃ t rows, csv num (fun l => List.range l.length) ["talker".toList] "b".toList (file "b" "x").2 (file "b" "x").1 [1] = .ok t ∧ Reads t rows ∧ rows.length = 2 := by
  have hcsv : csv num (fun l => List.range l.length) ["talker".toList] "b".toList (file "b" "x").2 (file "b" "x").1 [1] = .ok "talker\tby\tscore\tn\nx\tb\t1/1\t1\n".toList := by decide +kernel
  obtain ⟨rows, hc, hr⟩ := C75_reads_partial num num_clean _ _ _ _ _ _ _ hcsv (by
    intro n hn
    rw [List.mem_singleton.mp hn]
    constructor <;> decide) (by
    intro ix hix v hv
    rw [List.mem_singleton.mp hix] at hv
    rw [List.mem_singleton.mp hv]
    constructor <;> decide) (by
    intro key hkey _ v hv
    rw [List.mem_singleton.mp hkey] at hv
    rw [List.mem_singleton.mp hv]
    constructor <;> decide)
  refine ⟨_, _, hcsv, hr, ?_⟩
  have : (Analyze.collapse (fun l => List.range l.length) (file "b" "x").2 (file "b" "x").1 [1]).map List.length = .ok 1 := by decide +kernel
  rw [hc] at this
  simpa [Except.map] using this

end Ex

/-- C75: the full claim is false: with a label that has a tab the file reads as a table whose second line has one cell too many. -/
theorem C75_not_reads : ∃ (F : File) (indexes : List (List Val)) (t : Text) (row : List Text), csv Ex.num (fun l => List.range l.length) ["talker".toList] "b".toList indexes F [1] = .ok t ∧
    Reads t [["talker".toList, "by".toList, "score".toList, "n".toList], row] ∧ row.length = 5 := by
  refine ⟨(Ex.file "b" "x\ty").1, (Ex.file "b" "x\ty").2, "talker\tby\tscore\tn\nx\ty\tb\t1/1\t1\n".toList, ["x".toList, "y".toList, "b".toList, "1/1".toList, "1".toList], by decide +kernel, ⟨?_, ?_⟩, rfl⟩
  · have h1 : LineOf ["talker".toList, "by".toList, "score".toList, "n".toList] (join ["talker".toList, "by".toList, "score".toList, "n".toList]) := lineOf_join _ (by simp)
    have h2 : LineOf ["x".toList, "y".toList, "b".toList, "1/1".toList, "1".toList] (join ["x".toList, "y".toList, "b".toList, "1/1".toList, "1".toList]) := lineOf_join _ (by simp)
    have := Lines.cons h1 (Lines.cons h2 .nil)
    have e : join ["talker".toList, "by".toList, "score".toList, "n".toList] ++ ['\n'] ++ (join ["x".toList, "y".toList, "b".toList, "1/1".toList, "1".toList] ++ ['\n'] ++ []) =
        "talker\tby\tscore\tn\nx\ty\tb\t1/1\t1\n".toList := by decide +kernel
    rw [← e]; exact this
  · have : ∀ row ∈ [["talker".toList, "by".toList, "score".toList, "n".toList], ["x".toList, "y".toList, "b".toList, "1/1".toList, "1".toList]], ∀ c ∈ row, ('\t' ∉ c ∧ '\n' ∉ c) := by decide +kernel
    exact this

/-- C75: with a level whose name has a slash, `analyze` fails although the results can be computed: the first group of `/regressors` is not that of a level. -/
theorem C75_not_header : ∃ (F : File) (indexes : List (List Val)) (first : Text), (∃ key ∈ F.bys, ∃ rest, place key = "regressors".toList :: first :: rest) ∧
    (∃ rows, Analyze.collapse (fun l => List.range l.length) indexes F [1] = .ok rows) ∧ ∀ num names, csv num (fun l => List.range l.length) names first indexes F [1] = .error .keyError := by
  refine ⟨(Ex.file "b/c" "x").1, (Ex.file "b/c" "x").2, "b".toList, ⟨[.str "b/c"], List.mem_cons_self, ["c".toList], by decide +kernel⟩, ?_, fun num names => ?_⟩
  · have : (Analyze.collapse (fun l => List.range l.length) (Ex.file "b/c" "x").2 (Ex.file "b/c" "x").1 [1]).map List.length = .ok 1 := by decide +kernel
    cases hc : Analyze.collapse (fun l => List.range l.length) (Ex.file "b/c" "x").2 (Ex.file "b/c" "x").1 [1] with
    | error e => rw [hc] at this; cases this
    | ok rows => exact ⟨rows, rfl⟩
  · have : ((Ex.file "b/c" "x").1.regs.map Prod.fst).map place = [["regressors".toList, "b".toList, "c".toList]] := by decide +kernel
    unfold csv headerNames
    rw [this]
    rfl

#print axioms C74_distinct_partial
#print axioms C74_not_distinct
#print axioms C74_place_partial
#print axioms C74_separate_partial
#print axioms C74_not_separate
#print axioms C75_unique
#print axioms C75_reads_partial
#print axioms C75_width
#print axioms C75_cells
#print axioms C75_header_partial
#print axioms C75_not_reads
#print axioms C75_not_header

end ABX.Names
