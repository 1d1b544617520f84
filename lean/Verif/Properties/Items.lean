import Verif.Proofs.Items
/-!
Property C60: the generated item files.  Property C62: `csv_cmp`.
-/
namespace ABX.Items
open Database (Text)

/-- C60: every combination of n labels below `base` is on exactly `repeats + 1` lines of the generated file, and the lines have no other
labels. -/
theorem C60_factorial (base n repeats : Nat) :
    (∀ ds : List Nat, ds.length = n → (∀ d ∈ ds, d < base) → (labels (testitems base n repeats)).count (ds.map str) = repeats + 1) ∧
    ∀ l ∈ labels (testitems base n repeats), ∃ ds : List Nat, ds.length = n ∧ (∀ d ∈ ds, d < base) ∧ l = ds.map str := by
  have hf : ∀ i j, cell base (i + 1) (j + 4) = (fun _ d => str d) j (i / base ^ j % base) := by
    intro i j
    simp [cell]
  have hz : ∀ ds : List Nat, ds.zipIdx.map (fun p => (fun (_ : Nat) d => str d) p.2 p.1) = ds.map str := by
    intro ds
    conv_rhs => rw [← List.zipIdx_map_fst 0 ds]
    rw [List.map_map]
    rfl
  constructor
  · intro ds hl hd
    rw [← hz]
    exact factorial hf (fun _ _ _ h => str_inj h) hl hd
  · intro l hl
    obtain ⟨ds, h1, h2, h3⟩ := range_cells hf l hl
    exact ⟨ds, h1, h2, by rw [h3, hz]⟩

/-- C60 for the named items: the label d in column j is 'c<j>_v<d>'. -/
theorem C60_factorial_named (base n repeats : Nat) :
    (∀ ds : List Nat, ds.length = n → (∀ d ∈ ds, d < base) →
      (labels (namedTestitems base n repeats)).count (ds.zipIdx.map (fun p => 'c' :: str p.2 ++ '_' :: 'v' :: str p.1)) = repeats + 1) ∧
    ∀ l ∈ labels (namedTestitems base n repeats), ∃ ds : List Nat, ds.length = n ∧ (∀ d ∈ ds, d < base) ∧
      l = ds.zipIdx.map (fun p => 'c' :: str p.2 ++ '_' :: 'v' :: str p.1) := by
  have hf : ∀ i j, namedCell base (i + 1) (j + 4) = (fun j d => 'c' :: str j ++ '_' :: 'v' :: str d) j (i / base ^ j % base) := by
    intro i j
    simp [namedCell]
  exact ⟨fun ds hl hd => factorial hf named_inj hl hd, fun l hl => range_cells (g := fun j d => 'c' :: str j ++ '_' :: 'v' :: str d) hf l hl⟩

/-! ### the generated files and the rest of the program -/

/-- C60: from the generated files (plain and named) a task can be created, for every choice of the label columns 'src' (or 'item'), 'c0', 'c1', ... -/
theorem C60_task (parse : Text → Val) (name : Text) (base n repeats : Nat) (hs : (base ^ n * (repeats + 1)) ^ 3 < 2 ^ 64) {e : Task.Env} (he : e.Lawful)
    (on : String) (across by_ : List String) :
    ((∀ c ∈ on :: across ++ by_, c.toList ∈ "src".toList :: colNames n) →
      ∃ T, Database.fromFile e (Database.oneFile (Database.addExt name) (rawOf parse (testitems base n repeats))) name on across by_ [] [] = .ok T) ∧
    ((∀ c ∈ on :: across ++ by_, c.toList ∈ "item".toList :: colNames n) →
      ∃ T, Database.fromFile e (Database.oneFile (Database.addExt name) (rawOf parse (namedTestitems base n repeats))) name on across by_ [] [] = .ok T) := by
  constructor
  · intro h
    exact task_created (f := cell base) (by intro j; simp [cell]) (Or.inl rfl) parse name base n repeats hs (h on (by simp)) (fun c hc => h c (by simp [hc]))
      (fun c hc => h c (by simp [hc])) he
  · intro h
    exact task_created (f := namedCell base) (by intro j; simp [namedCell]) (Or.inr rfl) parse name base n repeats hs (h on (by simp)) (fun c hc => h c (by simp [hc]))
      (fun c hc => h c (by simp [hc])) he

/-! ### verify.check -/

/-- C60: the generated item files and the names of the generated features pass `verify.check`. -/
theorem C60_consistent (base n repeats : Nat) :
    Verify.check (render (testitems base n repeats)) (some (featNames base n repeats)) = .ok () ∧
    Verify.check (render (namedTestitems base n repeats)) (some (featNames base n repeats)) = .ok () := by
  have hstr : ∀ m, Verify.Spec.Word (str m) := fun m => ⟨str_ne m, fun c hc => (str_chars hc).2.2.2.2⟩
  constructor
  · refine check_ok (f := cell base) (fourth := "src".toList) (by intro j; simp [cell]) (Or.inl rfl) (by intro i; simp [cell, letter]) ?_ base n repeats
    intro i j
    unfold cell
    rw [if_neg (by omega)]
    split
    · have : ¬ Verify.Spec.Space (letter j) := by
        unfold letter Verify.Spec.Space
        split <;> decide
      exact word_head this _
    · exact hstr _
  · refine check_ok (f := namedCell base) (fourth := "item".toList) (by intro j; simp [namedCell]) (Or.inr rfl) (by intro i; simp [namedCell]) ?_ base n repeats
    intro i j
    unfold namedCell
    rw [if_neg (by omega)]
    split
    · exact word_head (by unfold Verify.Spec.Space; decide) _
    split
    · unfold Verify.Spec.Word Verify.Spec.Space; decide
    split
    · exact word_head (by unfold Verify.Spec.Space; decide) _
    · refine ⟨by simp, ?_⟩
      intro c hc
      rcases List.mem_append.mp hc with hc | hc
      · exact (word_head (c := 'c') (by unfold Verify.Spec.Space; decide) _).2 c hc
      · simp only [List.mem_cons] at hc
        rcases hc with rfl | rfl | hc
        · unfold Verify.Spec.Space; decide
        · unfold Verify.Spec.Space; decide
        · exact (str_chars hc).2.2.2.2

/-- example: two labels with values 0 and 1, once -/
example : testitems 2 2 0 = [["#file".toList, "onset".toList, "offset".toList, "#src".toList, "c0".toList, "c1".toList],
    ["s0".toList, "n0".toList, "f0".toList, "i0".toList, "0".toList, "0".toList], ["s1".toList, "n1".toList, "f1".toList, "i1".toList, "1".toList, "0".toList],
    ["s2".toList, "n2".toList, "f2".toList, "i2".toList, "0".toList, "1".toList], ["s3".toList, "n3".toList, "f3".toList, "i3".toList, "1".toList, "1".toList]] := by
  decide +kernel

/-- C62 is violated: `csv_cmp` also says that files with different lines are equal; it never says that two files differ. -/
theorem C62_violated : (∃ a b : List Text, ¬ a.Perm b ∧ csvCmp a b = true) ∧ ∀ a b : List Text, csvCmp a b = true :=
  ⟨⟨["a".toList], ["b".toList], by decide, rfl⟩, fun _ _ => rfl⟩

#print axioms C60_factorial
#print axioms C60_factorial_named
#print axioms C60_task
#print axioms C60_consistent
#print axioms C62_violated

end ABX.Items

#print axioms ABX.Items.C60_factorial
#print axioms ABX.Items.C60_factorial_named
#print axioms ABX.Items.C60_task
#print axioms ABX.Items.C60_consistent
#print axioms ABX.Items.C62_violated
