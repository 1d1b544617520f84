import Verif.Model.RegInfo
import Std.Data.String.ToNat
/-!
Property C89: the names of the regressors.  Those that come with names keep them, the outputs of the others are numbered one after the other, through all fields.
-/
namespace ABX.RegInfo

/-- the number of outputs of the regressors without names -/
def unnamed : List Kind → Nat
  | [] => 0
  | .script n none :: ks => n + unnamed ks
  | _ :: ks => unnamed ks

/-- has the regressor no names -/
def isUnnamed : Kind → Bool
  | .script _ none => true
  | _ => false

/-- the names of the regressors without names, one list -/
def madeNames (names : List (List String)) (ks : List Kind) : List String := ((names.zip ks).filter (fun p => isUnnamed p.2)).flatMap (·.1)

theorem unnamed_append : ∀ (ks ks' : List Kind), unnamed (ks ++ ks') = unnamed ks + unnamed ks'
  | [], _ => by simp [unnamed]
  | .script n none :: ks, ks' => by simp [unnamed, unnamed_append ks ks']; omega
  | .script n (some l) :: ks, ks' => by simp [unnamed, unnamed_append ks ks']
  | .column a b :: ks, ks' => by simp [unnamed, unnamed_append ks ks']

theorem map_numbers (n m k : Nat) : (List.range n).map (fun i => "reg_" ++ toString (k + i)) ++ (List.range m).map (fun i => "reg_" ++ toString (k + n + i)) =
    (List.range (n + m)).map (fun i => "reg_" ++ toString (k + i)) := by
  rw [List.range_add, List.map_append, List.map_map]
  congr 1
  refine List.map_congr_left (fun i _ => ?_)
  simp only [Function.comp, Nat.add_assoc]

theorem fetch_numbers : ∀ (ks : List Kind) (m : Nat), (fetch m ks).1.length = ks.length ∧ (fetch m ks).2.2 = m + unnamed ks ∧
    madeNames (fetch m ks).1 ks = (List.range (unnamed ks)).map (fun i => "reg_" ++ toString (m + i)) ∧
    ∀ p ∈ (fetch m ks).1.zip ks, ∀ names, p.2.specs.2.1 = some names → p.1 = names
  | [], m => by simp [fetch, unnamed, madeNames]
  | .script n none :: ks, m => by
    obtain ⟨h1, h2, h3, h4⟩ := fetch_numbers ks (m + n)
    simp only [fetch, Kind.specs, unnamed, List.length_cons, h1, h2, List.zip_cons_cons, List.forall_mem_cons]
    refine ⟨trivial, by omega, ?_, by simp, h4⟩
    rw [← map_numbers, ← h3]
    simp [madeNames, isUnnamed]
  | .script n (some l) :: ks, m => by
    obtain ⟨h1, h2, h3, h4⟩ := fetch_numbers ks m
    simp only [fetch, Kind.specs, unnamed, List.length_cons, h1, h2, List.zip_cons_cons, List.forall_mem_cons]
    refine ⟨trivial, trivial, ?_, by simp, h4⟩
    rw [← h3]
    simp [madeNames, isUnnamed]
  | .column a b :: ks, m => by
    obtain ⟨h1, h2, h3, h4⟩ := fetch_numbers ks m
    simp only [fetch, Kind.specs, unnamed, List.length_cons, h1, h2, List.zip_cons_cons, List.forall_mem_cons]
    refine ⟨trivial, trivial, ?_, by simp, h4⟩
    rw [← h3]
    simp [madeNames, isUnnamed]

theorem fetchAll_numbers : ∀ (fs : List (List Kind)) (m : Nat), ((fetchAll m fs).flatMap (fun f => f.1)).length = fs.flatten.length ∧
    madeNames ((fetchAll m fs).flatMap (fun f => f.1)) fs.flatten = (List.range (unnamed fs.flatten)).map (fun i => "reg_" ++ toString (m + i)) ∧
    ∀ p ∈ ((fetchAll m fs).flatMap (fun f => f.1)).zip fs.flatten, ∀ names, p.2.specs.2.1 = some names → p.1 = names
  | [], m => by simp [fetchAll, unnamed, madeNames]
  | f :: fs, m => by
    obtain ⟨h1, h2, h3, h4⟩ := fetch_numbers f m
    obtain ⟨i1, i2, i3⟩ := fetchAll_numbers fs (fetch m f).2.2
    rw [h2] at i1 i2 i3
    simp only [fetchAll, List.flatMap_cons, List.flatten_cons, List.length_append, h1, h2, i1, unnamed_append]
    rw [List.zip_append h1]
    refine ⟨trivial, ?_, ?_⟩
    · rw [← map_numbers, ← h3, ← i2]
      simp only [madeNames]
      rw [List.zip_append h1, List.filter_append, List.flatMap_append]
    · intro p hp
      rcases List.mem_append.mp hp with hp | hp
      · exact h4 p hp
      · exact i3 p hp

/-- C89: there is one list of names per regressor, in the order of the fields by, on_across_by, A, B, X, ABX; regressors that come with names (columns) keep them;
the outputs of the others are `reg_0`, `reg_1`, ... in the order of the regressors, through all fields: no two of them have the same name. -/
theorem C89_numbers (fields : List (List Kind)) : (nameLists fields).length = fields.flatten.length ∧ (info fields).1 = (nameLists fields).flatten ∧
    (∀ p ∈ (nameLists fields).zip fields.flatten, ∀ names, p.2.specs.2.1 = some names → p.1 = names) ∧
    madeNames (nameLists fields) fields.flatten = (List.range (unnamed fields.flatten)).map (fun i => "reg_" ++ toString i) ∧
    (madeNames (nameLists fields) fields.flatten).Nodup := by
  obtain ⟨h1, h2, h3⟩ := fetchAll_numbers fields 0
  have h2' : madeNames (nameLists fields) fields.flatten = (List.range (unnamed fields.flatten)).map (fun i => "reg_" ++ toString i) := by
    unfold nameLists; rw [h2]; simp only [Nat.zero_add]
  refine ⟨h1, ?_, h3, h2', ?_⟩
  · simp only [info, nameLists]
    generalize fetchAll 0 fields = r
    induction r with
    | nil => rfl
    | cons f r ih => simp only [List.flatMap_cons, List.flatten_append, ih]
  · rw [h2']
    refine List.Nodup.map_on (fun i _ j _ h => ?_) List.nodup_range
    have h' := congrArg String.toList h
    simp only [String.toList_append, List.append_cancel_left_eq] at h'
    have : toString i = toString j := String.toList_inj.mp h'
    exact Nat.repr_inj.mp (by simpa using this)

/-- example: a column, a script with two outputs, one with names, and in the next field a script with one output -/
example : nameLists [[.column "c_A" [], .script 2 none, .script 1 (some ["o"])], [.script 1 none]] = [["c_A"], ["reg_0", "reg_1"], ["o"], ["reg_2"]] := by decide +kernel

#print axioms C89_numbers

end ABX.RegInfo
