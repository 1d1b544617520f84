import Verif.Proofs.FromFile
/-!
Properties C15 and C61 for tasks that are created from an item file: the lines of the file, the levels of the task, and the records
(file, onset, offset) that the task attaches to its items.
-/
namespace ABX.Database
open Spec SideOps

namespace Spec
/-- an item file `r` found under the name `f`: well formed header, distinct column names, no auxiliary file -/
structure ItemFile (fs : Text → Option (Raw Val)) (f : Text) (r : Raw Val) (loc : List Text) (x : Text) (lab : List Text) : Prop where
  file : fs (addExt f) = some r
  named : Named r.columns
  header : Header r.columns loc x lab
  distinct : ("file".toList :: "onset".toList :: "offset".toList :: loc ++ x :: lab).Nodup
  alone : ∀ c ∈ x :: lab, Alone fs f c

/-- the label of a line in the column `c`; the label columns begin at position `first` -/
def label (first : Nat) (labels : List Text) (line : List (Option Val)) (c : String) : Option Val :=
  fieldAt line (first + labels.findIdx (fun d => String.ofList d == c))

/-- the record of a line: its number and its fields before the label columns -/
def record (first : Nat) (p : List (Option Val) × Nat) : Nat × List (Option Val) := (p.2, (List.range first).map (fieldAt p.1))

/-- the complete lines of a level, in the order of the file -/
def levelLines (r : Raw Val) (first : Nat) (labels : List Text) (by_ : List String) (key : List Val) : List (List (Option Val) × Nat) :=
  (complete r first).filter (fun p => by_.map (label first labels p.1) == (if by_ = [] then [] else key.map some))

/-- no incomplete line comes before a complete one -/
def NoGap (r : Raw Val) (first : Nat) : Prop := (complete r first).map (·.2) = List.range (complete r first).length

/-- the columns of the task are label columns, the names of which have neither '_' nor '#' -/
structure Columns (labels : List Text) (on : String) (across by_ : List String) : Prop where
  on : on.toList ∈ labels
  across : ∀ c ∈ across, c.toList ∈ labels
  by_ : ∀ c ∈ by_, c.toList ∈ labels
  names : ∀ c ∈ labels, '_' ∉ c ∧ '#' ∉ c

/-- the side operations name label columns, with the values they need -/
structure Ops (labels : List Text) (on : String) (across by_ : List String) (filters : List (DBFun Bool)) (regressors : List (DBFun Nat)) : Prop where
  availF : ∀ f ∈ filters, Avail ⟨[on], across, by_⟩ f
  availR : ∀ f ∈ regressors, Avail ⟨[on], across, by_⟩ f
  inF : ∀ f ∈ filters, ∀ v ∈ f.inputs, v.1.toList ∈ labels
  inR : ∀ f ∈ regressors, ∀ v ∈ f.inputs, v.1.toList ∈ labels
end Spec

variable {fs : Text → Option (Raw Val)} {f : Text} {r : Raw Val} {loc : List Text} {x : Text} {lab : List Text}
  {on : String} {across by_ : List String} {filters : List (DBFun Bool)} {regressors : List (DBFun Nat)} {e : Task.Env}

theorem mem_ofList {c : String} {l : List Text} : c ∈ l.map String.ofList ↔ c.toList ∈ l := by
  rw [List.mem_map]
  constructor
  · rintro ⟨d, hd, rfl⟩
    simpa using hd
  · intro h
    exact ⟨c.toList, h, by simp⟩

/-- the arguments of the task as functions of the lines -/
def argsOf (r : Raw Val) (first : Nat) (labels : List Text) (on : String) (across by_ : List String) (filters : List (DBFun Bool))
    (regressors : List (DBFun Nat)) (cols : Cols) : Task.Args (Nat × List (Option Val)) :=
  { columns := labels.map String.ofList, on := on, across := across, by_ := by_, cols := cols, filters := filters, regressors := regressors,
    db := (complete r first).map (fun p => (p.2, toRow labels ((List.range' first labels.length).map (fieldAt p.1)))),
    feat := (complete r first).map (record first) }

theorem fromFile_eq (hI : ItemFile fs f r loc x lab) : fromFile e fs f on across by_ filters regressors =
    (match Tree.hierCols ((x :: lab).map leafNamed) on across by_ with
      | .error _ => .error .assertion
      | .ok cols => Task.init e (argsOf r (3 + loc.length) (x :: lab) on across by_ filters regressors cols)) := by
  obtain ⟨L, hL⟩ := (C54_accepts fs f hI.file hI.named).mpr ⟨loc, x, lab, hI.header, hI.alone⟩
  obtain ⟨h1, h2, h3, h4, h5⟩ := C54_tables_partial hI.file hI.named hI.header hI.distinct hL
  unfold fromFile
  rw [hL]
  simp only
  rw [h3]
  cases Tree.hierCols ((x :: lab).map leafNamed) on across by_ with
  | error e => rfl
  | ok cols =>
    simp only
    unfold toArgs argsOf
    rw [h2, h4, h5, List.map_map]
    rfl

theorem columns_iff (first : Nat) (cols : Cols) : Task.Spec'.Columns (argsOf r first (x :: lab) on across by_ filters regressors cols) ↔
    Columns (x :: lab) on across by_ := by
  constructor
  · rintro ⟨h1, h2, h3, h4⟩
    refine ⟨mem_ofList.mp h1, fun c hc => mem_ofList.mp (h2 c hc), fun c hc => mem_ofList.mp (h3 c hc), ?_⟩
    intro c hc
    have := h4 (String.ofList c) (List.mem_map_of_mem hc)
    simpa using this
  · rintro ⟨h1, h2, h3, h4⟩
    refine ⟨mem_ofList.mpr h1, fun c hc => mem_ofList.mpr (h2 c hc), fun c hc => mem_ofList.mpr (h3 c hc), ?_⟩
    intro c hc
    have := h4 c.toList (mem_ofList.mp hc)
    simpa using this

/-- a task from an item file satisfies what the theorems on triplets ask of the arguments -/
theorem argsOf_ok (first : Nat) (hC : Columns (x :: lab) on across by_) (hO : Ops (x :: lab) on across by_ filters regressors)
    (hs : r.rows.length ^ 3 < 2 ^ 64) : (argsOf r first (x :: lab) on across by_ filters regressors ⟨[on], across, by_⟩).OK := by
  refine Task.Args.OK.flat rfl ((Task.checkDatabase_iff _).mpr ((columns_iff first _).mpr hC)) hO.availF hO.availR
    (fun f hf v hv => mem_ofList.mpr (hO.inF f hf v hv)) (fun f hf v hv => mem_ofList.mpr (hO.inR f hf v hv)) ?_
  have h1 : (argsOf r first (x :: lab) on across by_ filters regressors ⟨[on], across, by_⟩).db.length ≤ r.rows.length := by
    unfold argsOf complete
    simp only [List.length_map]
    exact (List.length_filter_le _ _).trans (by simp)
  refine lt_of_le_of_lt ?_ hs
  rw [pow_three, ← Nat.mul_assoc]
  exact Nat.mul_le_mul (Nat.mul_le_mul h1 h1) h1

theorem fromFile_args (hI : ItemFile fs f r loc x lab) (hC : Columns (x :: lab) on across by_) :
    fromFile e fs f on across by_ filters regressors = Task.init e (argsOf r (3 + loc.length) (x :: lab) on across by_ filters regressors ⟨[on], across, by_⟩) := by
  rw [fromFile_eq hI, hierCols_flat (mem_ofList.mpr hC.on) (fun c hc => mem_ofList.mpr (hC.across c hc)) (fun c hc => mem_ofList.mpr (hC.by_ c hc))]

/-- C61, columns that are not label columns, or names with '_' or '#', raise an `AssertionError` -/
theorem C61_file_columns (hI : ItemFile fs f r loc x lab) (hC : ¬ Columns (x :: lab) on across by_) :
    fromFile e fs f on across by_ filters regressors = .error .assertion := by
  rw [fromFile_eq hI]
  by_cases h : on.toList ∈ x :: lab
  · obtain ⟨c, hc⟩ := hierCols_ok (across := across) (by_ := by_) (mem_ofList.mpr h)
    rw [hc]
    simp only
    have hne : Task.checkDatabase (argsOf r (3 + loc.length) (x :: lab) on across by_ filters regressors c) = .error .assertion := by
      have h1 := mt (Task.checkDatabase_iff (argsOf r (3 + loc.length) (x :: lab) on across by_ filters regressors c)).mp (fun h => hC ((columns_iff _ _).mp h))
      revert h1
      unfold Task.checkDatabase
      split
      · intro _; rfl
      split
      · intro _; rfl
      split
      · intro _; rfl
      split
      · intro _; rfl
      intro h; exact absurd rfl h
    unfold Task.init
    rw [hne]
  · rw [hierCols_none (fun h' => h (mem_ofList.mp h'))]

theorem hlen (hI : ItemFile fs f r loc x lab) : r.columns.length = 3 + loc.length + (x :: lab).length := by
  rw [hI.header.eq]; simp; omega

/-- C15 for the lines of an item file without gap: the records of a level are those of its lines, in the order of the file, and item i
of the level has the labels of the line of record i.  Missing: files in which an incomplete line comes before a complete one
(`C15_gap_violated`, `C15_violated`). -/
theorem C15_lines_partial (he : e.Lawful) (hI : ItemFile fs f r loc x lab) (hC : Columns (x :: lab) on across by_) (hO : Ops (x :: lab) on across by_ filters regressors)
    (hs : r.rows.length ^ 3 < 2 ^ 64) (hg : NoGap r (3 + loc.length)) {T : Task.Task (Nat × List (Option Val))}
    (h : fromFile e fs f on across by_ filters regressors = .ok T) {L : Task.Level (Nat × List (Option Val))} (hL : L ∈ T.levels) :
    L.feat = (levelLines r (3 + loc.length) (x :: lab) by_ L.key).map (record (3 + loc.length)) ∧
    List.Forall₂ (fun (A : Nat × Row) (p : List (Option Val) × Nat) => ∀ c, c.toList ∈ x :: lab → label (3 + loc.length) (x :: lab) p.1 c = some (A.2 c))
      (Task.itemsOf (argsOf r (3 + loc.length) (x :: lab) on across by_ filters regressors ⟨[on], across, by_⟩) L.key)
      (levelLines r (3 + loc.length) (x :: lab) by_ L.key) := by
  rw [fromFile_args hI hC] at h
  have ha := argsOf_ok (r := r) (3 + loc.length) hC hO hs
  set a := argsOf r (3 + loc.length) (x :: lab) on across by_ filters regressors ⟨[on], across, by_⟩ with haeq
  have hdb : a.db = (complete r (3 + loc.length)).map (fun p => (p.2, toRow (x :: lab) ((List.range' (3 + loc.length) (x :: lab).length).map (fieldAt p.1)))) := rfl
  have hft : a.feat = (complete r (3 + loc.length)).map (record (3 + loc.length)) := rfl
  have hby : a.by_ = by_ := rfl
  have hpos : ∀ (i : Nat) (p : Nat × Row), a.db[i]? = some p → p.1 = i := by
    intro i p hp
    rw [hdb, List.getElem?_map] at hp
    cases hc : (complete r (3 + loc.length))[i]? with
    | none => rw [hc] at hp; simp at hp
    | some q =>
      rw [hc] at hp
      simp only [Option.map_some, Option.some.injEq] at hp
      subst hp
      have : ((complete r (3 + loc.length)).map (·.2))[i]? = some q.2 := by rw [List.getElem?_map, hc]; rfl
      rw [hg] at this
      obtain ⟨hi, hh⟩ := List.getElem?_eq_some_iff.mp this
      rw [List.getElem_range] at hh
      exact hh.symm
  have hl : a.feat.length = a.db.length := by rw [hdb, hft]; simp
  obtain ⟨hzip, hlf⟩ := Task.C15_features_partial he ha h hL hpos hl
  have hfilt : ((a.db.map (·.2)).zip a.feat).filter (fun p => a.by_.map p.1 == Task.specKey a L.key) =
      (levelLines r (3 + loc.length) (x :: lab) by_ L.key).map (fun p => (toRow (x :: lab) ((List.range' (3 + loc.length) (x :: lab).length).map (fieldAt p.1)), record (3 + loc.length) p)) := by
    rw [hdb, hft, List.map_map, List.zip_map', List.filter_map]
    congr 1
    unfold levelLines
    apply List.filter_congr
    intro p hp
    rw [Bool.eq_iff_iff]
    simp only [Function.comp, hby, beq_iff_eq]
    have hlab : by_.map (label (3 + loc.length) (x :: lab) p.1) =
        (by_.map (toRow (x :: lab) ((List.range' (3 + loc.length) (x :: lab).length).map (fieldAt p.1)))).map some := by
      rw [List.map_map]
      apply List.map_congr_left
      intro c hc
      exact label_toRow (hlen hI) hp (mem_ofList.mpr (hC.by_ c hc))
    rw [hlab]
    unfold Task.specKey
    rw [hby]
    by_cases hb : by_ = []
    · simp [hb]
    · rw [if_neg hb, if_neg hb]
      constructor
      · intro h; rw [h]
      · intro h
        exact List.map_injective_iff.mpr (Option.some_injective _) h
  rw [hfilt] at hzip
  have hsnd : L.feat = (((Task.itemsOf a L.key).map (·.2)).zip L.feat).map (·.2) := by
    rw [List.map_snd_zip]
    simp [hlf]
  have hfst : (Task.itemsOf a L.key).map (·.2) = (((Task.itemsOf a L.key).map (·.2)).zip L.feat).map (·.1) := by
    rw [List.map_fst_zip]
    simp [hlf]
  refine ⟨?_, ?_⟩
  · rw [hsnd, hzip, List.map_map]
    rfl
  · rw [hzip, List.map_map] at hfst
    have hF : List.Forall₂ (fun (r' : Row) (p : List (Option Val) × Nat) => ∀ c, c.toList ∈ x :: lab → label (3 + loc.length) (x :: lab) p.1 c = some (r' c))
        ((Task.itemsOf a L.key).map (·.2)) (levelLines r (3 + loc.length) (x :: lab) by_ L.key) := by
      rw [hfst, List.forall₂_map_left_iff, List.forall₂_same]
      intro p hp c hc
      exact label_toRow (hlen hI) (List.mem_filter.mp hp).1 (mem_ofList.mpr hc)
    rwa [List.forall₂_map_left_iff] at hF

theorem noGap_iff : NoGap r k ↔ ∀ p ∈ complete r k, p.2 < (complete r k).length := by
  constructor
  · intro h p hp
    have : p.2 ∈ (complete r k).map (·.2) := List.mem_map_of_mem hp
    rw [h] at this
    simpa using this
  · intro h
    have := increasing_range (complete_increasing r k) (by
      intro y hy
      obtain ⟨p, hp, rfl⟩ := List.mem_map.mp hy
      simpa using h p hp)
    rw [List.length_map] at this
    exact this

/-- C61 for an item file, without filters: the task is created exactly when its columns are label columns, the regressors are accepted and no
incomplete line comes before a complete one. -/
theorem C61_file_created_iff (he : e.Lawful) (hI : ItemFile fs f r loc x lab) (hO : Ops (x :: lab) on across by_ [] regressors)
    (hs : r.rows.length ^ 3 < 2 ^ 64) :
    (∃ T, fromFile e fs f on across by_ [] regressors = .ok T) ↔
      Columns (x :: lab) on across by_ ∧ (∀ g ∈ regressors, Task.Spec'.Accepted false ⟨[on], across, by_⟩ g) ∧ NoGap r (3 + loc.length) := by
  by_cases hC : Columns (x :: lab) on across by_
  · rw [fromFile_args hI hC, Task.C61_created_iff he (argsOf_ok _ hC hO hs) (by simp [argsOf])]
    rw [noGap_iff]
    constructor
    · rintro ⟨-, -, h3, h4⟩
      refine ⟨hC, h3, ?_⟩
      intro p hp
      have := (h4 (p.2, toRow (x :: lab) ((List.range' (3 + loc.length) (x :: lab).length).map (fieldAt p.1)))
        (List.mem_map.mpr ⟨p, hp, rfl⟩) (fun g hg => by simp [argsOf] at hg)).2 _ (List.mem_map.mpr ⟨p, hp, rfl⟩) (fun c _ => rfl)
      simpa [argsOf] using this
    · rintro ⟨-, h3, h4⟩
      refine ⟨(columns_iff _ _).mpr hC, fun g hg => by simp [argsOf] at hg, h3, ?_⟩
      intro p hp _
      refine ⟨⟨p, hp, fun c _ => rfl, fun g hg => by simp [argsOf] at hg⟩, ?_⟩
      intro q hq _
      obtain ⟨q', hq', rfl⟩ := List.mem_map.mp hq
      simpa [argsOf] using h4 q' hq'
  · rw [C61_file_columns hI hC]
    simp [hC]

/-- C15 is violated for every item file in which an incomplete line comes before a complete one: without filters the task is not created at all,
the look-up of the records raises an `IndexError`. -/
theorem C15_gap_violated (he : e.Lawful) (hI : ItemFile fs f r loc x lab) (hC : Columns (x :: lab) on across by_) (hO : Ops (x :: lab) on across by_ [] regressors)
    (hR : ∀ g ∈ regressors, Task.Spec'.Accepted false ⟨[on], across, by_⟩ g) (hs : r.rows.length ^ 3 < 2 ^ 64) (hg : ¬ NoGap r (3 + loc.length)) :
    fromFile e fs f on across by_ [] regressors = .error .indexError := by
  cases h : fromFile e fs f on across by_ [] regressors with
  | ok T => exact absurd ((C61_file_created_iff he hI hO hs).mp ⟨T, h⟩).2.2 hg
  | error err =>
    rw [fromFile_args hI hC] at h
    obtain ⟨p, hp, -, ⟨rfl, -⟩ | ⟨-, hno⟩⟩ := Task.C61_errors he (argsOf_ok _ hC hO hs) (by simp [argsOf]) ((columns_iff _ _).mpr hC)
      (fun g hg => by simp [argsOf] at hg) hR h
    · rfl
    · exact absurd ⟨p, hp, fun c _ => rfl, fun g hg => by simp [argsOf] at hg⟩ hno

/-- an item file: three complete lines, with an incomplete line of the given number of fields after the first or at the end -/
def exFile (bad : Nat) : Raw Val :=
  ⟨[tx "#file", tx "onset", tx "offset", tx "#on", tx "sp"],
    [[.int 0, .int 1, .int 2, .str "a", .int 0].map some, ([.int 1, .int 1, .int 2, .str "a", .int 1].map some).take bad,
     [.int 2, .int 1, .int 2, .str "b", .int 0].map some]⟩

theorem exFile_ok (bad : Nat) : ItemFile (oneFile (tx "d.item") (exFile bad)) (tx "d") (exFile bad) [] (tx "on") [tx "sp"] :=
  ⟨rfl, by show Named [tx "#file", tx "onset", tx "offset", tx "#on", tx "sp"]; unfold Named; decide, ⟨rfl, by decide, by decide⟩, by decide, by
    intro c hc
    simp only [List.mem_cons, List.not_mem_nil, or_false] at hc
    rcases hc with rfl | rfl <;> exact Or.inr rfl⟩

theorem exFile_columns : Columns [tx "on", tx "sp"] "on" [] ["sp"] := ⟨by decide, by decide, by decide, by decide⟩
theorem exFile_ops : Ops [tx "on", tx "sp"] "on" [] ["sp"] [] [] := ⟨by simp, by simp, by simp, by simp⟩

/-- example: without incomplete line the task is created and the level sp = 0 has the records of lines 0 and 2 -/
example : (fromFile Task.E0 (oneFile (tx "d.item") (exFile 5)) (tx "d") "on" [] ["sp"] [] []).map (fun T => T.levels.map (fun L => (L.key, L.feat))) =
    .ok [([.int 1], [(1, [some (.int 1), some (.int 1), some (.int 2)])]),
      ([.int 0], [(0, [some (.int 0), some (.int 1), some (.int 2)]), (2, [some (.int 2), some (.int 1), some (.int 2)])])] := by rfl

/-- example: the second line has no label in the column sp: there is a gap, the task raises an `IndexError` -/
example : fromFile Task.E0 (oneFile (tx "d.item") (exFile 4)) (tx "d") "on" [] ["sp"] [] [] = .error .indexError :=
  C15_gap_violated Task.E0_lawful (exFile_ok 4) exFile_columns exFile_ops (by simp) (by simp [exFile]) (by unfold NoGap; decide)

#print axioms C61_file_columns
#print axioms C15_lines_partial
#print axioms C61_file_created_iff
#print axioms C15_gap_violated

end ABX.Database

#print axioms ABX.Database.C15_lines_partial
#print axioms ABX.Database.C15_gap_violated
#print axioms ABX.Database.C61_file_columns
#print axioms ABX.Database.C61_file_created_iff
