import Verif.Proofs.Database
/-!
Properties C54 and C55: the item file.
-/
namespace ABX.Database
open Spec

/-- names of columns as pandas gives them: not empty, without blanks -/
def Named (columns : List Text) : Prop := ∀ c ∈ columns, c ≠ [] ∧ ' ' ∉ c

namespace Spec
/-- base name of the auxiliary files of an item file -/
def base (f : Text) : Text := (splitext (addExt f)).1

/-- there is no auxiliary file for the label column `c` (a column called "item" would name the item file itself) -/
def Alone (fs : Text → Option (Raw β)) (f c : Text) : Prop := base f ++ '.' :: c = addExt f ∨ fs (base f ++ '.' :: c) = none

/-- the lines of the item file that have a value in all label columns, with their number -/
def complete (r : Raw β) (first : Nat) : List (List (Option β) × Nat) :=
  r.rows.zipIdx.filter (fun p => (List.range' first (r.columns.length - first)).all (fun i => (fieldAt p.1 i).isSome))
end Spec

theorem process_header {fs : Text → Option (Raw β)} {m : Text} {t : Table β} (hn : Named t.columns) {loc : List Text} {x : Text} {lab : List Text}
    (h : Header t.columns loc x lab) : process fs m t =
    (match loadAux fs (splitext m).1 m (select ⟨t.columns.map strip, t.rows⟩ ((t.columns.map strip).drop (3 + loc.length))).columns with
      | .error e => .error e
      | .ok forest => .ok ⟨(dropMissing (select ⟨t.columns.map strip, t.rows⟩ ((t.columns.map strip).drop (3 + loc.length)))
          (select ⟨t.columns.map strip, t.rows⟩ ((t.columns.map strip).take (3 + loc.length)))).1, forest,
          (dropMissing (select ⟨t.columns.map strip, t.rows⟩ ((t.columns.map strip).drop (3 + loc.length)))
          (select ⟨t.columns.map strip, t.rows⟩ ((t.columns.map strip).take (3 + loc.length)))).2⟩) := by
  unfold process
  rw [if_neg (not_not.mpr ((header_iff (fun c hc => (hn c hc).2)).mpr ⟨loc, x, lab, h⟩).1), sharps_ok (fun c hc => (hn c hc).1), header_pos h]
  simp only [ne_eq, not_true_eq_false, if_false]
  generalize loadAux fs (splitext m).1 m _ = o
  cases o <;> rfl

theorem process_no_header {fs : Text → Option (Raw β)} {m : Text} {t : Table β} (hn : Named t.columns) (h : ¬ ∃ loc x lab, Header t.columns loc x lab) :
    process fs m t = .error .assertion := by
  unfold process
  by_cases hj : join (t.columns.take 3) = "#file onset offset".toList
  · rw [if_neg (not_not.mpr hj), sharps_ok (fun c hc => (hn c hc).1)]
    simp only
    have hno : ¬ ∃ i1, sharpPos 0 t.columns = [0, i1] := fun hi => h ((header_iff (fun c hc => (hn c hc).2)).mp ⟨hj, hi⟩)
    split
    · next i0 i1 he =>
      have : i0 ≠ 0 := by
        rintro rfl
        exact hno ⟨i1, he⟩
      simp [this]
    · rfl
  · rw [if_pos hj]

/-- C54: a file is accepted exactly when its header is well formed and no label column has an auxiliary file (C55 tells what happens
then). -/
theorem C54_accepts (fs : Text → Option (Raw β)) (f : Text) {r : Raw β} (hf : fs (addExt f) = some r) (hn : Named r.columns) :
    (∃ L, load fs f = .ok L) ↔ ∃ loc x lab, Header r.columns loc x lab ∧ ∀ c ∈ x :: lab, Alone fs f c := by
  unfold load
  simp only [hf]
  by_cases hH : ∃ loc x lab, Header r.columns loc x lab
  · obtain ⟨loc, x, lab, h⟩ := hH
    have hn' : Named (readTable r).columns := hn
    have h' : Header (readTable r).columns loc x lab := h
    rw [process_header hn' h']
    have hdrop : ((readTable r).columns.map strip).drop (3 + loc.length) = x :: lab := by
      rw [header_names h']
      simp [show 3 + loc.length = loc.length + 1 + 1 + 1 by omega]
    have hiff : (∃ g, loadAux fs (splitext (addExt f)).1 (addExt f)
        (select ⟨(readTable r).columns.map strip, (readTable r).rows⟩ (((readTable r).columns.map strip).drop (3 + loc.length))).columns = .ok g) ↔
        ∀ c ∈ x :: lab, Alone fs f c := by
      rw [loadAux_ok_iff]
      have : ∀ c, c ∈ (select ⟨(readTable r).columns.map strip, (readTable r).rows⟩ (((readTable r).columns.map strip).drop (3 + loc.length))).columns ↔
          c ∈ x :: lab := by
        intro c
        unfold select
        simp only
        rw [mem_select (fun n hn => List.mem_of_mem_drop hn), hdrop]
      simp only [this]
      rfl
    constructor
    · rintro ⟨L, hL⟩
      refine ⟨loc, x, lab, h, hiff.mp ?_⟩
      revert hL
      cases loadAux fs (splitext (addExt f)).1 (addExt f)
        (select ⟨(readTable r).columns.map strip, (readTable r).rows⟩ (((readTable r).columns.map strip).drop (3 + loc.length))).columns with
      | error e => simp
      | ok g => intro _; exact ⟨g, rfl⟩
    · rintro ⟨loc', x', lab', h2, ha⟩
      have e1 := header_names h
      have e2 := header_names h2
      have p1 := header_pos h
      have p2 := header_pos h2
      rw [p1] at p2
      simp only [List.cons.injEq, and_true, true_and] at p2
      have hl : loc.length = loc'.length := by omega
      rw [e1] at e2
      simp only [List.cons_append, List.cons.injEq, true_and] at e2
      have := (List.append_inj e2 hl).2
      obtain ⟨g, hg⟩ := hiff.mpr (by rw [this]; exact ha)
      simp [hg]
  · rw [process_no_header hn hH]
    simp only [reduceCtorEq, exists_false, false_iff, not_exists, not_and]
    exact fun loc x lab h => absurd ⟨loc, x, lab, h⟩ hH

/-- C54: a header that is not well formed is refused with an `AssertionError`. -/
theorem C54_refused (fs : Text → Option (Raw β)) (f : Text) {r : Raw β} (hf : fs (addExt f) = some r) (hn : Named r.columns)
    (h : ¬ ∃ loc x lab, Header r.columns loc x lab) : load fs f = .error .assertion := by
  unfold load
  simp only [hf]
  exact process_no_header hn h

/-- C54: when the names are distinct once the '#' is removed, the location table has the columns before the second '#', the label table
those from it on, and the two tables have the lines without missing label, in the order of the file, with the number of the line as index
label.  Missing: a label column with the name of another column (`C54_violated`). -/
theorem C54_tables_partial {fs : Text → Option (Raw β)} {f : Text} {r : Raw β} (hf : fs (addExt f) = some r) (hn : Named r.columns)
    {loc : List Text} {x : Text} {lab : List Text} (h : Header r.columns loc x lab)
    (hd : ("file".toList :: "onset".toList :: "offset".toList :: loc ++ x :: lab).Nodup) {L : Loaded β} (hL : load fs f = .ok L) :
    L.feat.columns = "file".toList :: "onset".toList :: "offset".toList :: loc ∧ L.db.columns = x :: lab ∧
    L.hierarchy = (x :: lab).map leafNamed ∧
    L.feat.rows = (complete r (3 + loc.length)).map (fun p => (p.2, (List.range (3 + loc.length)).map (fieldAt p.1))) ∧
    L.db.rows = (complete r (3 + loc.length)).map (fun p => (p.2, (List.range' (3 + loc.length) (lab.length + 1)).map (fieldAt p.1))) := by
  unfold load at hL
  simp only [hf] at hL
  have hn' : Named (readTable r).columns := hn
  have h' : Header (readTable r).columns loc x lab := h
  rw [process_header hn' h'] at hL
  have hnames : (readTable r).columns.map strip = ("file".toList :: "onset".toList :: "offset".toList :: loc) ++ x :: lab := header_names h'
  have hlen : r.columns.length = 3 + loc.length + (lab.length + 1) := by
    rw [h.eq]; simp; omega
  generalize hN : (readTable r).columns.map strip = N at *
  have hNlen : N.length = 3 + loc.length + (lab.length + 1) := by rw [hnames]; simp; omega
  have hNd : N.Nodup := by rw [hnames]; exact hd
  have htake : N.take (3 + loc.length) = "file".toList :: "onset".toList :: "offset".toList :: loc := by
    rw [hnames, List.take_append_of_le_length (by simp; omega), List.take_of_length_le (by simp; omega)]
  have hdrop : N.drop (3 + loc.length) = x :: lab := by
    rw [hnames]
    simp [show 3 + loc.length = loc.length + 1 + 1 + 1 by omega]
  have s1 : selectPos N (N.take (3 + loc.length)) = List.range (3 + loc.length) := selectPos_take hNd (by omega)
  have s2 : selectPos N (N.drop (3 + loc.length)) = List.range' (3 + loc.length) (lab.length + 1) := by
    rw [selectPos_drop hNd (by omega), hNlen]
    congr 1
    omega
  have c1 : (List.range (3 + loc.length)).filterMap (fun i => N[i]?) = "file".toList :: "onset".toList :: "offset".toList :: loc := by
    rw [List.range_eq_range', filterMap_range' N 0 _ (by omega)]
    simpa using htake
  have c2 : (List.range' (3 + loc.length) (lab.length + 1)).filterMap (fun i => N[i]?) = x :: lab := by
    rw [filterMap_range' N _ _ (by omega), hdrop]
    simp
  unfold select at hL
  simp only [s1, s2, c1, c2] at hL
  split at hL
  · simp at hL
  · next forest hforest =>
    obtain rfl := Except.ok.inj hL
    have hrows : ((readTable r).rows.filter (fun p => !((List.range' (3 + loc.length) (lab.length + 1)).map (fieldAt p.2)).any Option.isNone)) =
        (complete r (3 + loc.length)).map (fun p => (p.2, p.1)) := by
      unfold readTable complete
      simp only
      rw [List.filter_map, List.filter_filter]
      congr 1
      apply List.filter_congr
      intro p _
      rw [hlen, show 3 + loc.length + (lab.length + 1) - (3 + loc.length) = lab.length + 1 by omega]
      simp only [Function.comp]
      rw [Bool.eq_iff_iff]
      simp only [Bool.and_eq_true, Bool.not_eq_true', List.any_eq_false, List.any_eq_true, List.all_eq_true, List.mem_range, List.mem_map]
      constructor
      · rintro ⟨h1, -⟩ i hi
        have := h1 _ ⟨i, hi, rfl⟩
        simpa [Option.isSome_iff_ne_none] using this
      · intro hall
        refine ⟨?_, 3 + loc.length, by omega, hall _ (by rw [List.mem_range'_1]; omega)⟩
        rintro v ⟨i, hi, rfl⟩
        have := hall i hi
        simpa [Option.isSome_iff_ne_none] using this
    refine ⟨rfl, rfl, loadAux_flat hforest, ?_, ?_⟩
    · refine (dropMissing_rows (readTable r).rows (fun row => (List.range' (3 + loc.length) (lab.length + 1)).map (fieldAt row))
        (fun row => (List.range (3 + loc.length)).map (fieldAt row))).trans ?_
      rw [hrows]
      simp
    · refine (dropMissing_rows (readTable r).rows (fun row => (List.range' (3 + loc.length) (lab.length + 1)).map (fieldAt row))
        (fun row => (List.range' (3 + loc.length) (lab.length + 1)).map (fieldAt row))).trans ?_
      rw [hrows]
      simp

/-- C54, both tables have the same lines: the i-th rows of the label and of the location table are of the same line of the file. -/
theorem C54_aligned_partial {fs : Text → Option (Raw β)} {f : Text} {r : Raw β} (hf : fs (addExt f) = some r) (hn : Named r.columns)
    {loc : List Text} {x : Text} {lab : List Text} (h : Header r.columns loc x lab)
    (hd : ("file".toList :: "onset".toList :: "offset".toList :: loc ++ x :: lab).Nodup) {L : Loaded β} (hL : load fs f = .ok L) (i : Nat)
    {p q : Nat × List (Option β)} (hp : L.db.rows[i]? = some p) (hq : L.feat.rows[i]? = some q) :
    p.1 = q.1 ∧ ∃ row, r.rows[p.1]? = some row ∧ q.2 = (List.range (3 + loc.length)).map (fieldAt row) ∧
      p.2 = (List.range' (3 + loc.length) (lab.length + 1)).map (fieldAt row) ∧ ∀ v ∈ p.2, v ≠ none := by
  obtain ⟨-, -, -, h4, h5⟩ := C54_tables_partial hf hn h hd hL
  rw [h4, List.getElem?_map] at hq
  rw [h5, List.getElem?_map] at hp
  cases hc : (complete r (3 + loc.length))[i]? with
  | none => rw [hc] at hp; simp at hp
  | some c =>
    rw [hc] at hp hq
    obtain rfl := Option.some.inj hp
    obtain rfl := Option.some.inj hq
    have hm := List.mem_of_getElem? hc
    unfold complete at hm
    obtain ⟨hm1, hm2⟩ := List.mem_filter.mp hm
    have := List.mem_zipIdx hm1
    refine ⟨rfl, c.1, ?_, rfl, rfl, ?_⟩
    · rw [this.2.2]
      simp only [Nat.sub_zero]
      rw [List.getElem?_eq_getElem]
    · intro v hv
      obtain ⟨j, hj, rfl⟩ := List.mem_map.mp hv
      have hlen : r.columns.length = 3 + loc.length + (lab.length + 1) := by
        rw [h.eq]; simp; omega
      have := List.all_eq_true.mp hm2 j (by rw [hlen]; simpa using hj)
      simpa [Option.isSome_iff_ne_none] using this

/-- a file system with one file -/
def oneFile (name : Text) (r : Raw β) : Text → Option (Raw β) := fun f => if f = name then some r else none

/-- text of a literal -/
abbrev tx (s : String) : Text := s.toList

/-- example: a header with two more location columns is accepted; the line that has no speaker is dropped from both tables -/
example : load (oneFile (tx "d.item") ⟨[tx "#file", tx "onset", tx "offset", tx "#phone", tx "speaker"],
    [[some 1, some 2, some 3, some 4, some 5], [some 6, some 7, some 8, some 9], [some 10, some 11, some 12, some 13, some 14]]⟩) (tx "d") =
    .ok ⟨⟨[tx "phone", tx "speaker"], [(0, [some 4, some 5]), (2, [some 13, some 14])]⟩, [leafNamed (tx "phone"), leafNamed (tx "speaker")],
      ⟨[tx "file", tx "onset", tx "offset"], [(0, [some 1, some 2, some 3]), (2, [some 10, some 11, some 12])]⟩⟩ := by rfl

/-- C54 is violated: a label column has the name of a location column.  The header is accepted, but both tables have that column twice. -/
theorem C54_violated : ∃ (r : Raw Nat) (L : Loaded Nat), Named r.columns ∧ Header r.columns [] (tx "phone") [tx "file"] ∧
    load (oneFile (tx "d.item") r) (tx "d.item") = .ok L ∧
    L.feat.columns = [tx "file", tx "file", tx "onset", tx "offset"] ∧ L.db.columns = [tx "phone", tx "file", tx "file"] ∧
    L.feat.rows = [(0, [some 1, some 5, some 2, some 3])] :=
  ⟨⟨[tx "#file", tx "onset", tx "offset", tx "#phone", tx "file"], [[some 1, some 2, some 3, some 4, some 5]]⟩, _,
    by unfold Named; decide, ⟨rfl, by decide, by decide⟩, rfl, by decide, by decide, by decide⟩

/-- C55 is violated for every item file: if a label column has an auxiliary file, the load raises.  The first such column decides: `TypeError`
when the auxiliary file is well formed (its first column has the name of the label column), `AssertionError` when it is not, `ValueError` when it is
empty. -/
theorem C55_violated (fs : Text → Option (Raw β)) (f : Text) {r : Raw β} (hf : fs (addExt f) = some r) (hn : Named r.columns)
    {loc : List Text} {x : Text} {lab : List Text} (h : Header r.columns loc x lab)
    (hd : ("file".toList :: "onset".toList :: "offset".toList :: loc ++ x :: lab).Nodup)
    {c : Text} {before after : List Text} (hc : x :: lab = before ++ c :: after) (hb : ∀ d ∈ before, Alone fs f d)
    (hne : base f ++ '.' :: c ≠ addExt f) {aux : Raw β} (haux : fs (base f ++ '.' :: c) = some aux) :
    load fs f = .error (match aux.columns with
      | [] => .valueError
      | d :: _ => if c = d then .typeError else .assertion) := by
  unfold load
  simp only [hf]
  have hn' : Named (readTable r).columns := hn
  have h' : Header (readTable r).columns loc x lab := h
  rw [process_header hn' h']
  have hnames : (readTable r).columns.map strip = ("file".toList :: "onset".toList :: "offset".toList :: loc) ++ x :: lab := header_names h'
  generalize hN : (readTable r).columns.map strip = N at *
  have hNlen : N.length = 3 + loc.length + (lab.length + 1) := by rw [hnames]; simp; omega
  have hNd : N.Nodup := by rw [hnames]; exact hd
  have hdrop : N.drop (3 + loc.length) = x :: lab := by
    rw [hnames]
    simp [show 3 + loc.length = loc.length + 1 + 1 + 1 by omega]
  have s2 : selectPos N (N.drop (3 + loc.length)) = List.range' (3 + loc.length) (lab.length + 1) := by
    rw [selectPos_drop hNd (by omega), hNlen]
    congr 1
    omega
  have c2 : (List.range' (3 + loc.length) (lab.length + 1)).filterMap (fun i => N[i]?) = x :: lab := by
    rw [filterMap_range' N _ _ (by omega), hdrop]
    simp
  have hcols : (select ⟨N, (readTable r).rows⟩ (N.drop (3 + loc.length))).columns = x :: lab := by
    unfold select
    simp only [s2, c2]
  rw [hcols, hc]
  have key : loadAux fs (splitext (addExt f)).1 (addExt f) (before ++ c :: after) = .error (match aux.columns with
      | [] => .valueError
      | d :: _ => if c = d then .typeError else .assertion) := by
    clear hc
    have hne' : (splitext (addExt f)).1 ++ '.' :: c ≠ addExt f := hne
    have haux' : fs ((splitext (addExt f)).1 ++ '.' :: c) = some aux := haux
    induction before with
    | nil =>
      rw [List.nil_append, loadAux]
      simp only [hne', if_false, haux']
      cases aux.columns with
      | nil => rfl
      | cons d ds => by_cases hcd : c = d <;> simp [hcd]
    | cons b before ih =>
      have hb' : (splitext (addExt f)).1 ++ '.' :: b = addExt f ∨ fs ((splitext (addExt f)).1 ++ '.' :: b) = none := hb b (by simp)
      rw [List.cons_append, loadAux, ih (fun d hd => hb d (by simp [hd]))]
      rcases hb' with h1 | h1
      · simp [h1]
      · simp [h1]
  rw [key]

/-- C55, no auxiliary file: the hierarchy has one node per label column, without children, and the tables are those of the item file
(`C54_tables_partial`).  Missing: all files that have auxiliary files (`C55_violated`). -/
theorem C55_flat_partial {fs : Text → Option (Raw β)} {f : Text} {r : Raw β} (hf : fs (addExt f) = some r) (hn : Named r.columns)
    {loc : List Text} {x : Text} {lab : List Text} (h : Header r.columns loc x lab)
    (hd : ("file".toList :: "onset".toList :: "offset".toList :: loc ++ x :: lab).Nodup) (ha : ∀ c ∈ x :: lab, Alone fs f c) :
    ∃ L, load fs f = .ok L ∧ L.hierarchy.map Tree.nameOf = (x :: lab).map (fun c => some (String.ofList c)) ∧ ∀ t ∈ L.hierarchy, t.children = [] := by
  obtain ⟨L, hL⟩ := (C54_accepts fs f hf hn).mpr ⟨loc, x, lab, h, ha⟩
  obtain ⟨-, -, h3, -, -⟩ := C54_tables_partial hf hn h hd hL
  refine ⟨L, hL, ?_, ?_⟩
  · rw [h3, List.map_map]
    apply List.map_congr_left
    intro c _
    simp [leafNamed, Tree.nameOf, Tree.getAttr, Tree.Tree.attrs]
  · intro t ht
    rw [h3] at ht
    obtain ⟨c, -, rfl⟩ := List.mem_map.mp ht
    rfl

/-- example: an auxiliary file for the column `speaker`, with the gender of each speaker, makes the load raise `TypeError` -/
example : load (fun f => if f = tx "d.item" then some ⟨[tx "#file", tx "onset", tx "offset", tx "#phone", tx "speaker"], [[some 1, some 2, some 3, some 4, some 5]]⟩
    else if f = tx "d.speaker" then some ⟨[tx "speaker", tx "gender"], [[some 5, some 0]]⟩ else none) (tx "d.item") = .error .typeError := by rfl

#print axioms C54_accepts
#print axioms C54_refused
#print axioms C54_tables_partial
#print axioms C54_aligned_partial
#print axioms C54_violated
#print axioms C55_violated
#print axioms C55_flat_partial

end ABX.Database

#print axioms ABX.Database.C54_accepts
#print axioms ABX.Database.C54_refused
#print axioms ABX.Database.C54_tables_partial
#print axioms ABX.Database.C54_aligned_partial
#print axioms ABX.Database.C54_violated
#print axioms ABX.Database.C55_violated
#print axioms ABX.Database.C55_flat_partial
