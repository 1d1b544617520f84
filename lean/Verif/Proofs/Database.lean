import Verif.Model.Database
import Mathlib.Data.List.Pairwise
import Mathlib.Data.List.Range
import Mathlib.Data.List.Nodup
/-!
Proofs about the model of database.py.
-/
namespace ABX.Database

theorem word_split {a a' r r' : Text} (h : ' ' ∉ a) (h' : ' ' ∉ a') (he : a ++ ' ' :: r = a' ++ ' ' :: r') : a = a' ∧ r = r' := by
  induction a generalizing a' with
  | nil =>
    cases a' with
    | nil => simpa using he
    | cons c a' => simp at he; simp at h'; exact absurd he.1 h'.1
  | cons c a ih =>
    cases a' with
    | nil => simp at he; simp [he.1] at h
    | cons c' a' =>
      simp only [List.cons_append, List.cons.injEq] at he
      have := ih (by simp at h; exact h.2) (by simp at h'; exact h'.2) he.2
      exact ⟨by rw [he.1, this.1], this.2⟩

theorem join_three {l : List Text} (hs : ∀ c ∈ l, ' ' ∉ c) (hl : l.length ≤ 3) :
    join l = "#file onset offset".toList ↔ l = ["#file".toList, "onset".toList, "offset".toList] := by
  constructor
  · intro h
    have e : "#file onset offset".toList = "#file".toList ++ ' ' :: ("onset".toList ++ ' ' :: "offset".toList) := by decide
    rw [e] at h
    match l, hs, hl with
    | [], _, _ => exact absurd h (by decide)
    | [a], hs, _ =>
      simp only [join] at h
      have := hs a (by simp)
      rw [h] at this
      exact absurd this (by decide)
    | [a, b], hs, _ =>
      simp only [join] at h
      have := (word_split (hs a (by simp)) (by decide) h).2
      have h2 := hs b (by simp)
      rw [this] at h2
      exact absurd h2 (by decide)
    | [a, b, c], hs, _ =>
      simp only [join] at h
      obtain ⟨h1, h2⟩ := word_split (hs a (by simp)) (by decide) h
      obtain ⟨h3, h4⟩ := word_split (hs b (by simp)) (by decide) h2
      rw [h1, h3, h4]
    | a :: b :: c :: d :: l, _, hl => simp at hl
  · rintro rfl
    decide

/-- the name without its '#' -/
def strip : Text → Text
  | [] => []
  | c :: cs => if c = '#' then cs else c :: cs

/-- positions of the names that start with '#' -/
def sharpPos (i : Nat) (cs : List Text) : List Nat := ((cs.zipIdx i).filter (fun p => p.1.head? == some '#')).map (·.2)

theorem sharps_ok {cs : List Text} (h : ∀ c ∈ cs, c ≠ []) (i : Nat) : sharps i cs = .ok (sharpPos i cs, cs.map strip) := by
  induction cs generalizing i with
  | nil => simp [sharps, sharpPos]
  | cons c cs ih =>
    cases c with
    | nil => exact absurd rfl (h [] (by simp))
    | cons ch rest =>
      rw [sharps, ih (fun c hc => h c (by simp [hc]))]
      by_cases hch : ch = '#'
      · simp [hch, sharpPos, strip]
      · simp [hch, sharpPos, strip]

theorem sharpPos_ge {i : Nat} {cs : List Text} {j : Nat} (h : j ∈ sharpPos i cs) : i ≤ j := by
  unfold sharpPos at h
  obtain ⟨⟨c, k⟩, hc, rfl⟩ := List.mem_map.mp h
  exact (List.mem_zipIdx (List.mem_filter.mp hc).1).1

theorem sharpPos_cons (i : Nat) (c : Text) (cs : List Text) :
    sharpPos i (c :: cs) = if c.head? = some '#' then i :: sharpPos (i + 1) cs else sharpPos (i + 1) cs := by
  unfold sharpPos
  by_cases h : c.head? = some '#' <;> simp [h]

theorem sharpPos_nil_iff (i : Nat) (cs : List Text) : sharpPos i cs = [] ↔ ∀ c ∈ cs, c.head? ≠ some '#' := by
  induction cs generalizing i with
  | nil => simp [sharpPos]
  | cons c cs ih =>
    rw [sharpPos_cons]
    by_cases h : c.head? = some '#'
    · simp [h]
    · rw [if_neg h, ih]
      simp [h]

theorem sharpPos_one (i j : Nat) (cs : List Text) : sharpPos i cs = [j] ↔
    ∃ loc x lab, cs = loc ++ ('#' :: x) :: lab ∧ j = i + loc.length ∧ (∀ c ∈ loc, c.head? ≠ some '#') ∧ ∀ c ∈ lab, c.head? ≠ some '#' := by
  induction cs generalizing i with
  | nil => simp [sharpPos]
  | cons c cs ih =>
    rw [sharpPos_cons]
    by_cases h : c.head? = some '#'
    · rw [if_pos h]
      obtain ⟨x, rfl⟩ : ∃ x, c = '#' :: x := by
        cases c with
        | nil => simp at h
        | cons ch x => simp at h; exact ⟨x, by rw [h]⟩
      constructor
      · intro he
        simp only [List.cons.injEq] at he
        exact ⟨[], x, cs, by simp, by simp [he.1], by simp, (sharpPos_nil_iff _ _).mp he.2⟩
      · rintro ⟨loc, x', lab, h1, h2, h3, h4⟩
        cases loc with
        | nil =>
          simp only [List.nil_append, List.cons.injEq] at h1
          simp only [List.length_nil, Nat.add_zero] at h2
          rw [h2, h1.2, (sharpPos_nil_iff _ _).mpr h4]
        | cons d loc =>
          simp only [List.cons_append, List.cons.injEq] at h1
          exact absurd h (by rw [h1.1]; exact h3 d (by simp))
    · rw [if_neg h, ih]
      constructor
      · rintro ⟨loc, x, lab, h1, h2, h3, h4⟩
        refine ⟨c :: loc, x, lab, by simp [h1], by simp [h2]; omega, ?_, h4⟩
        intro d hd
        rcases List.mem_cons.mp hd with rfl | hd
        · exact h
        · exact h3 d hd
      · rintro ⟨loc, x, lab, h1, h2, h3, h4⟩
        cases loc with
        | nil =>
          simp only [List.nil_append, List.cons.injEq] at h1
          exact absurd (by rw [h1.1]; rfl) h
        | cons d loc =>
          simp only [List.cons_append, List.cons.injEq] at h1
          exact ⟨loc, x, lab, h1.2, by simp at h2; omega, fun d hd => h3 d (by simp [hd]), h4⟩

namespace Spec
/-- a well formed header: '#file onset offset', then names of which exactly one starts with '#' -/
structure Header (columns loc : List Text) (x : Text) (lab : List Text) : Prop where
  eq : columns = "#file".toList :: "onset".toList :: "offset".toList :: loc ++ ('#' :: x) :: lab
  loc : ∀ c ∈ loc, c.head? ≠ some '#'
  lab : ∀ c ∈ lab, c.head? ≠ some '#'
end Spec
open Spec

theorem header_iff {columns : List Text} (hs : ∀ c ∈ columns, ' ' ∉ c) :
    (join (columns.take 3) = "#file onset offset".toList ∧ ∃ i1, sharpPos 0 columns = [0, i1]) ↔ ∃ loc x lab, Header columns loc x lab := by
  rw [join_three (fun c hc => hs c (List.mem_of_mem_take hc)) (by simp; omega)]
  constructor
  · rintro ⟨h1, i1, h2⟩
    have e : columns = ["#file".toList, "onset".toList, "offset".toList] ++ columns.drop 3 := by
      rw [← h1, List.take_append_drop]
    rw [e] at h2
    simp only [List.cons_append, List.nil_append] at h2
    rw [sharpPos_cons, if_pos (by decide), sharpPos_cons, if_neg (by decide), sharpPos_cons, if_neg (by decide)] at h2
    simp only [List.cons.injEq, true_and] at h2
    obtain ⟨loc, x, lab, g1, -, g3, g4⟩ := (sharpPos_one _ _ _).mp h2
    refine ⟨loc, x, lab, ?_, g3, g4⟩
    rw [e, g1]
    simp
  · rintro ⟨loc, x, lab, h1, h2, h3⟩
    rw [h1]
    refine ⟨by simp, 3 + loc.length, ?_⟩
    simp only [List.cons_append]
    rw [sharpPos_cons, if_pos (by decide), sharpPos_cons, if_neg (by decide), sharpPos_cons, if_neg (by decide)]
    congr 1
    exact (sharpPos_one _ _ _).mpr ⟨loc, x, lab, rfl, by simp, h2, h3⟩

theorem header_pos {columns loc : List Text} {x : Text} {lab : List Text} (h : Header columns loc x lab) : sharpPos 0 columns = [0, 3 + loc.length] := by
  rw [h.eq]
  simp only [List.cons_append]
  rw [sharpPos_cons, if_pos (by decide), sharpPos_cons, if_neg (by decide), sharpPos_cons, if_neg (by decide)]
  congr 1
  exact (sharpPos_one _ _ _).mpr ⟨loc, x, lab, rfl, by simp, h.loc, h.lab⟩

theorem strip_of_ne {c : Text} (h : c.head? ≠ some '#') : strip c = c := by
  cases c with
  | nil => rfl
  | cons a c => simp at h; simp [strip, h]

theorem header_names {columns loc : List Text} {x : Text} {lab : List Text} (h : Header columns loc x lab) :
    columns.map strip = ("file".toList :: "onset".toList :: "offset".toList :: loc) ++ x :: lab := by
  rw [h.eq]
  simp only [List.map_cons, List.map_append, List.cons_append]
  have h1 : loc.map strip = loc := by
    rw [List.map_congr_left (fun c hc => strip_of_ne (h.loc c hc))]; simp
  have h2 : lab.map strip = lab := by
    rw [List.map_congr_left (fun c hc => strip_of_ne (h.lab c hc))]; simp
  rw [h1, h2, show strip "#file".toList = "file".toList by decide, show strip "onset".toList = "onset".toList by decide,
    show strip "offset".toList = "offset".toList by decide, show strip ('#' :: x) = x by simp [strip]]

/-! ### selection of columns -/

theorem filter_eq_single {l : List Text} (hn : l.Nodup) {i : Nat} {n : Text} (h : l[i]? = some n) :
    (List.range l.length).filter (fun j => l[j]? == some n) = [i] := by
  have hi : i < l.length := (List.getElem?_eq_some_iff.mp h).1
  have : ∀ j ∈ List.range l.length, (l[j]? == some n) = (j == i) := by
    intro j hj
    rw [List.mem_range] at hj
    rw [Bool.eq_iff_iff]
    simp only [beq_iff_eq]
    rw [List.getElem?_eq_getElem hj] at *
    rw [List.getElem?_eq_getElem hi] at h
    constructor
    · intro he
      have := he.trans h.symm
      exact (hn.getElem_inj_iff).mp (Option.some.inj this)
    · rintro rfl
      exact h
  rw [List.filter_congr this]
  have hr := List.nodup_range (n := l.length)
  clear this h
  generalize hL : l.length = L at *
  have : ∀ L, i < L → (List.range L).filter (fun j => j == i) = [i] := by
    intro L
    induction L with
    | zero => intro h; omega
    | succ L ih =>
      intro hiL
      rw [List.range_succ, List.filter_append]
      by_cases hh : i = L
      · subst hh
        have : (List.range i).filter (fun j => j == i) = [] := by
          rw [List.filter_eq_nil_iff]
          intro a ha
          have := List.mem_range.mp ha
          simp; omega
        simp [this]
      · rw [ih (by omega)]
        have : (L == i) = false := by simp; omega
        simp [this]
  exact this L hi

theorem selectPos_segment {l : List Text} (hn : l.Nodup) (s k : Nat) (h : s + k ≤ l.length) :
    selectPos l ((l.drop s).take k) = List.range' s k := by
  induction k generalizing s with
  | zero => simp [selectPos]
  | succ k ih =>
    have hs : s < l.length := by omega
    rw [List.drop_eq_getElem_cons hs, List.take_succ_cons, List.range'_succ]
    have := ih (s + 1) (by omega)
    unfold selectPos at this ⊢
    rw [List.flatMap_cons, this, filter_eq_single hn (List.getElem?_eq_getElem hs)]
    rfl

theorem selectPos_take {l : List Text} (hn : l.Nodup) {k : Nat} (h : k ≤ l.length) : selectPos l (l.take k) = List.range k := by
  have := selectPos_segment hn 0 k (by omega)
  simpa [List.range_eq_range'] using this

theorem selectPos_drop {l : List Text} (hn : l.Nodup) {k : Nat} (h : k ≤ l.length) : selectPos l (l.drop k) = List.range' k (l.length - k) := by
  have := selectPos_segment hn k (l.length - k) (by omega)
  rwa [List.take_of_length_le (by simp)] at this

theorem filterMap_range' (l : List Text) (s k : Nat) (h : s + k ≤ l.length) : (List.range' s k).filterMap (fun i => l[i]?) = (l.drop s).take k := by
  induction k generalizing s with
  | zero => simp
  | succ k ih =>
    rw [List.range'_succ, List.filterMap_cons, List.getElem?_eq_getElem (show s < l.length by omega), ih (s + 1) (by omega),
      List.drop_eq_getElem_cons (show s < l.length by omega), List.take_succ_cons]

/-- names found by a selection, whatever the repetitions -/
theorem mem_select {l names : List Text} (hsub : ∀ n ∈ names, n ∈ l) (c : Text) :
    c ∈ (selectPos l names).filterMap (fun i => l[i]?) ↔ c ∈ names := by
  simp only [List.mem_filterMap, selectPos, List.mem_flatMap, List.mem_filter, List.mem_range, beq_iff_eq]
  constructor
  · rintro ⟨i, ⟨n, hn, -, hi⟩, hc⟩
    rw [hi] at hc
    rwa [← Option.some.inj hc]
  · intro hc
    obtain ⟨i, hi, he⟩ := List.mem_iff_getElem.mp (hsub c hc)
    exact ⟨i, ⟨c, hc, hi, by rw [List.getElem?_eq_getElem hi, he]⟩, by rw [List.getElem?_eq_getElem hi, he]⟩

/-! ### auxiliary files -/

/-- no auxiliary file for a column (the main file itself does not count) -/
def NoAux (fs : Text → Option (Raw β)) (basename mainfile : Text) (c : Text) : Prop :=
  basename ++ '.' :: c = mainfile ∨ fs (basename ++ '.' :: c) = none

theorem loadAux_ok_iff (fs : Text → Option (Raw β)) (b m : Text) (cols : List Text) :
    (∃ f, loadAux fs b m cols = .ok f) ↔ ∀ c ∈ cols, NoAux fs b m c := by
  induction cols with
  | nil => simp [loadAux]
  | cons c cols ih =>
    simp only [List.mem_cons, forall_eq_or_imp, ← ih]
    rw [loadAux]
    by_cases h : b ++ '.' :: c = m
    · simp only [h, if_true, NoAux, true_or, true_and]
      cases loadAux fs b m cols <;> simp
    · simp only [h, if_false, NoAux, false_or]
      cases hf : fs (b ++ '.' :: c) with
      | none => simp only [true_and]; cases loadAux fs b m cols <;> simp
      | some r =>
        simp only [reduceCtorEq, false_and, iff_false, not_exists]
        intro f
        cases r.columns with
        | nil => simp
        | cons d ds => simp only; split <;> simp

theorem loadAux_flat {fs : Text → Option (Raw β)} {b m : Text} {cols : List Text} {f : List Tree.Tree} (h : loadAux fs b m cols = .ok f) :
    f = cols.map leafNamed := by
  induction cols generalizing f with
  | nil => simp [loadAux] at h; simp [h]
  | cons c cols ih =>
    have key : (∃ e, loadAux fs b m cols = .error e ∧ (Except.error e : Except Err (List Tree.Tree)) = .ok f) ∨
        ∃ g, loadAux fs b m cols = .ok g ∧ (Except.ok (leafNamed c :: g) : Except Err (List Tree.Tree)) = .ok f := by
      rw [loadAux] at h
      cases hl : loadAux fs b m cols with
      | error e =>
        simp only [hl] at h
        refine Or.inl ⟨e, rfl, ?_⟩
        by_cases hb : b ++ '.' :: c = m
        · simp [hb] at h
        · simp only [hb, if_false] at h
          cases hf : fs (b ++ '.' :: c) with
          | none => simp [hf] at h
          | some r =>
            simp only [hf] at h
            cases hc : r.columns with
            | nil => simp [hc] at h
            | cons d ds => simp only [hc] at h; split at h <;> simp at h
      | ok g =>
        simp only [hl] at h
        refine Or.inr ⟨g, rfl, ?_⟩
        by_cases hb : b ++ '.' :: c = m
        · simpa [hb] using h
        · simp only [hb, if_false] at h
          cases hf : fs (b ++ '.' :: c) with
          | none => simpa [hf] using h
          | some r =>
            simp only [hf] at h
            cases hc : r.columns with
            | nil => simp [hc] at h
            | cons d ds => simp only [hc] at h; split at h <;> simp at h
    rcases key with ⟨e, -, he⟩ | ⟨g, hg, he⟩
    · simp at he
    · obtain rfl := Except.ok.inj he
      simp [ih hg]

/-! ### rows -/

theorem dropMissing_rows (rows : List (Nat × List (Option β))) (g : List (Option β) → List (Option β)) (f : List (Option β) → List (Option β)) :
    (((rows.map (fun p => (p.1, f p.2))).zip ((rows.map (fun p => (p.1, g p.2))).map (fun p => p.2.any Option.isNone))).filter (fun p => !p.2)).map (·.1)
      = (rows.filter (fun p => !(g p.2).any Option.isNone)).map (fun p => (p.1, f p.2)) := by
  induction rows with
  | nil => simp
  | cons p rows ih =>
    simp only [List.map_cons, List.zip_cons_cons, List.filter_cons]
    by_cases h : (g p.2).any Option.isNone = true
    · simp only [h, Bool.not_true, Bool.false_eq_true, if_false]
      exact ih
    · rw [Bool.not_eq_true] at h
      simp only [h, Bool.not_false, if_true, List.map_cons]
      rw [ih]

end ABX.Database
