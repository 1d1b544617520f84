import Verif.Spec.CommandLine
namespace ABX.CommandLine
open Database (Text splitext)

variable {κ : Type}

theorem setFile_same (fs : Files κ) (p : Text) (c : Option κ) : setFile fs p c p = c := by simp [setFile]

theorem setFile_ne (fs : Files κ) {p q : Text} (c : Option κ) (h : q ≠ p) : setFile fs p c q = fs q := by simp [setFile, h]

theorem removeOld_same (fs : Files κ) (p : Text) : removeOld fs p p = none := by
  unfold removeOld
  split
  · exact setFile_same _ _ _
  · rename_i h; simpa using h

theorem removeOld_ne (fs : Files κ) {p q : Text} (h : q ≠ p) : removeOld fs p q = fs q := by
  unfold removeOld
  split
  · exact setFile_ne _ _ h
  · rfl

theorem removeOld_eq (fs : Files κ) (p : Text) : removeOld fs p = setFile fs p none := by
  funext q
  by_cases h : q = p
  · subst h; rw [removeOld_same, setFile_same]
  · rw [removeOld_ne _ h, setFile_ne _ _ h]

theorem create_frame (can : Text → Bool) (fs : Files κ) (p : Text) (w : κ × Option Err) : Spec.Frame p fs (create can fs p w).1 := by
  intro q h
  unfold create
  split
  · exact setFile_ne _ _ h
  · rfl

theorem frame_trans {o : Text} {a b c : Files κ} (h : Spec.Frame o a b) (h' : Spec.Frame o b c) : Spec.Frame o a c :=
  fun q hq => (h' q hq).trans (h q hq)

theorem frame_refl (o : Text) (a : Files κ) : Spec.Frame o a a := fun _ _ => rfl

theorem removeOld_frame (fs : Files κ) (o : Text) : Spec.Frame o fs (removeOld fs o) := fun _ h => removeOld_ne fs h

theorem create_none (can : Text → Bool) (fs : Files κ) (p : Text) (w : κ × Option Err) (h : fs p = none) :
    (create can fs p w).1 p = none ↔ can p = false := by
  unfold create
  by_cases hc : can p = true
  · simp [hc, setFile_same]
  · simp [hc, h]

theorem create_ok (can : Text → Bool) (fs : Files κ) (p : Text) (w : κ × Option Err) :
    (create can fs p w).2 = .ok ↔ can p = true ∧ w.2 = none := by
  unfold create
  by_cases hc : can p = true
  · rcases h : w.2 with _ | e <;> simp [hc]
  · simp [hc]

theorem create_content (can : Text → Bool) (fs : Files κ) (p : Text) (w : κ × Option Err) (hc : can p = true) :
    (create can fs p w).1 p = some w.1 := by
  unfold create
  simp [hc, setFile_same]

theorem keeps_of_frame {o : Text} {a b : Files κ} (h : Spec.Frame o a b) (ho : a o = none) : Spec.Keeps a b := by
  intro q c hq
  by_cases e : q = o
  · subst e; rw [ho] at hq; cases hq
  · rw [h q e, hq]

theorem generate_frame (can : Text → Bool) (db : Text) (out : Option Text) (nb : Nat) (w : κ × Option Err) (fs : Files κ) :
    Spec.Frame (Spec.taskFile ⟨db, out, false⟩) fs (generateTriplets can db out nb w fs).1 := by
  unfold generateTriplets Spec.taskFile
  rcases out with _ | o
  all_goals
    dsimp only
    by_cases hn : nb = 0
    · rw [if_pos hn]; exact frame_refl _ _
    · rw [if_neg hn]
      split
      · exact frame_refl _ _
      · exact create_frame _ _ _ _

theorem splitDots_ne (t : Text) : splitDots t ≠ [] := by
  cases t with
  | nil => simp [splitDots]
  | cons c t =>
    unfold splitDots
    split
    · simp
    · split <;> simp

theorem splitDots_plain (w : Text) (h : '.' ∉ w) : splitDots w = [w] := by
  induction w with
  | nil => rfl
  | cons c w ih =>
    have hc : c ≠ '.' := fun e => h (by simp [e])
    have := ih (fun e => h (by simp [e]))
    simp [splitDots, this, hc]

theorem splitDots_cons (w t : Text) (h : '.' ∉ w) : splitDots (w ++ '.' :: t) = w :: splitDots t := by
  induction w with
  | nil =>
    rcases ht : splitDots t with _ | ⟨a, l⟩
    · exact absurd ht (splitDots_ne t)
    · simp [splitDots, ht]
  | cons c w ih =>
    have hc : c ≠ '.' := fun e => h (by simp [e])
    have := ih (fun e => h (by simp [e]))
    simp [splitDots, this, hc]

theorem splitDots_of_pieces {t : Text} {ws : List Text} (h : Spec.Pieces t ws) : splitDots t = ws := by
  induction h with
  | last w h => exact splitDots_plain w h
  | cons w t ws h _ ih => rw [splitDots_cons w t h, ih]

theorem pieces_exists (t : Text) : ∃ ws, Spec.Pieces t ws := by
  induction t with
  | nil => exact ⟨[[]], .last [] (by simp)⟩
  | cons c t ih =>
    obtain ⟨ws, h⟩ := ih
    by_cases hc : c = '.'
    · subst hc; exact ⟨[] :: ws, .cons [] t ws (by simp) h⟩
    · cases h with
      | last w h => exact ⟨[c :: t], .last _ (by simp [h, Ne.symm hc])⟩
      | cons w t ws h h' => exact ⟨(c :: w) :: ws, .cons (c :: w) t ws (by simp [h, Ne.symm hc]) h'⟩

theorem edits_symm {ψ : Type} {x y : List ψ} {n : Nat} (h : Spec.Edits x y n) : Spec.Edits y x n := by
  induction h with
  | nil => exact .nil
  | keep a _ ih => exact .keep a ih
  | sub a b _ ih => exact .sub b a ih
  | del a _ ih => exact .ins a ih
  | ins b _ ih => exact .del b ih

theorem edits_refl {ψ : Type} (x : List ψ) : Spec.Edits x x 0 := by
  induction x with
  | nil => exact .nil
  | cons a x ih => exact .keep a ih

theorem edits_zero {ψ : Type} {x y : List ψ} {n : Nat} (h : Spec.Edits x y n) (hn : n = 0) : x = y := by
  induction h with
  | nil => rfl
  | keep a _ ih => rw [ih hn]
  | sub => omega
  | del => omega
  | ins => omega

theorem edits_length {ψ : Type} {x y : List ψ} {n : Nat} (h : Spec.Edits x y n) : y.length ≤ x.length + n := by
  induction h <;> simp only [List.length_nil, List.length_cons] at * <;> omega

theorem edits_nil {ψ : Type} (y : List ψ) : Spec.Edits [] y y.length := by
  induction y with
  | nil => exact .nil
  | cons a y ih => exact .ins a ih

theorem asBool_asBool (k : Int) : asBool (if asBool k then 1 else 0) = asBool k := by
  unfold asBool
  by_cases h1 : k = 1
  · simp [h1]
  · by_cases h0 : k = 0
    · simp [h0]
    · simp [h1, h0]

theorem pairLoop_iff {φ δ : Type} (f : Fun φ δ) (l : List (φ × φ)) : ∀ (n : Option Int) (ds : List δ),
    pairLoop f n l = .ok ds ↔ List.Forall₂ (fun p d => f.call p.1 p.2 (n.map asBool) = .ok d) l ds := by
  induction l with
  | nil => intro n ds; cases ds <;> cases n <;> simp [pairLoop]
  | cons p l ih =>
    intro n ds
    obtain ⟨x, y⟩ := p
    rcases n with _ | k
    · rcases hc : f.call x y none with e | d
      · simp only [pairLoop, hc]
        constructor
        · intro h; cases h
        · intro h; cases h with | cons h _ => simp [hc] at h
      · simp only [pairLoop, hc]
        rcases hl : pairLoop f none l with e | ds'
        · constructor
          · intro h; cases h
          · intro h
            cases h with | cons h h' => rw [(ih none _).2 h'] at hl; cases hl
        · constructor
          · intro h; cases h; exact .cons hc ((ih none ds').1 hl)
          · intro h
            cases h with
            | cons h h' =>
              have h2 := (ih none _).2 h'
              rw [hl] at h2; cases h2
              have h3 : f.call x y none = _ := h
              rw [hc] at h3; cases h3; rfl
    · have ih' := ih (some (if asBool k then 1 else 0))
      simp only [Option.map_some, asBool_asBool] at ih' ⊢
      rcases hc : f.call x y (some (asBool k)) with e | d
      · simp only [pairLoop, hc]
        constructor
        · intro h; cases h
        · intro h; cases h with | cons h _ => simp [hc] at h
      · simp only [pairLoop, hc]
        rcases hl : pairLoop f (some (if asBool k then 1 else 0)) l with e | ds'
        · constructor
          · intro h; cases h
          · intro h
            cases h with | cons h h' => rw [(ih' _).2 h'] at hl; cases hl
        · constructor
          · intro h; cases h; exact .cons hc ((ih' ds').1 hl)
          · intro h
            cases h with
            | cons h h' =>
              have h2 := (ih' _).2 h'
              rw [hl] at h2; cases h2
              have h3 : f.call x y (some (asBool k)) = _ := h
              rw [hc] at h3; cases h3; rfl

end ABX.CommandLine

namespace ABX.CommandLine
open Database (Text)

theorem resolve_dot {φ δ : Type} (K : Known φ δ) (imp : Text → Text → Text → Except Err (Fun φ δ)) (d m f : Text) (l : List Text) (h : '.' ∈ d) (hs : splitDots d = m :: f :: l) :
    resolve K imp (some d) = imp (splitPath m).1 (splitPath m).2 f := by
  have h1 : d ≠ "levenshtein".toList := by rintro rfl; revert h; decide
  have h2 : d ≠ "dtw_kl".toList := by rintro rfl; revert h; decide
  rcases d with _ | ⟨c, d⟩
  · simp at h
  · unfold resolve
    simp only [h1, h2, if_false, hs]

theorem dropWhile_until {p : Char → Bool} (l r : Text) (c : Char) (hl : ∀ a ∈ l, p a = true) (hc : p c = false) :
    (l ++ c :: r).dropWhile p = c :: r ∧ (l ++ c :: r).takeWhile p = l := by
  induction l with
  | nil => simp [List.dropWhile, List.takeWhile, hc]
  | cons a l ih =>
    have := ih (fun b hb => hl b (by simp [hb]))
    simp [List.dropWhile, List.takeWhile, hl a (by simp), this]

theorem splitPath_dir (pre mod : Text) (c : Char) (hc : c ≠ '/') (hm : '/' ∉ mod) :
    splitPath ((pre ++ [c]) ++ '/' :: mod) = (pre ++ [c], mod) := by
  have hr : ((pre ++ [c]) ++ '/' :: mod).reverse = mod.reverse ++ '/' :: (c :: pre.reverse) := by simp
  have hk := dropWhile_until (p := fun a => decide (a ≠ '/')) mod.reverse (c :: pre.reverse) '/'
    (fun a ha => by
      have : a ∈ mod := by simpa using ha
      simp only [ne_eq, decide_eq_true_eq]
      rintro rfl; exact hm this) (by simp)
  unfold splitPath
  rw [hr, hk.1, hk.2]
  have hcf : (decide (c = '/')) = false := by simpa using hc
  simp [List.dropWhile, hc, hcf]

theorem dropWhile_all {p : Char → Bool} (l : Text) (hl : ∀ a ∈ l, p a = true) : l.dropWhile p = [] ∧ l.takeWhile p = l := by
  induction l with
  | nil => simp
  | cons a l ih =>
    have := ih (fun b hb => hl b (by simp [hb]))
    simp only [List.dropWhile, List.takeWhile, hl a (by simp), this, and_self]

theorem splitPath_root (mod : Text) (hm : '/' ∉ mod) : splitPath ('/' :: mod) = (['/'], mod) := by
  have hr : ('/' :: mod).reverse = mod.reverse ++ '/' :: [] := by simp
  have hk := dropWhile_until (p := fun a => decide (a ≠ '/')) mod.reverse [] '/'
    (fun a ha => by
      have : a ∈ mod := by simpa using ha
      simp only [ne_eq, decide_eq_true_eq]
      rintro rfl; exact hm this) (by simp)
  unfold splitPath
  rw [hr, hk.1, hk.2]
  simp

theorem splitPath_plain (mod : Text) (hm : '/' ∉ mod) : splitPath mod = ([], mod) := by
  have h : ∀ a ∈ mod.reverse, decide (a ≠ '/') = true := by
    intro a ha
    have : a ∈ mod := by simpa using ha
    simp only [ne_eq, decide_eq_true_eq]
    rintro rfl; exact hm this
  unfold splitPath
  have h1 : mod.reverse.dropWhile (fun a => decide (a ≠ '/')) = [] := (dropWhile_all _ h).1
  have h2 : mod.reverse.takeWhile (fun a => decide (a ≠ '/')) = mod.reverse := (dropWhile_all _ h).2
  rw [h1, h2]
  simp

end ABX.CommandLine
