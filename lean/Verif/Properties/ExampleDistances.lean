import Verif.Model.ExampleDistances
import Verif.Properties.CommandLine
import Verif.Properties.Distance
/-!
Property C82: which distances give a value.  The two functions of example_distances.py call `dtw` without its argument `normalized`, so they raise
TypeError for any two items that are not empty; on the others they agree with the distances of distance.py.
-/
namespace ABX.Distance
open Metrics (Mat real)
open CommandLine (Fun pairLoop)

/-- the distances of the examples, and the distances of distance.py that they are simplified from -/
def Example (d : Nat) (eps : ℝ) (junk : Nat → Nat → ℝ) (f g : Fun (Item d) (Option (WithTop ℝ))) : Prop :=
  (f = dtwCosine d junk ∧ g = defaultFun d junk) ∨ (f = dtwKlDivergence d eps junk ∧ g = klFun d eps junk)

/-- C82 is false of the examples: two items with frames have no distance, with or without `-n`. -/
theorem C82_violated {d : Nat} {eps : ℝ} {junk : Nat → Nat → ℝ} {f g : Fun (Item d) (Option (WithTop ℝ))} (hf : Example d eps junk f g) (x y : Item d) (hx : 0 < x.1) (hy : 0 < y.1) (n : Option Bool) :
    f.call x y n = .error .typeError := by
  rcases hf with ⟨rfl, _⟩ | ⟨rfl, _⟩ <;> cases n <;> simp [Fun.call, dtwCosine, dtwKlDivergence, exampleDistance, dtwCall, hx, hy]

/-- C82: when an item is empty and `-n` is not given the examples give the distance that `default_distance` and `dtw_kl_distance` give.  Missing: two
items with frames, where they give none (`C82_violated`). -/
theorem C82_empty_partial {d : Nat} {eps : ℝ} {junk : Nat → Nat → ℝ} {f g : Fun (Item d) (Option (WithTop ℝ))} (hf : Example d eps junk f g) (x y : Item d) (h : x.1 = 0 ∨ y.1 = 0) (b : Bool) :
    f.call x y none = g.call x y (some b) ∧ g.call x y (some b) = .ok (some (if x.1 = 0 ∧ y.1 = 0 then ((0 : ℝ) : WithTop ℝ) else ⊤)) := by
  obtain ⟨n, x⟩ := x
  obtain ⟨m, y⟩ := y
  have hk : ¬ (0 < n ∧ 0 < m) := by simp only at h; omega
  obtain ⟨e1, e2⟩ := C72_empty eps x y junk b h
  have he : ∀ metric : Mat n d → Mat m d → Except Err (Mat n m), exampleDistance metric junk x y = .ok (some (if n = 0 ∧ m = 0 then ((0 : ℝ) : WithTop ℝ) else ⊤)) := by
    intro metric
    unfold exampleDistance
    rw [if_neg hk]
    by_cases e : n = m
    · rw [if_pos e, if_pos]; simp only at h; omega
    · rw [if_neg e, if_neg]; omega
  rcases hf with ⟨rfl, rfl⟩ | ⟨rfl, rfl⟩
  · simp only [Fun.call, dtwCosine, defaultFun, he, e1, and_self]
  · simp only [Fun.call, dtwKlDivergence, klFun, he, e2, and_self]

/-- C82: the blocks of pairs whose distances can be computed with the examples: without `-n`, and with an empty item in every pair. -/
theorem C82_blocks {d : Nat} {eps : ℝ} {junk : Nat → Nat → ℝ} {f g : Fun (Item d) (Option (WithTop ℝ))} (hf : Example d eps junk f g) (n : Option Int) (l : List (Item d × Item d)) :
    (∃ ds, pairLoop f n l = .ok ds) ↔ l = [] ∨ n = none ∧ ∀ p ∈ l, p.1.1 = 0 ∨ p.2.1 = 0 := by
  have htakes : f.takes = .never := by rcases hf with ⟨rfl, _⟩ | ⟨rfl, _⟩ <;> rfl
  constructor
  · rintro ⟨ds, h⟩
    rw [CommandLine.C71_pairs] at h
    cases l with
    | nil => exact .inl rfl
    | cons p l =>
      right
      cases n with
      | some k =>
        cases h with
        | cons h _ => simp [Fun.call, htakes] at h
      | none =>
        refine ⟨rfl, fun q hq => ?_⟩
        by_contra hne
        obtain ⟨ds', hd⟩ : ∃ dd, f.call q.1 q.2 none = .ok dd := by
          obtain ⟨i, hi⟩ := List.getElem?_of_mem hq
          obtain ⟨hl, h⟩ := List.forall₂_iff_get.mp h
          obtain ⟨hlt, hi⟩ := List.getElem?_eq_some_iff.mp hi
          have := h i hlt (by omega)
          simp only [List.get_eq_getElem, Option.map_none] at this
          rw [hi] at this
          exact ⟨_, this⟩
        rw [C82_violated hf q.1 q.2 (by omega) (by omega) none] at hd
        cases hd
  · rintro (rfl | ⟨rfl, h⟩)
    · exact ⟨[], by simp [pairLoop]⟩
    · refine ⟨l.map (fun p => some (if p.1.1 = 0 ∧ p.2.1 = 0 then ((0 : ℝ) : WithTop ℝ) else ⊤)), ?_⟩
      rw [CommandLine.C71_pairs]
      rw [List.forall₂_map_right_iff, List.forall₂_same]
      intro p hp
      obtain ⟨e1, e2⟩ := C82_empty_partial hf p.1 p.2 (h p hp) true
      exact e1.trans e2

/-- C82: with the default distance and `-n` the distances of all pairs of items with real features can be computed; without `-n` those of no pair. -/
theorem C82_default {d : Nat} (junk : Nat → Nat → ℝ) (n : Option Int) (l : List ((Σ k : Nat, Fin k → Fin d → ℝ) × (Σ k : Nat, Fin k → Fin d → ℝ))) :
    (∃ ds, pairLoop (defaultFun d junk) n (l.map (fun p => ((⟨p.1.1, real p.1.2⟩ : Item d), (⟨p.2.1, real p.2.2⟩ : Item d)))) = .ok ds) ↔ l = [] ∨ n ≠ none := by
  constructor
  · rintro ⟨ds, h⟩
    cases l with
    | nil => exact .inl rfl
    | cons p l =>
      right
      rintro rfl
      rw [List.map_cons, CommandLine.C71_mismatch _ _ _ _ (.inr ⟨rfl, rfl⟩)] at h
      cases h
  · intro h
    cases n with
    | none =>
      rcases h with rfl | h
      · exact ⟨[], by simp [pairLoop]⟩
      · exact absurd rfl h
    | some k =>
      have hall : ∀ p : (Σ k : Nat, Fin k → Fin d → ℝ) × (Σ k : Nat, Fin k → Fin d → ℝ), ∃ v, (defaultFun d junk).call ⟨p.1.1, real p.1.2⟩ ⟨p.2.1, real p.2.2⟩ (some (decide (k ≠ 0))) = .ok v := by
        intro p
        by_cases hp : 0 < p.1.1 ∧ 0 < p.2.1
        · obtain ⟨v, hv, _⟩ := C72_bounds hp.1 hp.2 p.1.2 p.2.2 junk (decide (k ≠ 0))
          exact ⟨_, hv⟩
        · exact ⟨_, (C72_empty (0 : ℝ) (real p.1.2) (real p.2.2) junk (decide (k ≠ 0)) (by omega)).1⟩
      choose v hv using hall
      refine ⟨l.map v, ?_⟩
      rw [CommandLine.C71_pairs, List.forall₂_map_right_iff, List.forall₂_map_left_iff, List.forall₂_same]
      exact fun p _ => hv p

/-- C82: without `-n` the KL distance is normalized, the default distance raises -/
theorem C82_kl {d : Nat} (eps : ℝ) (junk : Nat → Nat → ℝ) (x y : Item d) :
    (klFun d eps junk).call x y none = (klFun d eps junk).call x y (some true) ∧ (defaultFun d junk).call x y none = .error .typeError := ⟨rfl, rfl⟩

/-- C82: the value of `normalized` is all that the calls of the examples miss: with it `dtw` gives the distances of distance.py for items with frames, and raises ValueError when an item has none -/
theorem C82_dtw {n m d : Nat} (eps : ℝ) (junk : Nat → Nat → ℝ) (x : Mat n d) (y : Mat m d) (b : Bool) :
    (0 < n → 0 < m → dtwCall Metrics.cosineDistance junk x y (some b) = (defaultFun d junk).call ⟨n, x⟩ ⟨m, y⟩ (some b) ∧
      dtwCall (fun x y => .ok (Metrics.klDivergence eps true true true x y)) junk x y (some b) = (klFun d eps junk).call ⟨n, x⟩ ⟨m, y⟩ (some b)) ∧
    (n = 0 ∨ m = 0 → ∀ metric, dtwCall metric junk x y (some b) = .error .valueError) := by
  refine ⟨fun hn hm => ?_, fun h metric => by simp only [dtwCall, h, if_true]⟩
  have h : ¬ (n = 0 ∨ m = 0) := by omega
  simp only [dtwCall, h, if_false]
  exact ⟨rfl, rfl⟩

/-- two items of one frame: no distance with the examples, 0 with the default distance (they are the same) -/
example (junk : Nat → Nat → ℝ) : let x : Item 2 := ⟨1, real (fun _ _ => 1)⟩
    (dtwCosine 2 junk).call x x none = .error .typeError ∧ (defaultFun 2 junk).call x x (some true) = .ok (some ((0 : ℝ) : WithTop ℝ)) :=
  ⟨C82_violated (g := defaultFun 2 junk) (eps := 0) (.inl ⟨rfl, rfl⟩) _ _ (by decide) (by decide) none, C72_same (n := 1) (d := 2) (fun _ _ => 1) junk true⟩

/-- an item without frames and one with a frame: an infinite distance with the examples -/
example (junk : Nat → Nat → ℝ) : (dtwKlDivergence 2 1 junk).call ⟨0, real (fun _ _ => 1)⟩ ⟨1, real (fun _ _ => 1)⟩ none = .ok (some ⊤) := by
  obtain ⟨e1, e2⟩ := C82_empty_partial (f := dtwKlDivergence 2 1 junk) (g := klFun 2 1 junk) (.inr ⟨rfl, rfl⟩) (⟨0, real (fun _ _ => 1)⟩ : Item 2) (⟨1, real (fun _ _ => 1)⟩ : Item 2) (.inl rfl) true
  rw [e1, e2]
  simp

#print axioms C82_violated
#print axioms C82_empty_partial
#print axioms C82_kl
#print axioms C82_dtw
#print axioms C82_blocks
#print axioms C82_default

end ABX.Distance
