import Verif.Properties.CommandWords2
import Verif.Proofs.ArgparseUsed
/-!
C99, continued: every word of an accepted line is used, and nothing else.
-/
namespace ABX.Argparse
open Database (Text)
open Spec

theorem classify_value_mem {P : Parser} {w : Text} (hw : Value w) : ∀ {l : List Text} {items : List Item}, classify P l = .ok items → w ∈ l → .arg w ∈ items
  | [], _, _, hm => by cases hm
  | s :: l, items, h, hm => by
    have hne : w ≠ "--".toList := by rintro rfl; exact hw rfl
    by_cases hs : s = "--".toList
    · rw [classify, if_pos hs] at h
      cases h
      rcases List.mem_cons.mp hm with rfl | hm
      · exact absurd hs hne
      · exact List.mem_cons_of_mem _ (List.mem_map.mpr ⟨w, hm, rfl⟩)
    · rcases List.mem_cons.mp hm with rfl | hm
      · rw [classify_value hw] at h
        cases hx : classify P l with
        | error e => rw [hx] at h; cases h
        | ok items' => rw [hx] at h; cases h; exact List.mem_cons_self
      · rw [classify, if_neg hs] at h
        split at h
        · cases h
        · split at h
          · cases h
          · next hx => cases h; exact List.mem_cons_of_mem _ (classify_value_mem hw hx hm)

theorem classify_after_mem {P : Parser} {w : Text} {b : List Text} (hw : w ∈ b) : ∀ {a : List Text} {items : List Item}, "--".toList ∉ a → classify P (a ++ "--".toList :: b) = .ok items → .arg w ∈ items
  | [], items, _, h => by
    rw [List.nil_append, classify, if_pos rfl] at h
    cases h
    exact List.mem_cons_of_mem _ (List.mem_map.mpr ⟨w, hw, rfl⟩)
  | s :: a, items, ha, h => by
    rw [List.mem_cons, not_or] at ha
    rw [List.cons_append, classify, if_neg (fun e => ha.1 e.symm)] at h
    split at h
    · cases h
    · split at h
      · cases h
      · next hx => cases h; exact List.mem_cons_of_mem _ (classify_after_mem hw ha.2 hx)

/-- C99: in every line that a program accepts, every word that does not begin with '-', and every other word than '--' after '--', is stored as a value. -/
theorem C99_all_used {P : Parser} {isInt : Text → Bool} {argv : List Text} {ns : List (Text × List Text)} (h : parse P isInt argv = .ok ns) :
    (∀ w ∈ argv, Value w → ∃ e ∈ ns, w ∈ e.2) ∧ (∀ a b, argv = a ++ "--".toList :: b → "--".toList ∉ a → ∀ w ∈ b, w ≠ "--".toList → ∃ e ∈ ns, w ∈ e.2) := by
  cases hc : classify P argv with
  | error e => unfold parse at h; rw [hc] at h; cases h
  | ok items =>
    constructor
    · intro w hw hv
      exact parse_covered h hc (by rintro rfl; exact hv rfl) (classify_value_mem hv hc hw)
    · rintro a b rfl ha w hw hne
      exact parse_covered h hc hne (classify_after_mem hw ha hc)

/-- C99: in every line that a program accepts, every value that is stored is a word of the line or the end of one. -/
theorem C99_nothing_else {P : Parser} {isInt : Text → Bool} {argv : List Text} {ns : List (Text × List Text)} (h : parse P isInt argv = .ok ns) : ∀ e ∈ ns, ∀ v ∈ e.2, ∃ w ∈ argv, v <:+ w := parse_known h

/-- both apply to a line with all kinds of words -/
example : parse taskParser (fun _ => true) (Example.words ["-vo=c", "-ax", "--th=3", "-f", "[a == -1 for a in b]", "--", "-d", "out"]) =
    .ok [("output".toList, Example.words ["out"]), ("database".toList, Example.words ["-d"]), ("filters".toList, Example.words ["[a == -1 for a in b]"]), ("threshold".toList, Example.words ["3"]),
      ("across".toList, Example.words ["x"]), ("on".toList, Example.words ["c"]), ("verbose".toList, [])] := by decide +kernel

end ABX.Argparse
