import Verif.Model.Database
import Mathlib.Data.List.TakeWhile
/-!
`os.path.splitext` on names.
-/
namespace ABX.Database

namespace Spec
/-- `root.e` has the extension `.e`: no dot and no slash in `e`, and the last component of `root` has a character that is not a dot -/
def IsExt (root e : Text) : Prop :=
  '.' ∉ e ∧ '/' ∉ e ∧ ∃ pre c post, root = pre ++ c :: post ∧ c ≠ '.' ∧ c ≠ '/' ∧ '/' ∉ post
end Spec
open Spec

theorem any_takeWhile_rev {root : Text} :
    ((root.reverse).takeWhile (· ≠ '/')).any (· ≠ '.') = true ↔ ∃ pre c post, root = pre ++ c :: post ∧ c ≠ '.' ∧ c ≠ '/' ∧ '/' ∉ post := by
  constructor
  · intro h
    obtain ⟨c, hc, hd⟩ := List.any_eq_true.mp h
    obtain ⟨a, b, hab⟩ := List.append_of_mem hc
    have h2 := List.takeWhile_append_dropWhile (p := fun x : Char => decide (x ≠ '/')) (l := root.reverse)
    have hs : ∀ x ∈ (root.reverse).takeWhile (· ≠ '/'), x ≠ '/' := fun x hx => by simpa using List.mem_takeWhile_imp hx
    rw [hab] at h2 hs
    refine ⟨(b ++ (root.reverse).dropWhile (· ≠ '/')).reverse, c, a.reverse, ?_, by simpa using hd, hs c (by simp), ?_⟩
    · have := congrArg List.reverse h2
      rw [List.reverse_reverse] at this
      conv_lhs => rw [← this]
      simp
    · intro hm
      exact hs '/' (by simp at hm; simp [hm]) rfl
  · rintro ⟨pre, c, post, rfl, hc, hs, hp⟩
    apply List.any_eq_true.mpr
    refine ⟨c, ?_, by simpa using hc⟩
    rw [List.reverse_append, List.reverse_cons, List.append_assoc, List.takeWhile_append_of_pos]
    · simp [hs]
    · intro x hx
      have : x ≠ '/' := fun h => hp (by simpa [h] using hx)
      simpa using this

theorem splitext_ext {root e : Text} (h : IsExt root e) : splitext (root ++ '.' :: e) = (root, '.' :: e) := by
  obtain ⟨h1, h2, h3⟩ := h
  have hall : ∀ x ∈ e.reverse, (decide (x ≠ '.') && decide (x ≠ '/')) = true := by
    intro x hx
    have hx' : x ∈ e := by simpa using hx
    have a : x ≠ '.' := fun h => h1 (h ▸ hx')
    have b : x ≠ '/' := fun h => h2 (h ▸ hx')
    simp [a, b]
  have hr : (root ++ '.' :: e).reverse = e.reverse ++ '.' :: root.reverse := by simp
  unfold splitext
  rw [hr, List.takeWhile_append_of_pos hall, List.dropWhile_append_of_pos hall]
  have ht := any_takeWhile_rev.mpr h3
  simp only [List.takeWhile_cons, List.dropWhile_cons]
  simp only [ne_eq, decide_not, decide_true, Bool.not_true, Bool.false_and, Bool.false_eq_true, if_false, Bool.true_and] at ht ⊢
  rw [ht]
  simp

theorem splitext_none {p : Text} (h : ∀ root e, IsExt root e → p ≠ root ++ '.' :: e) : splitext p = (p, []) := by
  unfold splitext
  have hdec := List.takeWhile_append_dropWhile (p := fun c : Char => decide (c ≠ '.') && decide (c ≠ '/')) (l := p.reverse)
  have hall : ∀ x ∈ p.reverse.takeWhile (fun c : Char => decide (c ≠ '.') && decide (c ≠ '/')), x ≠ '.' ∧ x ≠ '/' :=
    fun x hx => by simpa using List.mem_takeWhile_imp hx
  generalize p.reverse.takeWhile (fun c : Char => decide (c ≠ '.') && decide (c ≠ '/')) = t at hdec hall
  cases hd : p.reverse.dropWhile (fun c : Char => decide (c ≠ '.') && decide (c ≠ '/')) with
  | nil => simp
  | cons c stem =>
    dsimp only
    rw [if_neg]
    intro hc
    rw [Bool.and_eq_true] at hc
    obtain ⟨hc1, hc2⟩ := hc
    have hc1 : c = '.' := by simpa using hc1
    subst hc1
    rw [hd] at hdec
    refine h stem.reverse t.reverse ⟨fun hm => (hall _ (by simpa using hm)).1 rfl, fun hm => (hall _ (by simpa using hm)).2 rfl, ?_⟩ ?_
    · exact any_takeWhile_rev.mp (by rw [List.reverse_reverse]; exact hc2)
    · have := congrArg List.reverse hdec
      rw [List.reverse_reverse] at this
      conv_lhs => rw [← this]
      simp

end ABX.Database
