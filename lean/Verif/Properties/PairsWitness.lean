import Verif.Properties.Pairs
import Verif.Properties.TaskWitness
/-!
Concrete tables of pairs: a task that satisfies the hypotheses of C12 and C14, and a counterexample without them.
-/
namespace ABX.Pairs
open ExtSort H52NP ABX.Task SideOps Sampler

deriving instance DecidableEq for PairFile

/-- buffers of three rows -/
def bufs0 : Bufs := ⟨3, 3, 3, 3, 3, 3⟩
theorem bufs0_pos : bufs0.Pos := by unfold Bufs.Pos bufs0; decide

/-- two levels with triplets and one without -/
def ex2 : Args Nat := args0 [mk "c" 3 1, mk "a" 1, mk "a" 1, mk "b" 1, mk "b" 1, mk "a" 2, mk "a" 1 2, mk "b" 1 2, mk "a" 2 2] [] [] ["sp"]

theorem ex2_ok : ex2.OK := Args.OK.flat rfl (by decide +kernel) (by intro f hf; cases hf) (by intro f hf; cases hf)
  (by intro f hf; cases hf) (by intro f hf; cases hf) (by decide +kernel)

theorem ex2_file : ∃ F, run 0 ex2 = .ok (some F) ∧ F.data = [(0, 2, 4), (0, 3, 4), (1, 2, 4), (1, 3, 4), (0, 1, 2)] ∧ F.byIndex = [(0, 4), (4, 5)] := by
  have : (match run 0 ex2 with | .ok (some F) => (F.data, F.byIndex) | _ => ([], [])) =
      ([(0, 2, 4), (0, 3, 4), (1, 2, 4), (1, 3, 4), (0, 1, 2)], [(0, 4), (4, 5)]) := by decide +kernel
  split at this
  · rename_i F h
    simp only [Prod.mk.injEq] at this
    exact ⟨F, h, this⟩
  · cases this

theorem labels_of {a : Args Nat} {n : Nat} (h : (match init E0 a with | .ok T => T.levels.all (fun L => L.frame.all (fun p => decide (p.1 < n))) | _ => true) = true)
    {T : Task.Task Nat} (hT : init E0 a = .ok T) : ∀ L ∈ T.levels, ∀ p ∈ L.frame, p.1 < n := by
  rw [hT] at h
  simp only [List.all_eq_true, decide_eq_true_eq] at h
  exact h

theorem small_of {a : Args Nat} (h : (match init E0 a with | .ok T => T.levels.all (fun L => L.frame.all (fun p => decide (p.1 < 100))) | _ => true) = true)
    {T : Task.Task Nat} (hT : init E0 a = .ok T) {F : File} (hF : F.data.length ≤ 1000) : Small E0 T F := by
  have hl := labels_of h hT
  refine ⟨?_, ?_, by omega⟩
  · intro total t _ ht L hL p hp
    have := hl L hL p hp
    obtain ⟨g1, g2⟩ := C43_family _ _ _ ht
    have : (128 : Int) ≤ t.hi := by
      unfold IntType.hi
      rw [g2]
      simp only [if_true]
      simp only [List.mem_cons, List.not_mem_nil, or_false] at g1
      rcases g1 with g1 | g1 | g1 | g1 <;> rw [g1] <;> norm_num
    omega
  · intro L hL p hp
    have := hl L hL p hp
    omega

/-- C12, C14: the hypotheses hold of `ex2`, whose table has two levels. -/
example : ∃ T F P, init E0 ex2 = .ok T ∧ generate E0 N0 0 (fun _ _ _ => src0) 1000 1000 T = .ok (some F) ∧
    generatePairs insArgsort bufs0 T F = .ok P ∧ F.byIndex = [(0, 4), (4, 5)] ∧ P.attrs.map (·.1) = F.bys ∧
    List.Forall₂ (fun iv (at' : List Val × (Nat × Int × Int)) =>
      Spec.PairsOf (npSlice F.data iv.1.toNat iv.2.toNat) at'.2.1 (npSlice P.data at'.2.2.1.toNat at'.2.2.2.toNat)) F.byIndex P.attrs := by
  obtain ⟨F, hF, d1, d2⟩ := ex2_file
  obtain ⟨T, h1, h2⟩ := run_ok hF
  have hS : Small E0 T F := small_of (by decide +kernel) h1 (by rw [d1]; decide)
  obtain ⟨P, p1, p2⟩ := C12_pairs_partial E0_lawful ex2_ok h1 (by omega) (by omega) h2 hS insArgsort_law bufs0_pos
  obtain ⟨P', q1, q2, -⟩ := C14_attributes_partial E0_lawful ex2_ok h1 (by omega) (by omega) h2 hS insArgsort_law bufs0_pos
  rw [p1] at q1
  cases q1
  exact ⟨T, F, P, h1, h2, p1, d2, q2, p2⟩

/-- C12 is violated where C06 is: in the task of `C06_violated`, with 131 items, the triplet (128, 129, 130) is stored as (-128, -127, -126); the base of the keys is 131,
their type has 16 bits and the keys of its two pairs are 17158 and 17159, but 48902 and 48903 are computed, which no pair of items has. -/
theorem C12_violated :
    fitIntegerType (int64.cast ((131 : Nat) ^ 2 - 1)) false = .ok ⟨16, false⟩ ∧ pairsOf ⟨16, false⟩ 131 [(-128, -127, -126)] = [48902, 48903] ∧
    ∀ a x : Int, 0 ≤ a → a < 131 → 0 ≤ x → x < 131 → a + 131 * x ≠ 48902 ∧ a + 131 * x ≠ 48903 := by
  refine ⟨by decide +kernel, by decide +kernel, ?_⟩
  intro a x h1 h2 h3 h4
  omega

#print axioms C12_any_file_partial
#print axioms C12_pairs_partial
#print axioms C12_buffers_partial
#print axioms C12_violated
#print axioms C13_keys_partial
#print axioms C13_violated
#print axioms C14_attributes_partial

end ABX.Pairs
