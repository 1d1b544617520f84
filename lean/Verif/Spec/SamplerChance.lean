import Verif.Properties.Hyper
import Verif.Properties.SamplerProb
import Verif.Spec.SamplerUniform
import Mathlib.Probability.UniformOn
/-!
Specification for C102: the random numbers of a call of `simple_sample`, with their distribution.

The loop of `hypergeometric_sample` and that of `rejection_sampling` are followed for `R` rounds.
-/
namespace ABX.Sampler
open MeasureTheory

/-- the random numbers of a call on a chunk of at most `M` items: the pairs `U`, `V` of the rounds of `hypergeometric_sample`, and for each size `n` of the chunk those of `Knuth_sampling` and, for each number `k` of items to be drawn,
the table of those of `rejection_sampling` (`R` rounds of at most `k` of the numbers below `n`) -/
abbrev Chance (M R : Nat) : Type := (Fin R → ℝ × ℝ) × ((n : Fin (M + 1)) → (Fin n.val → Fin (2 ^ 53)) × ((k : Fin (n.val + 1)) → Fin R → Fin k.val → Fin n.val))

/-- all of them are independent and uniform -/
noncomputable def chance (M R : Nat) : Measure (Chance M R) :=
  (Measure.pi (fun _ : Fin R => rand2)).prod (Measure.pi fun n : Fin (M + 1) =>
    (ProbabilityTheory.uniformOn (Set.univ : Set (Fin n.val → Fin (2 ^ 53)))).prod (Measure.pi fun k : Fin (n.val + 1) => ProbabilityTheory.uniformOn (Set.univ : Set (Fin R → Fin k.val → Fin n.val))))

/-- a call of `np.random.randint(0, N', j)` made of the rows of a table; other calls than those made by `rejection_sampling` give zeros -/
def padDraw {R k N : Nat} (v : Fin R → Fin k → Fin N) (N' i j : Nat) : List Nat := if i < R ∧ j ≤ k ∧ N' = N then drawOf v i j else List.replicate j 0

/-- the number of items that `hypergeometric_sample` returns -/
noncomputable def hyperCount (N K n : Nat) (h : Src) : Nat := match hypergeometric N K n h with | .ok k => k.toNat | .error _ => 0

/-- the random numbers of a call as the model takes them -/
noncomputable def chanceSrc (M R N K n : Nat) (w : Chance M R) : Src :=
  let h := hyperSrc N K n (rounds w.1) R
  let k := hyperCount N K n h
  { h with
    u := if hn : n < M + 1 then stream (w.2 ⟨n, hn⟩).1 else fun _ => 0
    draw := if hn : n < M + 1 then if hk : k < n + 1 then padDraw ((w.2 ⟨n, hn⟩).2 ⟨k, hk⟩) else fun _ _ j => List.replicate j 0 else fun _ _ j => List.replicate j 0 }

end ABX.Sampler
