import Verif.Model.Sampler
import Mathlib.Analysis.SpecialFunctions.Gamma.Basic
import Mathlib.Analysis.SpecialFunctions.Log.Basic
/-!
Model of the random numbers of `hypergeometric_sample` (ABXpy/sampling/sampler.py 136-192): the proposals and the acceptance test that are parameters (`Src.prop`, `Src.ub`) of Model/Sampler.lean.

Simplification: the computations of lines 151-184 are made in exact real numbers, the code makes them in float64.  A draw of `U = 0`, for which the code divides by zero, gives the proposal `floor(a)` here (Lean's `x / 0 = 0`); it is
excluded in the statements.
-/
namespace ABX.Sampler
open Classical

/-- `math.lgamma` -/
noncomputable def lgamma (x : ℝ) : ℝ := Real.log |Real.Gamma x|

/-- lines 147, 150: `min(K, N - K)` -/
def eff (N K : Nat) : Nat := min K (N - K)

/-- line 153, with `K_eff` and `n_eff` -/
noncomputable def average (N K n : Nat) : ℝ := n * (K / N)

/-- line 154 -/
noncomputable def hyperMode (N K n : Nat) : Int := ⌊((n : ℝ) + 1) * (((K : ℝ) + 1) / ((N : ℝ) + 2))⌋

/-- lines 155-156 -/
noncomputable def hyperVariance (N K n : Nat) : ℝ := average N K n * (((N : ℝ) - K) / N) * (((N : ℝ) - n) / ((N : ℝ) - 1))

/-- lines 157-158 -/
noncomputable def hyperC1 : ℝ := 2 * √(2 / Real.exp 1)
noncomputable def hyperC2 : ℝ := 3 - 2 * √(3 / Real.exp 1)

/-- line 159 -/
noncomputable def hyperA (N K n : Nat) : ℝ := average N K n + 1 / 2

/-- line 160 -/
noncomputable def hyperB (N K n : Nat) : ℝ := hyperC1 * √(hyperVariance N K n + 1 / 2) + hyperC2

/-- lines 161-163 and 175-177 -/
noncomputable def hyperP (N K n : Nat) (k : ℝ) : ℝ := lgamma (k + 1) + lgamma (K - k + 1) + lgamma (n - k + 1) + lgamma (N - K - n + k + 1)

/-- line 166: `floor(a + 16 * sqrt(variance + 0.5))` -/
noncomputable def hyperUb (N K n : Nat) : Int := ⌊hyperA N K n + 16 * √(hyperVariance N K n + 1 / 2)⌋

/-- line 171 -/
noncomputable def hyperPropose (N K n : Nat) (U V : ℝ) : Int := ⌊hyperA N K n + hyperB N K n * (V - 1 / 2) / U⌋

/-- lines 178-184 -/
noncomputable def hyperAccept (N K n : Nat) (U : ℝ) (k : Int) : Bool :=
  let d := hyperP N K n (hyperMode N K n) - hyperP N K n k                  -- line 178
  if U * (4 - U) - 3 ≤ d then true                                          -- lines 179-180
  else if U * (U - d) ≥ 1 then false                                        -- lines 181-182
  else decide (2 * Real.log U ≤ d)                                          -- lines 183-184

/-- the random numbers of `hypergeometric_sample(N, K, n)` when the calls of `np.random.rand()` of the `i`-th round give `uv i` (the other fields are not used by it) -/
noncomputable def hyperSrc (N K n : Nat) (uv : Nat → ℝ × ℝ) (fuel : Nat) : Src where
  prop := fun i => (hyperPropose N (eff N K) (eff N n) (uv i).1 (uv i).2,
    hyperAccept N (eff N K) (eff N n) (uv i).1 (hyperPropose N (eff N K) (eff N n) (uv i).1 (uv i).2))
  ub := hyperUb N (eff N K) (eff N n)
  u := fun _ => 0
  draw := fun _ _ _ => []
  fuel := fuel

end ABX.Sampler
