import Verif.Properties.Sampler
import Verif.Spec.Hyper
import Mathlib.MeasureTheory.Constructions.Pi
/-!
Specification for C102: runs of the incremental sampler with random numbers.

`S N K n w` are the random numbers that a call of `simple_sample` on `n` of the `N` remaining items with `K` remaining to be sampled uses, when the chance is `w`: the acceptance test of `hypergeometric_sample` depends on `N`, `K` and `n`.
-/
namespace ABX.Sampler
open ABX.Spec MeasureTheory

variable {Ω : Type} [Inhabited Ω]

/-- the chances of `R` calls as a sequence -/
def extend {α : Type} [Inhabited α] {R : Nat} (ω : Fin R → α) (i : Nat) : α := if h : i < R then ω ⟨i, h⟩ else default

/-- the random numbers of the successive chunks (of `c` items) of a call, each of which depends on what remains after those before -/
def chunkSrc (S : Nat → Nat → Nat → Ω → Src) (c : Nat) (s : IS) (n : Nat) (ω : Nat → Ω) : Nat → Src
  | 0 => S s.N s.K (min c n) (ω 0)
  | i + 1 => match s.simpleSample (min c n) (S s.N s.K (min c n) (ω 0)) with
    | .ok (s', _) => chunkSrc S c s' (n - min c n) (fun j => ω (j + 1)) i
    | .error _ => S s.N s.K (min c n) (ω 0)

/-- the random numbers of a call of `sample(n)`: the chunks of lines 87-98 -/
def callSrc (S : Nat → Nat → Nat → Ω → Src) (s : IS) (n : Nat) (ω : Nat → Ω) : Nat → Src :=
  let n := min n s.N
  chunkSrc S (if n * s.K > 10 ^ 5 * s.N then 10 ^ 5 * s.N / s.K else n) s n ω

/-- the calls of `sample` with the given sizes -/
def callsOf (S : Nat → Nat → Nat → Ω → Src) : IS → List Nat → (Nat → Nat → Ω) → List (Nat × (Nat → Src))
  | _, [], _ => []
  | s, n :: ns, ω => (n, callSrc S s n (ω 0)) :: match s.sample n (callSrc S s n (ω 0)) with
    | .ok (s', _) => callsOf S s' ns (fun j => ω (j + 1))
    | .error _ => []

/-- the sizes of calls that go through the whole population, with no call on an empty one -/
def Exhausts : Nat → List Nat → Prop
  | N, [] => N = 0
  | N, n :: ns => 0 < n ∧ 0 < N ∧ Exhausts (N - n) ns

/-- up to factors `lo` and `hi`, `simple_sample` on at most `Nmax` items, at most `Kmax` of them to be sampled, draws as it should: `k` items with the hypergeometric probability, and each set of `k` of the `n` items with the same probability -/
structure Fair [MeasurableSpace Ω] (μ : Measure Ω) (S : Nat → Nat → Nat → Ω → Src) (lo hi : ℝ) (Nmax Kmax : Nat) : Prop where
  lawful : ∀ N K n w, (S N K n w).Lawful
  low : 0 ≤ lo ∧ lo ≤ 1
  high : 1 ≤ hi
  draw : ∀ (s : IS) (n : Nat) (l : List Nat), s.N ≤ Nmax → s.K ≤ Kmax → s.K ≤ s.N → 0 < n → n ≤ s.N → l.Pairwise (· < ·) → (∀ x ∈ l, x < n) → l.length ≤ s.K → s.K - l.length ≤ s.N - n →
    let p := μ.real {w | ∃ s', s.simpleSample n (S s.N s.K n w) = .ok (s', l)}
    lo * (hyperPmf s.N s.K n l.length / (n.choose l.length : ℝ)) ≤ p ∧ p ≤ hi * (hyperPmf s.N s.K n l.length / (n.choose l.length : ℝ))

end ABX.Sampler
