import Verif.Model.Sampler
import Verif.Model.F64
import Mathlib.Algebra.Order.Floor.Semiring
import Mathlib.Algebra.Order.Archimedean.Basic
import Mathlib.Data.Rat.Floor
/-!
The comparisons of ABXpy/sampling/sampler.py in float64.  In Model/Sampler.lean they are exact; Properties/SamplerFloat.lean shows what the difference is.
`np.random.rand()` is `r / 2^53`, which is a float64; a python integer is rounded when it is multiplied with a float, and compared exactly with one.
-/
namespace ABX.Sampler
open F64

/-- line 230, `(N - t) * u < n - m` -/
def takes (N n : Nat) (u : Nat → Nat) (t m : Nat) : Bool := decide (rnd (rnd ((N : ℚ) - t) * ((u t : ℚ) / 2 ^ 53)) < (n : ℚ) - m)

/-- the loop of `Knuth_sampling`, lines 228-233 -/
def knuthLoopF (N n : Nat) (u : Nat → Nat) : (fuel t m : Nat) → Except Err (List Nat)
  | fuel, t, m =>
    if m < n then
      match fuel with
      | 0 => .error .diverge
      | fuel + 1 =>
        if takes N n u t m then
          match knuthLoopF N n u fuel (t + 1) (m + 1) with
          | .error e => .error e
          | .ok s => .ok (t :: s)
        else knuthLoopF N n u fuel (t + 1) m
    else .ok []

/-- `Knuth_sampling(n, N)`, lines 221-234 -/
def knuthF (n N : Nat) (u : Nat → Nat) (fuel : Nat) : Except Err (List Nat) := knuthLoopF N n u fuel 0 0

/-- line 209, `n / float(N) < 0.6` -/
def few (n N : Nat) : Bool := decide (rnd (rnd n / rnd N) < rnd (6 / 10))

/-- `sample_without_replacement(n, N)`, lines 198-213 -/
def sampleWithoutReplacementF (n N : Nat) (src : Src) : Except Err (List Nat) :=
  if N > 100 ∧ few n N = true then rejection n N (src.draw N) src.fuel else knuthF n N src.u src.fuel

/-- `simple_sample`, lines 105-122 -/
def IS.simpleSampleF (s : IS) (n : Nat) (src : Src) : Except Err (IS × List Nat) :=
  match hypergeometric s.N s.K n src with
  | .error e => .error e
  | .ok k => match sampleWithoutReplacementF k.toNat n src with
    | .error e => .error e
    | .ok l => .ok ({ s with N := s.N - n, K := s.K - k.toNat }, l)

/-- the loop of lines 91-95 (`c` is `chunk_size`) -/
def IS.chunksF (src : Nat → Src) (c : Nat) : (fuel : Nat) → IS → (n i : Nat) → Except Err (IS × List Nat)
  | fuel, s, n, i =>
    if n > 0 then
      match fuel with
      | 0 => .error .diverge
      | fuel + 1 => match s.simpleSampleF (min c n) (src i) with
        | .error e => .error e
        | .ok (s, l) => match IS.chunksF src c fuel s (n - min c n) (i + 1) with
          | .error e => .error e
          | .ok (s, r) => .ok (s, l.map (· + i * c) ++ r)
    else .ok (s, [])

/-- line 86, `n * self.K / np.float(self.N)`; the product is that of python integers (numpy integers would wrap around at 2^63) -/
def expected (n K N : Nat) : ℚ := rnd (rnd ((n * K : Nat) : ℚ) / rnd N)

/-- line 89, `int(np.floor(10 ** 5 * self.N / np.float(self.K)))` -/
def chunkSize (N K : Nat) : Nat := ⌊rnd (rnd ((10 ^ 5 * N : Nat) : ℚ) / rnd K)⌋₊

/-- `sample`, lines 59-103, in float64.  `src i` are the random numbers of the `i`-th chunk. -/
def IS.sampleF (s : IS) (n : Nat) (src : Nat → Src) : Except Err (IS × List Nat) :=
  let position := s.initialN - s.N
  let n := if n > s.N then s.N else n                             -- lines 82-83
  if s.N = 0 then .error .zeroDivision                            -- line 86
  else
    let r := if expected n s.K s.N > 10 ^ 5                       -- line 87
      then IS.chunksF src (chunkSize s.N s.K) n s n 0              -- lines 88-96
      else s.simpleSampleF n (src 0)
    match r with
    | .error e => .error e
    | .ok (s', l) => .ok (s', if s.relative then l else l.map (· + position))

end ABX.Sampler
