import Verif.Model.Base
/-!
Model of ABXpy/sampling/sampler.py.

Random numbers are arbitrary inputs: `np.random.rand()` is `r / 2^53` with `r < 2^53`,
`np.random.randint` returns arbitrary integers in the requested range.  Comparisons are exact
(the code compares floats: Model/SamplerFloat.lean).  The `dtype` argument only matters for wrap-around, which is modelled at
the call site (`sort_and_threshold`); here indices are naturals (`dtype=np.int64`, the default).
-/
namespace ABX.Sampler

/-- `Knuth_sampling`, the loop of lines 228-233.  `u t` is the draw made for record `t`.
Returns the sampled records in the order they are stored. -/
def knuthLoop (N n : Nat) (u : Nat → Nat) : (fuel t m : Nat) → Except Err (List Nat)
  | fuel, t, m =>
    if m < n then
      match fuel with
      | 0 => .error .diverge
      | fuel + 1 =>
        -- line 230: `(N - t) * u < n - m`, python integers (N - t may be negative)
        if ((N : Int) - t) * u t < ((n : Int) - m) * 2 ^ 53 then
          match knuthLoop N n u fuel (t + 1) (m + 1) with
          | .error e => .error e
          | .ok s => .ok (t :: s)
        else knuthLoop N n u fuel (t + 1) m
    else .ok []

/-- `Knuth_sampling(n, N)`, lines 221-234 -/
def knuth (n N : Nat) (u : Nat → Nat) (fuel : Nat) : Except Err (List Nat) := knuthLoop N n u fuel 0 0

/-- insertion of `x` in a strictly increasing list -/
def insertSet (x : Nat) : List Nat → List Nat
  | [] => [x]
  | y :: ys => if x < y then x :: y :: ys else if x = y then y :: ys else y :: insertSet x ys

/-- `np.union1d(sample, np.unique(new))`, line 246 -/
def union1d (s new : List Nat) : List Nat := new.foldl (fun acc x => insertSet x acc) s

/-- the loop of `rejection_sampling`, lines 243-247; `draw i k` is the `i`-th call to `randint` for
`k` numbers -/
def rejectionLoop (n : Nat) (draw : Nat → Nat → List Nat) : (fuel i : Nat) → List Nat → Except Err (List Nat)
  | fuel, i, s =>
    if n - s.length > 0 then
      match fuel with
      | 0 => .error .diverge
      | fuel + 1 => rejectionLoop n draw fuel (i + 1) (union1d s (draw i (n - s.length)))
    else .ok s

/-- `rejection_sampling(n, N)`, lines 239-248.  `randint(0, 0, k)` raises ValueError. -/
def rejection (n N : Nat) (draw : Nat → Nat → List Nat) (fuel : Nat) : Except Err (List Nat) :=
  if n = 0 then .ok []
  else if N = 0 then .error .valueError
  else rejectionLoop n draw fuel 0 []

/-- the random numbers used by one call to `simple_sample` / `sample_without_replacement` -/
structure Src where
  /-- proposals of the HRUA loop (lines 169-171) and the outcome of the acceptance test (179-184) -/
  prop : Nat → Int × Bool
  /-- `floor(a + 16 * sqrt(variance + 0.5))`, line 166 -/
  ub : Int
  /-- `np.random.rand()` is `u t / 2^53` -/
  u : Nat → Nat
  /-- `draw N i k`: the `i`-th call `np.random.randint(0, N, k)` -/
  draw : Nat → Nat → Nat → List Nat
  /-- loop bound (rounds after which the code is said to diverge) -/
  fuel : Nat

/-- what numpy guarantees about the random numbers -/
structure Src.Lawful (src : Src) : Prop where
  u : ∀ i, src.u i < 2 ^ 53
  drawLen : ∀ N i k, (src.draw N i k).length = k
  drawLt : ∀ N i k, 0 < N → ∀ x ∈ src.draw N i k, x < N

/-- `sample_without_replacement(n, N)`, lines 198-213; `n / N < 0.6` is `10 n < 6 N` -/
def sampleWithoutReplacement (n N : Nat) (src : Src) : Except Err (List Nat) :=
  if N > 100 ∧ 10 * n < 6 * N then rejection n N (src.draw N) src.fuel else knuth n N src.u src.fuel

/-- the loop of lines 168-184: first accepted proposal in the range -/
def hyperLoop (prop : Nat → Int × Bool) (upper : Int) : (fuel i : Nat) → Except Err Int
  | 0, _ => .error .diverge
  | fuel + 1, i =>
    if (prop i).1 < 0 ∨ (prop i).1 ≥ upper then hyperLoop prop upper fuel (i + 1)
    else if (prop i).2 then .ok (prop i).1
    else hyperLoop prop upper fuel (i + 1)

/-- `hypergeometric_sample(N, K, n)`, lines 136-192 -/
def hypergeometric (N K n : Int) (src : Src) : Except Err Int :=
  if N = 0 ∨ N = 1 then .ok K
  else
    let Keff := min K (N - K)
    let neff := min n (N - n)
    let upper := min (min neff Keff + 1) src.ub                 -- lines 165-166
    match hyperLoop src.prop upper src.fuel 0 with
    | .error e => .error e
    | .ok k =>
      let k := if Keff < K then neff - k else k                  -- lines 187-188
      let k := if neff < n then K - k else k                      -- lines 189-190
      .ok k

/-- state of an `IncrementalSampler`: remaining population, remaining sample size -/
structure IS where
  N : Nat
  K : Nat
  initialN : Nat
  relative : Bool
  step : Nat

/-- `IncrementalSampler.__init__`, lines 34-47 -/
def IS.create (N K : Nat) (step : Option Nat) (relative : Bool) : Except Err IS :=
  if ¬ K ≤ N then .error .assertion
  else match step with
    | some s => .ok ⟨N, K, N, relative, s⟩
    | none => if K = 0 then .error .zeroDivision else .ok ⟨N, K, N, relative, 10 ^ 4 * N / K⟩

/-- `simple_sample`, lines 105-122 -/
def IS.simpleSample (s : IS) (n : Nat) (src : Src) : Except Err (IS × List Nat) :=
  match hypergeometric s.N s.K n src with
  | .error e => .error e
  | .ok k => match sampleWithoutReplacement k.toNat n src with
    | .error e => .error e
    | .ok l => .ok ({ s with N := s.N - n, K := s.K - k.toNat }, l)

/-- the loop of lines 91-95 (`c` is `chunk_size`); a chunk size of 0 would loop forever -/
def IS.chunks (src : Nat → Src) (c : Nat) : (fuel : Nat) → IS → (n i : Nat) → Except Err (IS × List Nat)
  | fuel, s, n, i =>
    if n > 0 then
      match fuel with
      | 0 => .error .diverge
      | fuel + 1 => match s.simpleSample (min c n) (src i) with
        | .error e => .error e
        | .ok (s, l) => match IS.chunks src c fuel s (n - min c n) (i + 1) with
          | .error e => .error e
          | .ok (s, r) => .ok (s, l.map (· + i * c) ++ r)
    else .ok (s, [])

/-- `sample`, lines 59-103.  `src i` are the random numbers of the `i`-th chunk. -/
def IS.sample (s : IS) (n : Nat) (src : Nat → Src) : Except Err (IS × List Nat) :=
  let position := s.initialN - s.N
  let n := if n > s.N then s.N else n                             -- lines 82-83
  if s.N = 0 then .error .zeroDivision                            -- line 86
  else
    let r := if n * s.K > 10 ^ 5 * s.N                            -- line 87: n*K/N > 10**5
      then IS.chunks src (10 ^ 5 * s.N / s.K) n s n 0              -- lines 88-96
      else s.simpleSample n (src 0)
    match r with
    | .error e => .error e
    | .ok (s', l) => .ok (s', if s.relative then l else l.map (· + position))

end ABX.Sampler
