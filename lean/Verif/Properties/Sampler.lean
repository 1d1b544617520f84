import Verif.Proofs.Sampler
import Mathlib.Data.List.Perm.Subperm
import Mathlib.Data.List.Range
/-!
C39-C42: sampling without replacement (ABXpy/sampling/sampler.py).
-/
namespace ABX.Sampler

/-- specification: `s` is a set of `n` elements of `[0, N)`, listed in increasing order -/
def IsSample (n N : Nat) (s : List Nat) : Prop := s.length = n ∧ s.Pairwise (· < ·) ∧ ∀ x ∈ s, x < N

/-! ### C39 -/

/-- C39: for every `n ≤ N` and every stream of `np.random.rand()` values, `Knuth_sampling(n, N)` terminates
(after at most `N` draws) and returns `n` strictly increasing indices below `N`. -/
theorem C39_knuth_sample (n N : Nat) (h : n ≤ N) (u : Nat → Nat) (hu : ∀ i, u i < 2 ^ 53) (fuel : Nat) (hf : N ≤ fuel) :
    ∃ s, knuth n N u fuel = .ok s ∧ IsSample n N s := by
  obtain ⟨s, e1, e2, e3, e4⟩ := knuthLoop_ok N n u hu fuel 0 0 (by omega) (by omega) (by omega) (by omega)
  exact ⟨s, e1, by simpa using e2, e3, fun x hx => (e4 x hx).2⟩

/-- C39, no sample is excluded: every set of `n` indices is returned for some stream (`N ≤ 2^53`). -/
theorem C39_every_sample (n N : Nat) (hN : N ≤ 2 ^ 53) (s : List Nat) (h : IsSample n N s) :
    ∃ u : Nat → Nat, (∀ i, u i < 2 ^ 53) ∧ knuth n N u N = .ok s := by
  obtain ⟨h1, h2, h3⟩ := h
  refine ⟨fun i => if i ∈ s then 0 else 2 ^ 53 - 1, ?_, ?_⟩
  · intro i; dsimp only; split <;> omega
  · exact knuthLoop_surj N n hN N s 0 0 s (by omega) (by omega) (by omega) h2 (fun x hx => ⟨by omega, h3 x hx⟩)
      (fun x _ => Iff.rfl) (by omega)

theorem knuthLoop_all (n N : Nat) (h : N ≤ n) (u : Nat → Nat) (hu : ∀ i, u i < 2 ^ 53) (fuel : Nat) : ∀ m, m ≤ n →
    n - m ≤ fuel → knuthLoop N n u fuel m m = .ok (List.range' m (n - m)) := by
  induction fuel with
  | zero =>
    intro m h1 h2
    unfold knuthLoop
    rw [if_neg (by omega), show n - m = 0 by omega]; rfl
  | succ k ih =>
    intro m h1 h2
    unfold knuthLoop
    by_cases c : m < n
    · have hit : ((N : Int) - m) * u m < ((n : Int) - m) * 2 ^ 53 := by
        have hu' : (u m : Int) < 2 ^ 53 := by exact_mod_cast hu m
        have a0 : (0 : Int) ≤ u m := by omega
        have a1 : ((N : Int) - m) * u m ≤ ((n : Int) - m) * u m := Int.mul_le_mul_of_nonneg_right (by omega) a0
        have a2 : ((n : Int) - m) * u m < ((n : Int) - m) * 2 ^ 53 := Int.mul_lt_mul_of_pos_left hu' (by omega)
        omega
      rw [if_pos c]
      simp only [if_pos hit, ih (m + 1) (by omega) (by omega)]
      rw [show n - m = (n - (m + 1)) + 1 by omega, List.range'_succ]
    · rw [if_neg c, show n - m = 0 by omega]; rfl

/-- Asking for more items than there are is not detected: `Knuth_sampling(n, N)` with `n > N` returns `0..n-1`,
some of which are not below `N`. -/
theorem C39_too_many (n N : Nat) (h : N < n) (u : Nat → Nat) (hu : ∀ i, u i < 2 ^ 53) :
    knuth n N u n = .ok (List.range n) ∧ ¬ ∀ x ∈ List.range n, x < N := by
  constructor
  · have := knuthLoop_all n N (by omega) u hu n 0 (by omega) (by omega)
    rw [knuth, this, List.range_eq_range']; rfl
  · intro hall
    have := hall N (by simp [h])
    omega

/-! ### C40 -/

/-- what `np.random.randint(0, N, k)` guarantees, for every call `i` -/
def DrawsBelow (N : Nat) (draw : Nat → Nat → List Nat) : Prop :=
  ∀ i k, (draw i k).length = k ∧ ∀ x ∈ draw i k, x < N

/-- C40: whenever `rejection_sampling(n, N)` returns, it returns a sample of size `n`. -/
theorem C40_rejection_sample (n N : Nat) (draw : Nat → Nat → List Nat) (hd : DrawsBelow N draw) (fuel : Nat)
    (s : List Nat) (h : rejection n N draw fuel = .ok s) : IsSample n N s := by
  unfold rejection at h
  by_cases h0 : n = 0
  · rw [if_pos h0] at h; cases h; simp [h0, IsSample]
  · rw [if_neg h0] at h
    by_cases hN : N = 0
    · rw [if_pos hN] at h; cases h
    · rw [if_neg hN] at h
      obtain ⟨r1, r2, r3, _⟩ := rejectionLoop_inv n N draw (fun i k => (hd i k).1) (fun i k => (hd i k).2) fuel 0 [] s
        List.Pairwise.nil (by simp) (by simp) h
      exact ⟨r2, r1, r3⟩

/-- C40, no overshoot and no loss: after any round the sample obtained so far is an increasing list of at most `n`
indices that contains the previous one. -/
theorem C40_round (n N : Nat) (s : List Nat) (h1 : s.Pairwise (· < ·)) (h2 : s.length ≤ n) (h3 : ∀ x ∈ s, x < N)
    (new : List Nat) (hl : new.length = n - s.length) (hn : ∀ x ∈ new, x < N) :
    (union1d s new).Pairwise (· < ·) ∧ (union1d s new).length ≤ n ∧ (∀ x ∈ union1d s new, x < N) ∧
      (∀ x, x ∈ union1d s new ↔ x ∈ s ∨ x ∈ new) := by
  obtain ⟨u1, u2, u3, u4⟩ := union1d_spec new s h1
  refine ⟨u1, by omega, ?_, u2⟩
  intro x hx
  rcases (u2 x).mp hx with hx | hx
  · exact h3 x hx
  · exact hn x hx

theorem exists_fresh (N : Nat) (s : List Nat) (k : Nat)
    (hk : k + s.length ≤ N) : ∃ new : List Nat, new.length = k ∧ new.Nodup ∧ ∀ x ∈ new, x < N ∧ x ∉ s := by
  refine ⟨((List.range N).filter (fun x => decide (x ∉ s))).take k, ?_, ?_, ?_⟩
  · rw [List.length_take, Nat.min_eq_left]
    have hsplit := List.length_eq_length_filter_add (l := List.range N) (fun x => decide (x ∈ s))
    have hsub : ((List.range N).filter (fun x => decide (x ∈ s))).length ≤ s.length := by
      apply List.Subperm.length_le
      apply List.subperm_of_subset ((List.nodup_range).filter _)
      intro x hx
      have := List.mem_filter.mp hx
      simpa using this.2
    have heq : (fun x => !decide (x ∈ s)) = (fun x => decide (x ∉ s)) := by
      funext x; simp
    rw [heq] at hsplit
    rw [List.length_range] at hsplit
    omega
  · exact ((List.nodup_range).filter _).sublist (List.take_sublist _ _)
  · intro x hx
    have := List.mem_of_mem_take hx
    simpa using this

theorem union1d_fresh (new : List Nat) : ∀ s, StrictInc s → new.Nodup → (∀ x ∈ new, x ∉ s) →
    (union1d s new).length = s.length + new.length := by
  induction new with
  | nil => intro s _ _ _; rfl
  | cons y ys ih =>
    intro s h hn hf
    have hu : union1d s (y :: ys) = union1d (insertSet y s) ys := rfl
    rw [List.nodup_cons] at hn
    rw [hu, ih (insertSet y s) (insertSet_inc y s h) hn.2]
    · have : (insertSet y s).length = s.length + 1 := by
        have hy := hf y (by simp)
        clear hu ih hf h hn
        induction s with
        | nil => rfl
        | cons z zs ih2 =>
          unfold insertSet
          split
          · simp
          · split
            · next hz => subst hz; simp at hy
            · simp; exact ih2 (fun h => hy (by simp [h]))
      simp; omega
    · intro x hx
      rw [mem_insertSet]
      rintro (rfl | hx2)
      · exact hn.1 hx
      · exact hf x (by simp [hx]) hx2

/-- C40, completion stays possible: from any partial sample of at most `n ≤ N` indices, some next draw completes it
(so the loop ends with probability one under independent uniform draws). -/
theorem C40_completion_possible (n N : Nat) (hN : 0 < N) (hnN : n ≤ N) (s : List Nat) (h1 : s.Pairwise (· < ·))
    (h2 : s.length ≤ n) (h3 : ∀ x ∈ s, x < N) (i : Nat) :
    ∃ draw, DrawsBelow N draw ∧ ∃ r, rejectionLoop n draw 1 i s = .ok r ∧ IsSample n N r := by
  obtain ⟨new, f1, f2, f3⟩ := exists_fresh N s (n - s.length) (by omega)
  have hd : DrawsBelow N (fun _ k => if k = n - s.length then new else List.replicate k 0) := by
    intro j k
    dsimp only
    by_cases hk : k = n - s.length
    · rw [if_pos hk]; exact ⟨by omega, fun x hx => (f3 x hx).1⟩
    · rw [if_neg hk]; exact ⟨by simp, fun x hx => by have := List.eq_of_mem_replicate hx; omega⟩
  refine ⟨_, hd, ?_⟩
  have hu := union1d_fresh new s h1 f2 (fun x hx => (f3 x hx).2)
  have main : ∃ r, rejectionLoop n (fun _ k => if k = n - s.length then new else List.replicate k 0) 1 i s = .ok r := by
    by_cases c : n - s.length > 0
    · refine ⟨union1d s new, ?_⟩
      rw [rejectionLoop, if_pos c]
      simp only [if_true]
      rw [rejectionLoop, if_neg (by omega)]
    · exact ⟨s, by rw [rejectionLoop, if_neg c]⟩
  obtain ⟨r, hr⟩ := main
  obtain ⟨r1, r2, r3, _⟩ := rejectionLoop_inv n N _ (fun i k => (hd i k).1) (fun i k => (hd i k).2) 1 i s r h1 h2 h3 hr
  exact ⟨r, hr, r2, r1, r3⟩

/-- C40, the other direction: if `n > N > 0` it never returns, whatever is drawn. -/
theorem C40_too_many_diverges (n N : Nat) (hN : 0 < N) (h : N < n) (draw : Nat → Nat → List Nat) (hd : DrawsBelow N draw)
    (fuel : Nat) : rejection n N draw fuel = .error .diverge := by
  unfold rejection
  rw [if_neg (by omega), if_neg (by omega)]
  have key : ∀ fuel i s, StrictInc s → (∀ x ∈ s, x < N) → rejectionLoop n draw fuel i s = .error .diverge := by
    intro fuel
    induction fuel with
    | zero =>
      intro i s h1 h2
      have := length_le_of_inc N s 0 h1 (fun x hx => ⟨by omega, h2 x hx⟩)
      rw [rejectionLoop, if_pos (by omega)]
    | succ k ih =>
      intro i s h1 h2
      have := length_le_of_inc N s 0 h1 (fun x hx => ⟨by omega, h2 x hx⟩)
      rw [rejectionLoop, if_pos (by omega)]
      obtain ⟨u1, u2, _, _⟩ := union1d_spec (draw i (n - s.length)) s h1
      refine ih _ _ u1 (fun x hx => ?_)
      rcases (u2 x).mp hx with hx | hx
      · exact h2 x hx
      · exact (hd _ _).2 x hx
  exact key fuel 0 [] List.Pairwise.nil (by simp)

/-- the sample after `i` rounds of the loop -/
def rejState (n : Nat) (draw : Nat → Nat → List Nat) : Nat → List Nat
  | 0 => []
  | i + 1 => union1d (rejState n draw i) (draw i (n - (rejState n draw i).length))

/-- C40, a bound: if every round brings at least one index that is not in the sample yet, `n` rounds are enough. -/
theorem C40_rounds (n N : Nat) (hN : 0 < N) (draw : Nat → Nat → List Nat) (hd : DrawsBelow N draw)
    (hfair : ∀ i < n, (rejState n draw i).length < n →
      ∃ x ∈ draw i (n - (rejState n draw i).length), x ∉ rejState n draw i) :
    ∃ s, rejection n N draw n = .ok s ∧ IsSample n N s := by
  have key : ∀ fuel i, StrictInc (rejState n draw i) → (rejState n draw i).length ≤ n →
      i + fuel = n → i ≤ (rejState n draw i).length →
      ∃ r, rejectionLoop n draw fuel i (rejState n draw i) = .ok r := by
    intro fuel
    induction fuel with
    | zero =>
      intro i _ h2 h3 h4
      exact ⟨_, by rw [rejectionLoop, if_neg (by omega)]⟩
    | succ k ih =>
      intro i h1 h3 h4 h5
      rw [rejectionLoop]
      by_cases c : n - (rejState n draw i).length > 0
      · rw [if_pos c]
        obtain ⟨u1, u2, u3, u4⟩ := union1d_spec (draw i (n - (rejState n draw i).length)) (rejState n draw i) h1
        rw [(hd _ _).1] at u4
        obtain ⟨x, x1, x2⟩ := hfair i (by omega) (by omega)
        have hlt : (rejState n draw i).length < (rejState n draw (i + 1)).length := by
          have hsub : (x :: rejState n draw i).Subperm (rejState n draw (i + 1)) := by
            apply List.subperm_of_subset
            · rw [List.nodup_cons]; exact ⟨x2, h1.imp (fun h => by omega)⟩
            · intro y hy
              rcases List.mem_cons.mp hy with rfl | hy
              · exact (u2 _).mpr (Or.inr x1)
              · exact (u2 _).mpr (Or.inl hy)
          have := hsub.length_le
          simp only [List.length_cons] at this; omega
        exact ih (i + 1) u1 (by change (union1d _ _).length ≤ n; omega) (by omega) (by omega)
      · rw [if_neg c]; exact ⟨_, rfl⟩
  by_cases h0 : n = 0
  · exact ⟨[], by rw [rejection, if_pos h0], by simp [h0, IsSample]⟩
  · obtain ⟨r, hr⟩ := key n 0 List.Pairwise.nil (by simp [rejState]) (by simp) (by simp)
    have : rejection n N draw n = .ok r := by
      rw [rejection, if_neg h0, if_neg (by omega)]; exact hr
    exact ⟨r, this, C40_rejection_sample n N draw hd n r this⟩

/-- C39/C40 through the dispatcher `sample_without_replacement`. -/
theorem C40_C39_dispatch (n N : Nat) (h : n ≤ N) (src : Src) (hl : src.Lawful) (s : List Nat)
    (hs : sampleWithoutReplacement n N src = .ok s) : IsSample n N s := swr_ok n N src hl h s hs

/-! ### C41 -/

/-- C41, what holds: for every population and every accepted draw the count is feasible, except in the case of
one remaining item, one remaining sample and an empty chunk (`C41_violated`). -/
theorem C41_feasible_partial (N K n : Nat) (hK : K ≤ N) (hn : n ≤ N) (hne : ¬ (N = 1 ∧ n = 0 ∧ K = 1)) (src : Src)
    (k : Int) (h : hypergeometric N K n src = .ok k) :
    max 0 ((n : Int) - (N - K)) ≤ k ∧ k ≤ min (n : Int) K := by
  have := hypergeometric_range N K n src (by omega) (by omega) (by omega) (by omega) (by omega) k h
  omega

/-- C41 is false for `N = 1, K = 1, n = 0`: one item is to be taken among zero. -/
theorem C41_violated (src : Src) : hypergeometric 1 1 0 src = .ok 1 := by simp [hypergeometric]

/-- C41: every feasible count can be returned (by some proposal, when the bound of line 166 does not cut it off). -/
theorem C41_every_count (N K n : Nat) (hN : 2 ≤ N) (k : Int)
    (h : max 0 ((n : Int) - (N - K)) ≤ k ∧ k ≤ min (n : Int) K) :
    ∃ src : Src, hypergeometric N K n src = .ok k := by
  have key : ∀ k0 : Int, 0 ≤ k0 → k0 ≤ min (min (n : Int) (N - n)) (min (K : Int) (N - K)) →
      hyperLoop (fun _ => (k0, true)) (min (min (min (n : Int) (N - n)) (min (K : Int) (N - K)) + 1) (k0 + 1)) 1 0 = .ok k0 := by
    intro k0 h1 h2
    rw [hyperLoop]
    dsimp only
    rw [if_neg (by omega)]
    rfl
  let k1 : Int := if min (n : Int) (N - n) < n then K - k else k
  let k0 : Int := if min (K : Int) (N - K) < K then min (n : Int) (N - n) - k1 else k1
  refine ⟨⟨fun _ => (k0, true), k0 + 1, fun _ => 0, fun _ _ _ => [], 1⟩, ?_⟩
  have b : 0 ≤ k0 ∧ k0 ≤ min (min (n : Int) (N - n)) (min (K : Int) (N - K)) := by
    simp only [k0, k1]; split <;> split <;> omega
  unfold hypergeometric
  rw [if_neg (by omega)]
  simp only [key k0 b.1 b.2]
  congr 1
  simp only [k0, k1]
  split <;> split <;> omega

/-! ### C42 -/

/-- a sequence of `sample(n)` calls, with the random numbers of each -/
def IS.samplesBy (f : IS → Nat → (Nat → Src) → Except Err (IS × List Nat)) (s : IS) : List (Nat × (Nat → Src)) → Except Err (IS × List (List Nat))
  | [] => .ok (s, [])
  | (n, src) :: rest => match f s n src with
    | .error e => .error e
    | .ok (s, l) => match IS.samplesBy f s rest with
      | .error e => .error e
      | .ok (s, ls) => .ok (s, l :: ls)

/-- a sequence of `sample(n)` calls on the sampler of Model/Sampler.lean -/
def IS.samples (s : IS) (calls : List (Nat × (Nat → Src))) : Except Err (IS × List (List Nat)) := IS.samplesBy IS.sample s calls

/-- specification: the successive windows of a population of `N` items cut by the requested sizes -/
def windows (N pos : Nat) : List Nat → List (Nat × Nat)
  | [] => []
  | n :: ns => (pos, min N (pos + n)) :: windows N (min N (pos + n)) ns

theorem sample_ok (s : IS) (hs : ISInv s) (n : Nat) (hn : 0 < n) (src : Nat → Src) (hl : ∀ i, (src i).Lawful)
    (s' : IS) (l : List Nat) (h : s.sample n src = .ok (s', l)) :
    ∃ l0, Drawn s s' (min n s.N) l0 ∧ l = if s.relative then l0 else l0.map (· + (s.initialN - s.N)) := by
  unfold IS.sample at h
  dsimp only at h
  have hmin : (if n > s.N then s.N else n) = min n s.N := by
    split <;> omega
  rw [hmin] at h
  by_cases h0 : s.N = 0
  · rw [if_pos h0] at h; cases h
  · rw [if_neg h0] at h
    by_cases hk : min n s.N * s.K > 10 ^ 5 * s.N
    · rw [if_pos hk] at h
      have hK : 0 < s.K := by
        rcases Nat.eq_zero_or_pos s.K with h | h
        · rw [h] at hk; omega
        · exact h
      have hc : 0 < 10 ^ 5 * s.N / s.K := by
        apply Nat.div_pos _ hK
        have := hs.kn; omega
      cases hr : IS.chunks src (10 ^ 5 * s.N / s.K) (min n s.N) s (min n s.N) 0 with
      | error e => rw [hr] at h; cases h
      | ok p =>
        obtain ⟨s1, l1⟩ := p
        rw [hr] at h
        cases h
        obtain ⟨l0, e1, d⟩ := chunks_ok _ hc src hl _ s (min n s.N) 0 hs (by omega) _ l1 hr
        have : l1 = l0 := by rw [e1]; simp
        subst this
        exact ⟨l1, d, by dsimp only⟩
    · rw [if_neg hk] at h
      cases hr : s.simpleSample (min n s.N) (src 0) with
      | error e => rw [hr] at h; cases h
      | ok p =>
        obtain ⟨s1, l1⟩ := p
        rw [hr] at h
        cases h
        exact ⟨l1, simpleSample_ok s hs _ (by omega) (by omega) (src 0) (hl 0) _ l1 hr, by dsimp only⟩

theorem samplesBy_ok (P : IS → Prop) (f : IS → Nat → (Nat → Src) → Except Err (IS × List Nat))
    (hP : ∀ s s', P s → s'.N ≤ s.N → P s')
    (hf : ∀ (s : IS), P s → ISInv s → ∀ n, 0 < n → ∀ src : Nat → Src, (∀ i, (src i).Lawful) → ∀ s' l, f s n src = .ok (s', l) →
      ∃ l0, Drawn s s' (min n s.N) l0 ∧ l = if s.relative then l0 else l0.map (· + (s.initialN - s.N)))
    (calls : List (Nat × (Nat → Src))) : ∀ (s : IS), P s → ISInv s → s.relative = false →
    (∀ c ∈ calls, 0 < c.1 ∧ ∀ i, (c.2 i).Lawful) → ∀ s' ls, IS.samplesBy f s calls = .ok (s', ls) →
    ISInv s' ∧ s'.initialN = s.initialN ∧ s'.N ≤ s.N ∧
    StrictInc ls.flatten ∧ (∀ x ∈ ls.flatten, s.initialN - s.N ≤ x ∧ x < s.initialN - s'.N) ∧
    s'.K + ls.flatten.length = s.K ∧ ls.length = calls.length ∧
    (∀ p ∈ ls.zip (windows s.initialN (s.initialN - s.N) (calls.map (·.1))), ∀ x ∈ p.1, p.2.1 ≤ x ∧ x < p.2.2) ∧
    s.N ≤ s'.N + (calls.map (·.1)).sum ∧ (s'.N ≠ 0 → s'.N + (calls.map (·.1)).sum = s.N) := by
  induction calls with
  | nil =>
    intro s _ hs _ _ s' ls h
    simp only [IS.samplesBy, Except.ok.injEq, Prod.mk.injEq] at h
    obtain ⟨rfl, rfl⟩ := h
    exact ⟨hs, rfl, by omega, List.Pairwise.nil, by simp, by simp, rfl, by simp, by simp, by simp⟩
  | cons c cs ih =>
    intro s hPs hs hr hc s' ls h
    obtain ⟨n, src⟩ := c
    obtain ⟨hn, hl⟩ := hc (n, src) (by simp)
    simp only at hn hl
    unfold IS.samplesBy at h
    cases h1 : f s n src with
    | error e => rw [h1] at h; cases h
    | ok p =>
      obtain ⟨s1, l1⟩ := p
      rw [h1] at h
      dsimp only at h
      cases h2 : IS.samplesBy f s1 cs with
      | error e => rw [h2] at h; cases h
      | ok q =>
        obtain ⟨s2, l2⟩ := q
        rw [h2] at h
        cases h
        obtain ⟨l0, d, e⟩ := hf s hPs hs n hn src hl s1 l1 h1
        rw [hr] at e
        simp only [Bool.false_eq_true, if_false] at e
        obtain ⟨i1, i2, i3, i4, i5, i6, i7, i8, i9, i10⟩ := ih s1 (hP s s1 hPs (by have := d.N; omega)) d.inv (d.rel.trans hr) (fun c hc' => hc c (by simp [hc'])) _ l2 h2
        have dn := d.N; have dk := d.K; have di := d.init; have hni := hs.ni; have hni1 := d.inv.ni
        have hl1 : ∀ x ∈ l1, s.initialN - s.N ≤ x ∧ x < s.initialN - s1.N := by
          intro x hx
          rw [e] at hx
          obtain ⟨y, hy, rfl⟩ := List.mem_map.mp hx
          have := d.lt y hy
          omega
        refine ⟨i1, i2.trans di, by omega, ?_, ?_, ?_, by simp [i7], ?_, ?_, ?_⟩
        · rw [List.flatten_cons]
          refine StrictInc.append_shift (a := s.initialN - s1.N) ?_ i4 (fun x hx => (hl1 x hx).2) ?_
          · rw [e]; exact d.inc.map_add _
          · intro x hx; have := i5 x hx; rw [di] at this; omega
        · intro x hx
          rw [List.flatten_cons] at hx
          rcases List.mem_append.mp hx with hx | hx
          · have := hl1 x hx; omega
          · have := i5 x hx; rw [di] at this; omega
        · rw [List.flatten_cons, List.length_append]
          have : l1.length = l0.length := by rw [e]; simp
          omega
        · intro p hp x hx
          have hw : min s.initialN (s.initialN - s.N + n) = s.initialN - s1.N := by omega
          simp only [List.map_cons, windows, List.zip_cons_cons, List.mem_cons, hw] at hp
          rcases hp with rfl | hp
          · have := hl1 x hx
            simp only; omega
          · rw [di] at i8
            exact i8 p hp x hx
        · simp only [List.map_cons, List.sum_cons]; omega
        · intro hz
          have := i10 hz
          simp only [List.map_cons, List.sum_cons]
          omega

theorem samples_ok (calls : List (Nat × (Nat → Src))) : ∀ (s : IS), ISInv s → s.relative = false →
    (∀ c ∈ calls, 0 < c.1 ∧ ∀ i, (c.2 i).Lawful) → ∀ s' ls, s.samples calls = .ok (s', ls) →
    ISInv s' ∧ s'.initialN = s.initialN ∧ s'.N ≤ s.N ∧
    StrictInc ls.flatten ∧ (∀ x ∈ ls.flatten, s.initialN - s.N ≤ x ∧ x < s.initialN - s'.N) ∧
    s'.K + ls.flatten.length = s.K ∧ ls.length = calls.length ∧
    (∀ p ∈ ls.zip (windows s.initialN (s.initialN - s.N) (calls.map (·.1))), ∀ x ∈ p.1, p.2.1 ≤ x ∧ x < p.2.2) ∧
    s.N ≤ s'.N + (calls.map (·.1)).sum ∧ (s'.N ≠ 0 → s'.N + (calls.map (·.1)).sum = s.N) :=
  fun s => samplesBy_ok (fun _ => True) IS.sample (fun _ _ _ _ => trivial) (fun s _ hs => sample_ok s hs) calls s trivial

/-- C42, what holds: for every `K ≤ N`, every sequence of positive chunk sizes and every random stream such that
all the calls return, the indices returned (absolute indexing) are strictly increasing over the whole run, the
`i`-th result lies in the `i`-th requested window, and if the run exhausts the population exactly `K` indices were
drawn.  Missing: empty chunks (`C42_violated_empty_chunk`). -/
theorem C42_incremental_partial (N K : Nat) (step : Option Nat) (s : IS) (hc : IS.create N K step false = .ok s)
    (calls : List (Nat × (Nat → Src))) (hcalls : ∀ c ∈ calls, 0 < c.1 ∧ ∀ i, (c.2 i).Lawful)
    (s' : IS) (ls : List (List Nat)) (h : s.samples calls = .ok (s', ls)) :
    ls.flatten.Pairwise (· < ·) ∧ (∀ x ∈ ls.flatten, x < N) ∧ ls.flatten.length ≤ K ∧ ls.length = calls.length ∧
    (∀ p ∈ ls.zip (windows N 0 (calls.map (·.1))), ∀ x ∈ p.1, p.2.1 ≤ x ∧ x < p.2.2) ∧
    (N ≤ (calls.map (·.1)).sum → ls.flatten.length = K) := by
  unfold IS.create at hc
  by_cases hk : K ≤ N
  · rw [if_neg (by simpa using hk)] at hc
    have hs : s.N = N ∧ s.K = K ∧ s.initialN = N ∧ s.relative = false := by
      cases step with
      | some st => cases hc; simp
      | none =>
        dsimp only at hc
        by_cases h0 : K = 0
        · rw [if_pos h0] at hc; cases hc
        · rw [if_neg h0] at hc; cases hc; simp
    obtain ⟨a, b, c, d⟩ := hs
    obtain ⟨i1, i2, i3, i4, i5, i6, i7, i8, i9, i10⟩ := samples_ok calls s ⟨by omega, by omega⟩ d hcalls s' ls h
    rw [a, c] at i8 i5
    refine ⟨i4, fun x hx => by have := i5 x hx; omega, by omega, i7, by simpa using i8, ?_⟩
    intro hsum
    have : s'.K = 0 := by
      have := i1.kn
      by_cases hz : s'.N = 0
      · omega
      · have h10 := i10 hz
        omega
    omega
  · rw [if_pos (by simpa using hk)] at hc; cases hc

/-- C42, relative indexing: the same call on a sampler with `relative_indexing=True` returns the same indices
counted from the current position. -/
theorem C42_relative (s : IS) (n : Nat) (src : Nat → Src) (s' : IS) (l : List Nat) (hr : s.relative = true)
    (h : s.sample n src = .ok (s', l)) :
    ({ s with relative := false } : IS).sample n src =
      .ok ({ s' with relative := false }, l.map (· + (s.initialN - s.N))) := by
  have hsimple : ∀ (s : IS) m src, ({ s with relative := false } : IS).simpleSample m src =
      (s.simpleSample m src).map (fun p => ({ p.1 with relative := false }, p.2)) := by
    intro s m src
    unfold IS.simpleSample
    dsimp only
    cases hypergeometric s.N s.K m src with
    | error e => rfl
    | ok k => dsimp only; cases sampleWithoutReplacement k.toNat m src <;> rfl
  have hchunks : ∀ c fuel (s : IS) m i, IS.chunks src c fuel { s with relative := false } m i =
      (IS.chunks src c fuel s m i).map (fun p => ({ p.1 with relative := false }, p.2)) := by
    intro c fuel
    induction fuel with
    | zero =>
      intro s m i
      unfold IS.chunks
      by_cases hm : m > 0
      · simp only [if_pos hm]; rfl
      · simp only [if_neg hm]; rfl
    | succ f ih =>
      intro s m i
      unfold IS.chunks
      by_cases hm : m > 0
      · simp only [if_pos hm, hsimple]
        cases s.simpleSample (min c m) (src i) with
        | error e => rfl
        | ok p =>
          simp only [Except.map, ih]
          cases IS.chunks src c f p.1 (m - min c m) (i + 1) <;> rfl
      · simp only [if_neg hm]; rfl
  unfold IS.sample at h ⊢
  dsimp only at h ⊢
  by_cases h0 : s.N = 0
  · rw [if_pos h0] at h; cases h
  · rw [if_neg h0] at h ⊢
    rw [hsimple, hchunks]
    by_cases hk : (if n > s.N then s.N else n) * s.K > 10 ^ 5 * s.N
    · rw [if_pos hk] at h ⊢
      cases hq : IS.chunks src (10 ^ 5 * s.N / s.K) (if n > s.N then s.N else n) s (if n > s.N then s.N else n) 0 with
      | error e => rw [hq] at h; cases h
      | ok p => rw [hq] at h; simp only [hr, if_true] at h; cases h; rfl
    · rw [if_neg hk] at h ⊢
      cases hq : s.simpleSample (if n > s.N then s.N else n) (src 0) with
      | error e => rw [hq] at h; cases h
      | ok p => rw [hq] at h; simp only [hr, if_true] at h; cases h; rfl

/-- C42 is false for empty chunks: with one item left to draw out of one, `sample(0)` returns an index, outside of
the (empty) requested window. -/
theorem C42_violated_empty_chunk (src : Nat → Src) (hf : 0 < (src 0).fuel) (hu : ∀ i, (src 0).u i < 2 ^ 53) :
    (⟨1, 1, 1, true, 1⟩ : IS).sample 0 src = .ok (⟨1, 0, 1, true, 1⟩, [0]) := by
  have hk : knuth 1 0 (src 0).u (src 0).fuel = .ok [0] :=
    knuthLoop_all 1 0 (by omega) _ hu _ 0 (by omega) (by omega)
  unfold IS.sample IS.simpleSample
  simp [hypergeometric, sampleWithoutReplacement, hk]

/-- after exhaustion `sample` raises ZeroDivisionError instead of returning an empty sample -/
theorem C42_exhausted_raises (s : IS) (h : s.N = 0) (n : Nat) (src : Nat → Src) :
    s.sample n src = .error .zeroDivision := by simp [IS.sample, h]

/-- the default step cannot be computed for an empty sample (`10**4 * N // 0`) -/
theorem C42_default_step_zero (N : Nat) (rel : Bool) : IS.create N 0 none rel = .error .zeroDivision := by
  simp [IS.create]

/-! Non-vacuity -/
def demoSrc : Src := ⟨fun _ => (1, true), 5, fun _ => 2 ^ 52, fun _ _ k => List.replicate k 0, 50⟩

theorem demoSrc_lawful : demoSrc.Lawful := by
  refine ⟨fun i => by simp [demoSrc], fun N i k => by simp [demoSrc], ?_⟩
  intro N i k hN x hx
  have := List.eq_of_mem_replicate hx
  omega

example : knuth 2 5 (fun i => if i = 1 then 2 ^ 53 - 1 else 0) 5 = .ok [0, 2] := by rfl
example : rejection 3 10 (fun i k => (List.range k).map (fun j => (i + 2 * j) % 10)) 4 = .ok [0, 2, 4] := by rfl
example : hypergeometric 10 3 4 demoSrc = .ok 1 := by rfl
example : (match IS.create 6 3 (some 2) false with
    | .ok s => (s.samples [(2, fun _ => demoSrc), (3, fun _ => demoSrc), (2, fun _ => demoSrc)]).toOption.map (·.2)
    | .error _ => none) = some [[1], [4], [5]] := by rfl

def demoDraw (i k : Nat) : List Nat := (List.range k).map (fun j => (2 * i + j / 2) % 10)
example : ∀ i < 3, (rejState 3 demoDraw i).length < 3 →
    ∃ x ∈ demoDraw i (3 - (rejState 3 demoDraw i).length), x ∉ rejState 3 demoDraw i := by decide
example : DrawsBelow 10 demoDraw := by
  intro i k
  refine ⟨by simp [demoDraw], fun x hx => ?_⟩
  simp only [demoDraw, List.mem_map] at hx
  omega

#print axioms C39_knuth_sample
#print axioms C39_every_sample
#print axioms C39_too_many
#print axioms C40_rejection_sample
#print axioms C40_round
#print axioms C40_completion_possible
#print axioms C40_too_many_diverges
#print axioms C40_rounds
#print axioms C40_C39_dispatch
#print axioms C41_feasible_partial
#print axioms C41_violated
#print axioms C41_every_count
#print axioms C42_incremental_partial
#print axioms C42_relative
#print axioms C42_violated_empty_chunk
#print axioms C42_exhausted_raises
#print axioms C42_default_step_zero

end ABX.Sampler
