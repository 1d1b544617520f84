import Verif.Proofs.ThresholdChance
import Verif.Properties.TaskWitness
/-!
C103: of every group of triplets a threshold keeps each set of `threshold` triplets with the same probability, independently of the other groups.
-/
namespace ABX.Task
open MeasureTheory Set Filter Topology ProbabilityTheory ExtSort Sampler

variable {Ω : Type} [Inhabited Ω] [MeasurableSpace Ω]

/-- the sizes of the groups of triplets with the same regressors, in the order in which `sort_and_threshold` goes through them; `L` are the triplets of a block and `K` the regressors -/
def groupSizes (N : Num) (L : List Tri) (K : List (Tri → Nat)) : List Nat :=
  let index := L.map (fun t => N.index (nRegs (K.map (fun k => L.map k))) (K.map (fun k => k t)))
  runSizes (N.argsort index) index

/-- the probability that of the triplets `L` of a block with the regressors `K` exactly the triplets `Q` are kept by the threshold `T`: the random numbers of the groups are independent of each other -/
noncomputable def keptProb (μ : Measure Ω) (S : Nat → Ω → Src) (N : Num) (T : Nat) (L : List Tri) (K : List (Tri → Nat)) (Q : Finset (Nat × Nat × Nat)) : ℝ :=
  (Measure.pi (fun _ : Fin (groupSizes N L K).length => μ)).real
    {ω | ∃ trips p u, sortBlock N T (runSrc S (groupSizes N L K) (extend ω)) (L.map (fun t => (t.1.1, t.2.1.1, t.2.2.1))) (K.map (fun k => L.map k)) = .ok (trips, p, u) ∧ ∀ x, x ∈ trips ↔ x ∈ Q}

/-- C103 for random numbers with which `sample_without_replacement` is fair up to the factors `lo` and `hi`: every choice `Q` of triplets of a block, with `T` triplets of each group with more and all of the other ones, is kept with the same probability:
one divided by the number of choices, up to a factor `lo` or `hi` for each group.

Not covered: blocks whose number of triplets is larger than the type fitted to the number of combinations of regressors (see `C103_violated`), and more than `2 ^ 53` combinations. -/
theorem C103_uniform_partial {μ : Measure Ω} [IsProbabilityMeasure μ] {S : Nat → Ω → Src} {lo hi : ℝ} {T M : Nat} (hF : FairDraw μ S lo hi T M) (hT : T ≠ 0) {N : Num} (ha : ArgsortLaw N.argsort) (hN : N.Exact)
    {L : List Tri} (hL : L ≠ []) (hn : (L.map (fun t => (t.1.1, t.2.1.1, t.2.2.1))).Nodup) {K : List (Tri → Nat)} (hK : K ≠ [])
    (hprod : (nRegs (K.map (fun k => L.map k))).prod ≤ 2 ^ 53) (hfit : ∀ t, fitIntegerType ((nRegs (K.map (fun k => L.map k))).prod : Nat) false = .ok t → (L.length : Int) ≤ t.hi) (hM : L.length ≤ M) {Q : Finset (Nat × Nat × Nat)}
    (hQ : Choice (L.map (fun t => (t.1.1, t.2.1.1, t.2.2.1))) (L.map (fun t => K.map (fun k => k t))) T Q) :
    (groupSizes N L K).length = (L.map (fun t => K.map (fun k => k t))).toFinset.card ∧
    lo ^ (L.map (fun t => K.map (fun k => k t))).toFinset.card * choiceProb (L.map (fun t => K.map (fun k => k t))) T ≤ keptProb μ S N T L K Q ∧
    keptProb μ S N T L K Q ≤ hi ^ (L.map (fun t => K.map (fun k => k t))).toFinset.card * choiceProb (L.map (fun t => K.map (fun k => k t))) T := by
  have key := block_prob hF hT ha hN hL hn hK hprod hfit hM hQ
  dsimp only at key
  have h1 : (groupSizes N L K).length = (L.map (fun t => K.map (fun k => k t))).toFinset.card := key.1
  rw [← h1]
  exact ⟨rfl, key.2⟩

/-- C103, the exact case: if `sample_without_replacement` is fair, the probability is one divided by the number of choices, for every choice -/
theorem C103_exact_partial {μ : Measure Ω} [IsProbabilityMeasure μ] {S : Nat → Ω → Src} {T M : Nat} (hF : FairDraw μ S 1 1 T M) (hT : T ≠ 0) {N : Num} (ha : ArgsortLaw N.argsort) (hN : N.Exact)
    {L : List Tri} (hL : L ≠ []) (hn : (L.map (fun t => (t.1.1, t.2.1.1, t.2.2.1))).Nodup) {K : List (Tri → Nat)} (hK : K ≠ [])
    (hprod : (nRegs (K.map (fun k => L.map k))).prod ≤ 2 ^ 53) (hfit : ∀ t, fitIntegerType ((nRegs (K.map (fun k => L.map k))).prod : Nat) false = .ok t → (L.length : Int) ≤ t.hi) (hM : L.length ≤ M) {Q : Finset (Nat × Nat × Nat)}
    (hQ : Choice (L.map (fun t => (t.1.1, t.2.1.1, t.2.2.1))) (L.map (fun t => K.map (fun k => k t))) T Q) :
    keptProb μ S N T L K Q = choiceProb (L.map (fun t => K.map (fun k => k t))) T := by
  have h := (C103_uniform_partial hF hT ha hN hL hn hK hprod hfit hM hQ).2
  rw [one_pow, one_mul] at h
  exact le_antisymm h.2 h.1

theorem hi_ge {n : Nat} {t : IntType} (ht : fitIntegerType (n : Int) false = .ok t) : 255 ≤ t.hi := by
  unfold fitIntegerType at ht
  simp only [Bool.false_eq_true, if_false] at ht
  split_ifs at ht <;> cases ht <;> decide

/-- C103 for the random numbers of the code: independent uniform numbers, in the loop of `rejection_sampling` for at most `R` rounds.
For all large enough `R` every choice of triplets of a block of at most 255 triplets is kept with the probability one divided by the number of choices, up to factors near 1 that are due to `np.random.rand` giving one of `2 ^ 53` numbers in `Knuth_sampling`. -/
theorem C103_chance_partial {T : Nat} (hT : T ≠ 0) {N : Num} (ha : ArgsortLaw N.argsort) (hN : N.Exact) {lo : ℝ} (h0 : 0 ≤ lo) (h1 : lo < (1 - (255 : ℝ) / 2 ^ 53) ^ 255) :
    ∀ᶠ R in atTop, ∀ (L : List Tri) (K : List (Tri → Nat)) (Q : Finset (Nat × Nat × Nat)), L ≠ [] → L.length ≤ 255 → (L.map (fun t => (t.1.1, t.2.1.1, t.2.2.1))).Nodup → K ≠ [] → (nRegs (K.map (fun k => L.map k))).prod ≤ 2 ^ 53 →
      Choice (L.map (fun t => (t.1.1, t.2.1.1, t.2.2.1))) (L.map (fun t => K.map (fun k => k t))) T Q →
      lo ^ (L.map (fun t => K.map (fun k => k t))).toFinset.card * choiceProb (L.map (fun t => K.map (fun k => k t))) T ≤ keptProb (draws 255 R) (fun c => drawSrc 255 R T c) N T L K Q ∧
      keptProb (draws 255 R) (fun c => drawSrc 255 R T c) N T L K Q ≤ ((1 + (255 : ℝ) / 2 ^ 53) ^ 255) ^ (L.map (fun t => K.map (fun k => k t))).toFinset.card * choiceProb (L.map (fun t => K.map (fun k => k t))) T := by
  refine (fairDraw_eventually (M := 255) (T := T) (by norm_num) h0 (by exact_mod_cast h1)).mono fun R hR L K Q hL hl hn hK hprod hQ => ?_
  have := (C103_uniform_partial hR hT ha hN hL hn hK hprod (fun t ht => by have := hi_ge ht; omega) hl hQ).2
  exact_mod_cast this

/-- a block of three triplets with the regressor 0 and one with the regressor 1 -/
def chanceBlock : List Tri := [1, 2, 3, 4].map (fun i => ((0, fun _ => .int 0), (i, fun _ => .int 0), (5, fun _ => .int 0)))

/-- the hypotheses of C103 are met: with the threshold 2 the probability of keeping the first, the third and the last triplet of `chanceBlock` is near 1 / 3 -/
example {N : Num} (ha : ArgsortLaw N.argsort) (hN : N.Exact) : ∀ᶠ R in atTop,
    (1 / 2) ^ 2 * (1 / 3) ≤ keptProb (draws 255 R) (fun c => drawSrc 255 R 2 c) N 2 chanceBlock [fun t => if t.2.1.1 = 4 then 1 else 0] {(0, 1, 5), (0, 3, 5), (0, 4, 5)} := by
  have hb : (1 / 2 : ℝ) < (1 - (255 : ℝ) / 2 ^ 53) ^ 255 := by
    have := one_add_mul_le_pow (a := -((255 : ℝ) / 2 ^ 53)) (by norm_num) 255
    rw [← sub_eq_add_neg] at this
    refine lt_of_lt_of_le ?_ this
    norm_num
  refine (C103_chance_partial (T := 2) (by norm_num) ha hN (by norm_num) hb).mono fun R hR => ?_
  have := (hR chanceBlock [fun t => if t.2.1.1 = 4 then 1 else 0] {(0, 1, 5), (0, 3, 5), (0, 4, 5)} (by simp [chanceBlock]) (by simp [chanceBlock]) (by decide) (by simp) (by decide) ⟨by decide, ?_⟩).1
  · have hrows : (chanceBlock.map (fun t => [fun t : Tri => if t.2.1.1 = 4 then 1 else 0].map (fun k => k t))) = [[0], [0], [0], [1]] := by decide
    rw [hrows] at this
    have hp : choiceProb [[0], [0], [0], [1]] 2 = 1 / 3 := by
      unfold choiceProb
      have e : ([[0], [0], [0], [1]] : List (List Nat)).toFinset = {[0], [1]} := by decide
      rw [e, Finset.prod_pair (by decide)]
      have c0 : ([[0], [0], [0], [1]] : List (List Nat)).count [0] = 3 := by decide
      have c1 : ([[0], [0], [0], [1]] : List (List Nat)).count [1] = 1 := by decide
      rw [c0, c1]
      norm_num [Nat.choose]
    have hc : ([[0], [0], [0], [1]] : List (List Nat)).toFinset.card = 2 := by decide
    rw [hp, hc] at this
    exact this
  · intro r
    have hrows : (chanceBlock.map (fun t => [fun t : Tri => if t.2.1.1 = 4 then 1 else 0].map (fun k => k t))) = [[0], [0], [0], [1]] := by decide
    have htr : chanceBlock.map (fun t => (t.1.1, t.2.1.1, t.2.2.1)) = [(0, 1, 5), (0, 2, 5), (0, 3, 5), (0, 4, 5)] := by decide
    rw [hrows, htr]
    by_cases r0 : r = [0]
    · subst r0; decide
    · by_cases r1 : r = [1]
      · subst r1; decide
      · have e0 : ¬ [0] = r := fun h => r0 h.symm
        have e1 : ¬ [1] = r := fun h => r1 h.symm
        simp [e0, e1]

theorem cast8_lt (n : Nat) : castNat ⟨8, false⟩ n < 256 := by
  simp only [castNat, IntType.cast, IntType.lo]
  norm_num
  omega

/-- when every group is sampled, all the positions are below 256 in the type uint8 -/
theorem loop_cast {permut : List Nat} {T : Nat} (hT : T ≠ 0) {src : Nat → Src} : ∀ (cs : List Nat) (i j : Nat) (ps : List (List Nat)), (∀ c ∈ cs, T < c) → thresholdLoop permut ⟨8, false⟩ T src cs i j = .ok ps →
    ∀ x ∈ ps.flatten, ∃ k < 256, permut[k]? = some x
  | [], _, _, ps, _, h => by
    cases h
    simp
  | c :: cs, i, j, ps, hc, h => by
    unfold thresholdLoop at h
    rw [if_pos ⟨hT, hc c (by simp)⟩] at h
    dsimp only at h
    split at h
    · cases h
    rename_i p hp
    split at h
    · cases h
    rename_i ps' hps
    cases h
    intro x hx
    rw [List.flatten_cons, List.mem_append] at hx
    rcases hx with hx | hx
    · split at hp
      · cases hp
      rename_i s hs
      obtain ⟨g1, g2⟩ := gather_inv 0 hp
      rw [g2] at hx
      obtain ⟨y, hy, rfl⟩ := List.mem_map.mp hx
      refine ⟨y, ?_, ?_⟩
      · obtain ⟨z, -, rfl⟩ := List.mem_map.mp hy
        exact cast8_lt _
      · simp [g1 y hy]
    · exact loop_cast hT cs (i + c) (j + 1) ps' (fun d hd => hc d (List.mem_cons_of_mem _ hd)) hps x hx

/-- 257 triplets with the regressor 0 and two with the regressor 1 -/
def largeBlock : List Tri := (List.range 259).map (fun i => ((i, fun _ => .int 0), (i, fun _ => .int 0), (i, fun _ => .int 0)))

theorem largeBlock_trips : largeBlock.map (fun t => (t.1.1, t.2.1.1, t.2.2.1)) = (List.range 259).map (fun i => (i, i, i)) := by
  unfold largeBlock
  rw [List.map_map]
  rfl

theorem largeBlock_cols : [fun t : Tri => if t.1.1 < 257 then 0 else 1].map (fun k => largeBlock.map k) = [List.replicate 257 0 ++ [1, 1]] := by decide +kernel

/-- whatever the random numbers, no triplet with the regressor 1 is kept -/
theorem largeBlock_kept {src : Nat → Src} {trips : List (Nat × Nat × Nat)} {p u : List Nat} (h1 : sortBlock N0 1 src (largeBlock.map (fun t => (t.1.1, t.2.1.1, t.2.2.1))) ([fun t : Tri => if t.1.1 < 257 then 0 else 1].map (fun k => largeBlock.map k)) = .ok (trips, p, u)) :
    ∀ t ∈ trips, t.1 < 256 := by
  rw [largeBlock_cols, largeBlock_trips] at h1
  have hidx : (rowsOf [List.replicate 257 0 ++ [1, 1]]).map (N0.index (nRegs [List.replicate 257 0 ++ [1, 1]])) = List.replicate 257 0 ++ [1, 1] := by decide +kernel
  have hne : ¬ (rowsOf [List.replicate 257 0 ++ [1, 1]]).isEmpty = true := by decide +kernel
  have hfit : fitIntegerType ((⟨64, true⟩ : IntType).cast ((nRegs [List.replicate 257 0 ++ [1, 1]]).prod : Nat)) false = .ok ⟨8, false⟩ := by decide +kernel
  have hsort : N0.argsort (List.replicate 257 0 ++ [1, 1]) = List.range 259 := by decide +kernel
  have hg : gather (List.replicate 257 (0 : Int) ++ [1, 1]) (List.range 259) = .ok (List.replicate 257 0 ++ [1, 1]) := by decide +kernel
  have hu : runCounts (uniqueIdx (List.replicate 257 0 ++ [1, 1])) = [257, 2] := by decide +kernel
  unfold sortBlock at h1
  rw [if_neg hne, hidx] at h1
  split at h1
  · cases h1
  rename_i t ht
  have et : t = ⟨8, false⟩ := Except.ok.inj (ht.symm.trans hfit)
  subst et
  dsimp only at h1
  rw [hsort] at h1
  split at h1
  · cases h1
  rename_i p' u' hs
  split at h1
  · cases h1
  rename_i r hr
  cases h1
  unfold sortAndThreshold at hs
  rw [hg] at hs
  dsimp only at hs
  rw [hu] at hs
  split at hs
  · cases hs
  rename_i ps hps
  cases hs
  have hx := loop_cast (T := 1) (by norm_num) [257, 2] 0 0 ps (by decide) hps
  obtain ⟨g1, g2⟩ := gather_inv (0, 0, 0) hr
  intro t ht
  rw [g2] at ht
  obtain ⟨y, hy, rfl⟩ := List.mem_map.mp ht
  obtain ⟨k, hk, hk'⟩ := hx y hy
  have hyk : y = k := by
    rw [List.getElem?_range (by omega)] at hk'
    exact (Option.some.inj hk').symm
  rw [getD_map' (List.range 259) (fun i => (i, i, i)) 0 (0, 0, 0) (by rw [List.length_range]; omega)]
  rw [List.getD_eq_getElem?_getD, List.getElem?_range (by omega)]
  dsimp only [Option.getD_some]
  omega

/-- C103 is violated: the choice of the first triplet with the regressor 0 and of the first one with the regressor 1 is never kept, whatever the random numbers (it should have the probability `1 / 514`): triplets with the regressor 1 are not kept at all -/
theorem C103_violated {μ : Measure Ω} {S : Nat → Ω → Src} :
    Choice (largeBlock.map (fun t => (t.1.1, t.2.1.1, t.2.2.1))) (largeBlock.map (fun t => [fun t : Tri => if t.1.1 < 257 then 0 else 1].map (fun k => k t))) 1 {(0, 0, 0), (257, 257, 257)} ∧
    keptProb μ S N0 1 largeBlock [fun t => if t.1.1 < 257 then 0 else 1] {(0, 0, 0), (257, 257, 257)} = 0 := by
  have hrow : largeBlock.map (fun t => [fun t : Tri => if t.1.1 < 257 then 0 else 1].map (fun k => k t)) = List.replicate 257 [0] ++ [[1], [1]] := by decide +kernel
  refine ⟨⟨?_, ?_⟩, ?_⟩
  · rw [largeBlock_trips]
    decide +kernel
  · rw [largeBlock_trips, hrow]
    intro r
    by_cases r0 : r = [0]
    · subst r0; decide +kernel
    · by_cases r1 : r = [1]
      · subst r1; decide +kernel
      · have hz : ∀ p ∈ ((List.range 259).map (fun i => (i, i, i))).zip (List.replicate 257 [0] ++ [[1], [1]]), p.2 = [0] ∨ p.2 = [1] := by decide +kernel
        have hc : (List.replicate 257 [0] ++ [[1], [1]]).count r = 0 := by
          rw [List.count_eq_zero]
          intro h
          have : ∀ x ∈ List.replicate 257 [0] ++ [[1], [1]], x = [0] ∨ x = [1] := by decide +kernel
          rcases this r h with h | h
          · exact r0 h
          · exact r1 h
        rw [hc, Nat.min_zero, List.length_eq_zero_iff, List.filter_eq_nil_iff]
        intro p hp
        simp only [decide_eq_true_eq, not_and]
        intro e
        rcases hz p hp with h | h
        · exact absurd (e.symm.trans h) r0
        · exact absurd (e.symm.trans h) r1
  · unfold keptProb
    convert measureReal_empty
    rw [Set.eq_empty_iff_forall_notMem]
    rintro ω ⟨trips, p, u, h1, h2⟩
    have := largeBlock_kept h1 (257, 257, 257) ((h2 _).mpr (by decide))
    omega

#print axioms C103_uniform_partial
#print axioms C103_exact_partial
#print axioms C103_chance_partial
#print axioms C103_violated

end ABX.Task
