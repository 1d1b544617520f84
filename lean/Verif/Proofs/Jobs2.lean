import Verif.Proofs.Jobs
/-! Helper lemmas for the division of the pairs into jobs: the jobs. -/
namespace ABX.Distances
open ExtSort ABX.Task Pairs

theorem buckets_perm {α : Type} (l : List (α × Nat)) : ∀ n, (∀ p ∈ l, p.2 < n) →
    ((List.range n).map (fun i => (l.filter (fun p => p.2 == i)).map (·.1))).flatten.Perm (l.map (·.1)) := by
  have key : ∀ n, ((List.range n).map (fun i => (l.filter (fun p => p.2 == i)).map (·.1))).flatten.Perm ((l.filter (fun p => decide (p.2 < n))).map (·.1)) := by
    intro n
    induction n with
    | zero => simp
    | succ n ih =>
      rw [List.range_succ, List.map_append, List.flatten_append]
      have h1 : (l.filter (fun p => decide (p.2 < n))).map (·.1) ++ (l.filter (fun p => p.2 == n)).map (·.1) = ((l.filter (fun p => decide (p.2 < n))) ++ (l.filter (fun p => p.2 == n))).map (·.1) := by
        rw [List.map_append]
      refine (ih.append_right _).trans ?_
      simp only [List.map_cons, List.map_nil, List.flatten_cons, List.flatten_nil, List.append_nil]
      rw [h1]
      apply List.Perm.map
      have h2 := List.filter_append_perm (fun p : α × Nat => decide (p.2 < n)) (l.filter (fun p => decide (p.2 < n + 1)))
      rw [List.filter_filter, List.filter_filter] at h2
      have e1 : l.filter (fun p => decide (p.2 < n) && decide (p.2 < n + 1)) = l.filter (fun p => decide (p.2 < n)) := by
        apply List.filter_congr; intro p _; by_cases h : p.2 < n <;> simp [h]; omega
      have e2 : l.filter (fun p => (!decide (p.2 < n)) && decide (p.2 < n + 1)) = l.filter (fun p => p.2 == n) := by
        apply List.filter_congr; intro p _; rw [Bool.eq_iff_iff]; simp; omega
      rw [e1, e2] at h2
      exact h2
  intro n h
  refine (key n).trans (List.Perm.of_eq ?_)
  rw [List.filter_eq_self.mpr]
  intro p hp
  simpa using h p hp

/-- number of pairs of a job -/
def load (job : List Block) : Nat := (job.map (fun b => b.stop - b.start)).sum

theorem load_bucket (blocks : List Block) (cpu : List Nat) (h : cpu.length = blocks.length) (c : Nat) :
    load (((blocks.zip cpu).filter (fun p => p.2 == c)).map (·.1)) = loadOn (blocks.map (fun b => b.stop - b.start)) cpu (List.range blocks.length) c := by
  unfold load loadOn
  induction blocks generalizing cpu with
  | nil => simp
  | cons b bs ih =>
    cases cpu with
    | nil => simp at h
    | cons k ks =>
      rw [List.zip_cons_cons, List.filter_cons, List.length_cons, List.range_succ_eq_map, List.map_cons (f := fun i => if (k :: ks)[i]? = some c then (((b :: bs).map (fun b => b.stop - b.start))[i]?).getD 0 else 0), List.map_map (l := List.range bs.length), List.sum_cons]
      have ih := ih ks (by simpa using h)
      have e : (List.range bs.length).map ((fun i => if (k :: ks)[i]? = some c then (((b :: bs).map (fun b => b.stop - b.start))[i]?).getD 0 else 0) ∘ Nat.succ) =
          (List.range bs.length).map (fun i => if ks[i]? = some c then ((bs.map (fun b => b.stop - b.start))[i]?).getD 0 else 0) := by
        apply List.map_congr_left
        intro i _
        simp
      rw [e, ← ih]
      by_cases hk : k = c
      · simp [hk]
      · simp [hk]

theorem sum_perm_load {a b : List Nat} (sizes cpu : List Nat) (h : a.Perm b) (c : Nat) : loadOn sizes cpu a c = loadOn sizes cpu b c := by
  unfold loadOn
  exact (h.map _).sum_nat

/-- the blocks of the levels, and what is known of the jobs -/
structure JobsOK (bys : List (List Val)) (P : PairFile) (nCpu : Nat) (jobs : List (List Block)) (ns : List (List Val × Nat)) (mss : List (List Nat)) (max : Nat) (float : Bool) : Prop where
  ns_ok : List.Forall₂ (fun b p => p.1 = b ∧ ∃ base start stop, P.attrs.lookup b = some (base, start, stop) ∧ p.2 = (stop - start).toNat) bys ns
  mss_ok : List.Forall₂ (fun p ms => ms.sum = p.2 ∧ ∀ m ∈ ms, 0 < m ∧ m ≤ max) ns mss
  length : jobs.length = nCpu
  perm : jobs.flatten.Perm (List.zipWith (fun p ms => blocksOf float p.1 ms) ns mss).flatten
  max_le : max ≤ ((ns.map (·.2)).sum + nCpu - 1) / nCpu ∧ max ≤ bufferMax
  float_eq : float = (decide (bufferMax < ((ns.map (·.2)).sum + nCpu - 1) / nCpu) && ns.any (fun p => decide (bufferMax < p.2)))
  balance : ∀ j ∈ jobs, ∀ j' ∈ jobs, load j ≤ load j' + max

theorem blocksOf_size (float : Bool) (by_ : List Val) (ms : List Nat) : (blocksOf float by_ ms).map (fun b => b.stop - b.start) = ms := by
  unfold blocksOf
  rw [List.map_map]
  exact intervals_size ms 0

theorem blocks_size_le {max : Nat} {float : Bool} {ns : List (List Val × Nat)} {mss : List (List Nat)}
    (h : List.Forall₂ (fun p ms => ms.sum = p.2 ∧ ∀ m ∈ ms, 0 < m ∧ m ≤ max) ns mss) :
    ∀ b ∈ (List.zipWith (fun p ms => blocksOf float p.1 ms) ns mss).flatten, 0 < b.stop - b.start ∧ b.stop - b.start ≤ max := by
  induction h with
  | nil => intro b hb; cases hb
  | @cons p ms ns mss hp _ ih =>
    intro b hb
    rw [List.zipWith_cons_cons, List.flatten_cons, List.mem_append] at hb
    rcases hb with hb | hb
    · have : b.stop - b.start ∈ (blocksOf float p.1 ms).map (fun b => b.stop - b.start) := List.mem_map_of_mem hb
      rw [blocksOf_size] at this
      exact hp.2 _ this
    · exact ih b hb

theorem createJobs_ok {argsort : List Int → List Nat} (hs : ArgsortLaw argsort) {bys : List (List Val)} {P : PairFile} {nCpu : Nat} (hc : 0 < nCpu) (hb : bys ≠ [])
    (ha : ∀ b ∈ bys, ∃ v, P.attrs.lookup b = some v) :
    ∃ jobs ns mss max float, createJobs argsort bys P nCpu = .ok jobs ∧ JobsOK bys P nCpu jobs ns mss max float := by
  obtain ⟨ns, n1, n2⟩ := nPairs_ok bys ha
  generalize hmax : (if ((ns.map (·.2)).sum + nCpu - 1) / nCpu ≤ bufferMax then ((ns.map (·.2)).sum + nCpu - 1) / nCpu else bufferMax) = max
  generalize hfl : (decide (bufferMax < ((ns.map (·.2)).sum + nCpu - 1) / nCpu) && ns.any (fun p => decide (bufferMax < p.2))) = float
  have hpos : 0 < max ∨ ∀ p ∈ ns, p.2 = 0 := by
    by_cases h0 : (ns.map (·.2)).sum = 0
    · right
      intro p hp
      exact (List.sum_eq_zero_iff_forall_eq_nat.mp h0) _ (List.mem_map_of_mem hp)
    · left
      have : 0 < ((ns.map (·.2)).sum + nCpu - 1) / nCpu := Nat.div_pos (by omega) hc
      rw [← hmax]
      unfold bufferMax
      split <;> omega
  obtain ⟨mss, m1, m2⟩ := splitAll_ok (max := max) (float := float) ns hpos
  generalize hbl : (List.zipWith (fun p ms => blocksOf float p.1 ms) ns mss).flatten = blocks at m1
  have hsz : ∀ n ∈ blocks.map (fun b => b.stop - b.start), n ≤ max := by
    intro n hn
    obtain ⟨b, hb, rfl⟩ := List.mem_map.mp hn
    rw [← hbl] at hb
    exact (blocks_size_le m2 b hb).2
  have hperm : (argsort ((blocks.map (fun b => b.stop - b.start)).map (fun n : Nat => (n : Int)))).reverse.Perm (List.range blocks.length) := by
    refine (List.reverse_perm _).trans ?_
    have := hs.perm ((blocks.map (fun b => b.stop - b.start)).map (fun n : Nat => (n : Int)))
    rw [List.length_map, List.length_map] at this
    exact this
  obtain ⟨cpu, loads, r1, r2, r3, r4, r5, r6⟩ := assign_ok hsz (argsort ((blocks.map (fun b => b.stop - b.start)).map (fun n : Nat => (n : Int)))).reverse []
    (List.replicate blocks.length 0) (List.replicate nCpu 0) (by simp; omega) (by simp)
    (by intro i hi; have := hperm.mem_iff.mp hi; simpa using this)
    (by rw [List.nil_append]; exact hperm.nodup_iff.mpr List.nodup_range) (by simp)
    (by
      intro c hc'
      rw [List.length_replicate] at hc'
      rw [List.getElem?_replicate, if_pos hc']
      rfl)
    (by intro x hx y hy; rw [(List.mem_replicate.mp hx).2]; omega)
  rw [List.nil_append, List.length_replicate] at r4 r5
  rw [List.length_map] at r3
  refine ⟨(List.range nCpu).map (fun i => ((blocks.zip cpu).filter (fun p => p.2 == i)).map (·.1)), ns, mss, max, float, ?_, ⟨n2, m2, ?_, ?_, ?_, hfl.symm, ?_⟩⟩
  · unfold createJobs
    rw [if_neg hb, if_neg (by omega), n1]
    dsimp only
    rw [hmax, hfl, m1]
    dsimp only
    rw [r1]
  · simp
  · rw [hbl]
    refine (buckets_perm _ _ ?_).trans (List.Perm.of_eq ?_)
    · intro p hp
      obtain ⟨i, hi⟩ := List.getElem?_of_mem hp
      rw [List.getElem?_zip_eq_some] at hi
      obtain ⟨c, h1, h2⟩ := r4 i (hperm.mem_iff.mpr (by simpa using (List.getElem?_eq_some_iff.mp hi.1).1))
      rw [hi.2] at h1
      injection h1 with h1
      omega
    · rw [List.map_fst_zip (by omega)]
  · rw [← hmax]
    split <;> omega
  · have hload : ∀ c, c < nCpu → load (((blocks.zip cpu).filter (fun p => p.2 == c)).map (·.1)) ∈ loads := by
      intro c hc'
      rw [load_bucket _ _ r3, sum_perm_load _ _ hperm.symm]
      exact List.mem_of_getElem? (r5 c hc')
    intro j hj j' hj'
    obtain ⟨c, hcm, rfl⟩ := List.mem_map.mp hj
    obtain ⟨c', hcm', rfl⟩ := List.mem_map.mp hj'
    exact r6 _ (hload c (by simpa using hcm)) _ (hload c' (by simpa using hcm'))

/-- the blocks of a level that hold position `i` -/
theorem count_blocks {float : Bool} {max : Nat} {by_ : List Val} {n i : Nat} (hi : i < n) {ns : List (List Val × Nat)} {mss : List (List Nat)}
    (h : List.Forall₂ (fun p ms => ms.sum = p.2 ∧ ∀ m ∈ ms, 0 < m ∧ m ≤ max) ns mss) : (ns.map (·.1)).Nodup → (by_, n) ∈ ns →
    ((List.zipWith (fun p ms => blocksOf float p.1 ms) ns mss).flatten.filter (fun b => b.by_ == by_ && (decide (b.start ≤ i) && decide (i < b.stop)))).length = 1 := by
  have hz : ∀ {ns : List (List Val × Nat)} {mss : List (List Nat)}, List.Forall₂ (fun p ms => ms.sum = p.2 ∧ ∀ m ∈ ms, 0 < m ∧ m ≤ max) ns mss → by_ ∉ ns.map (·.1) →
      (List.zipWith (fun p ms => blocksOf float p.1 ms) ns mss).flatten.filter (fun b => b.by_ == by_ && (decide (b.start ≤ i) && decide (i < b.stop))) = [] := by
    intro ns mss h
    induction h with
    | nil => intro _; rfl
    | @cons p ms ns mss _ _ ih =>
      intro hn
      rw [List.map_cons, List.mem_cons, not_or] at hn
      rw [List.zipWith_cons_cons, List.flatten_cons, List.filter_append, ih hn.2, List.append_nil, List.filter_eq_nil_iff]
      intro b hb
      unfold blocksOf at hb
      obtain ⟨q, -, rfl⟩ := List.mem_map.mp hb
      have : (p.1 == by_) = false := by rw [beq_eq_false_iff_ne]; exact Ne.symm hn.1
      simp [this]
  induction h with
  | nil => intro _ hm; cases hm
  | @cons p ms ns mss hp hF ih =>
    intro hnd hm
    rw [List.map_cons, List.nodup_cons] at hnd
    rw [List.zipWith_cons_cons, List.flatten_cons, List.filter_append, List.length_append]
    rcases List.mem_cons.mp hm with rfl | hm
    · rw [hz hF hnd.1, List.length_nil, Nat.add_zero]
      have := intervals_unique ms 0 i (by omega) (by rw [hp.1]; dsimp only; omega)
      rw [← this]
      unfold blocksOf
      rw [List.filter_map, List.length_map]
      congr 1
      apply List.filter_congr
      intro q _
      simp
    · have h0 : (blocksOf float p.1 ms).filter (fun b => b.by_ == by_ && (decide (b.start ≤ i) && decide (i < b.stop))) = [] := by
        rw [List.filter_eq_nil_iff]
        intro b hb
        unfold blocksOf at hb
        obtain ⟨q, -, rfl⟩ := List.mem_map.mp hb
        have : (p.1 == by_) = false := by
          rw [beq_eq_false_iff_ne]
          intro he
          exact hnd.1 (he ▸ List.mem_map_of_mem (f := (·.1)) hm)
        simp [this]
      rw [h0, List.length_nil, Nat.zero_add]
      exact ih hnd.2 hm

theorem mem_blocks {float : Bool} {max : Nat} {b : Block} {ns : List (List Val × Nat)} {mss : List (List Nat)}
    (h : List.Forall₂ (fun p ms => ms.sum = p.2 ∧ ∀ m ∈ ms, 0 < m ∧ m ≤ max) ns mss) (hb : b ∈ (List.zipWith (fun p ms => blocksOf float p.1 ms) ns mss).flatten) :
    ∃ n, (b.by_, n) ∈ ns ∧ b.start < b.stop ∧ b.stop ≤ n ∧ b.float = float := by
  have hlt := (blocks_size_le h b hb).1
  induction h with
  | nil => cases hb
  | @cons p ms ns mss hp hF ih =>
    rw [List.zipWith_cons_cons, List.flatten_cons, List.mem_append] at hb
    rcases hb with hb | hb
    · unfold blocksOf at hb
      obtain ⟨q, hq, rfl⟩ := List.mem_map.mp hb
      have := intervals_bounds ms 0 q hq
      dsimp only at hlt ⊢
      refine ⟨p.2, by simp, by omega, by omega, rfl⟩
    · obtain ⟨n, h1, h2⟩ := ih hb
      exact ⟨n, by simp [h1], h2⟩

end ABX.Distances
