import Verif.Proofs.Jobs2
import Verif.Properties.TaskWitness
/-!
Properties C22 and C23: the jobs of `create_distance_jobs`.

The hypothesis on `argsort` (a permutation that sorts) is the contract of `np.argsort`; the order of equal sizes is left open.
-/
namespace ABX.Distances
open ExtSort ABX.Task Pairs

/-- the number of pairs of a level according to the attributes of `unique_pairs` -/
def Spec.pairsOfLevel (P : PairFile) (by_ : List Val) : Nat :=
  match P.attrs.lookup by_ with
  | some (_, start, stop) => (stop - start).toNat
  | none => 0

/-- the number of pairs of all levels -/
def Spec.total (P : PairFile) (bys : List (List Val)) : Nat := (bys.map (Spec.pairsOfLevel P)).sum

/-- the blocks, over all jobs, that hold the pair at position `i` of level `by_` -/
def Spec.holders (jobs : List (List Block)) (by_ : List Val) (i : Nat) : List Block :=
  jobs.flatten.filter (fun b => b.by_ == by_ && (decide (b.start ≤ i) && decide (i < b.stop)))

/-- the number of pairs given to a job -/
def Spec.jobLoad (job : List Block) : Nat := (job.map (fun b => b.stop - b.start)).sum

private theorem ns_keys {P : PairFile} {bys : List (List Val)} {ns : List (List Val × Nat)}
    (h : List.Forall₂ (fun b p => p.1 = b ∧ ∃ base start stop, P.attrs.lookup b = some (base, start, stop) ∧ p.2 = (stop - start).toNat) bys ns) :
    ns = bys.map (fun b => (b, Spec.pairsOfLevel P b)) := by
  induction h with
  | nil => rfl
  | @cons b p bs ps hp _ ih =>
    obtain ⟨h1, base, start, stop, h2, h3⟩ := hp
    rw [List.map_cons, ← ih]
    congr 1
    unfold Spec.pairsOfLevel
    rw [h2]
    exact Prod.ext h1 h3

/-- C22. For every table of pairs, every list of distinct levels and every number of cpus, `create_distance_jobs` returns one job for each cpu; every pair
of every level is in exactly one block of exactly one job; every block lies within the pairs of its level and is not empty. -/
theorem C22_tiling {argsort : List Int → List Nat} (hs : ArgsortLaw argsort) (bys : List (List Val)) (P : PairFile) (nCpu : Nat) (hc : 0 < nCpu) (hb : bys ≠ [])
    (hd : bys.Nodup) (ha : ∀ b ∈ bys, ∃ v, P.attrs.lookup b = some v) :
    ∃ jobs, createJobs argsort bys P nCpu = .ok jobs ∧ jobs.length = nCpu ∧
      (∀ by_ ∈ bys, ∀ i, i < Spec.pairsOfLevel P by_ → (Spec.holders jobs by_ i).length = 1) ∧
      ∀ job ∈ jobs, ∀ b ∈ job, b.by_ ∈ bys ∧ b.start < b.stop ∧ b.stop ≤ Spec.pairsOfLevel P b.by_ := by
  obtain ⟨jobs, ns, mss, max, float, h1, h2⟩ := createJobs_ok hs hc hb ha
  have hns := ns_keys h2.ns_ok
  refine ⟨jobs, h1, h2.length, ?_, ?_⟩
  · intro by_ hby i hi
    unfold Spec.holders
    rw [(h2.perm.filter _).length_eq]
    apply count_blocks hi h2.mss_ok
    · rw [hns, List.map_map]
      simpa [Function.comp_def] using hd
    · rw [hns]
      exact List.mem_map.mpr ⟨by_, hby, rfl⟩
  · intro job hj b hbj
    obtain ⟨n, m1, m2, m3, -⟩ := mem_blocks h2.mss_ok (h2.perm.mem_iff.mp (List.mem_flatten.mpr ⟨job, hj, hbj⟩))
    rw [hns] at m1
    obtain ⟨by_, q1, q2⟩ := List.mem_map.mp m1
    injection q2 with q2 q3
    subst q2
    exact ⟨q1, m2, by omega⟩

/-- C22, the errors: without any level, and without any cpu, an exception is raised. -/
theorem C22_errors (argsort : List Int → List Nat) (P : PairFile) :
    (∀ nCpu, ∃ e, createJobs argsort [] P nCpu = .error e) ∧ ∀ bys, ∃ e, createJobs argsort bys P 0 = .error e := by
  refine ⟨fun nCpu => ⟨_, rfl⟩, fun bys => ?_⟩
  unfold createJobs
  split
  · exact ⟨_, rfl⟩
  · exact ⟨_, rfl⟩

private theorem load_sum (jobs : List (List Block)) : (jobs.map Spec.jobLoad).sum = (jobs.flatten.map (fun b => b.stop - b.start)).sum := by
  induction jobs with
  | nil => rfl
  | cons j js ih => rw [List.map_cons, List.sum_cons, ih, List.flatten_cons, List.map_append, List.sum_append]; rfl

private theorem blocks_sum {float : Bool} {max : Nat} {ns : List (List Val × Nat)} {mss : List (List Nat)}
    (h : List.Forall₂ (fun p ms => ms.sum = p.2 ∧ ∀ m ∈ ms, 0 < m ∧ m ≤ max) ns mss) :
    ((List.zipWith (fun p ms => blocksOf float p.1 ms) ns mss).flatten.map (fun b => b.stop - b.start)).sum = (ns.map (·.2)).sum := by
  induction h with
  | nil => rfl
  | @cons p ms ns mss hp _ ih => rw [List.zipWith_cons_cons, List.flatten_cons, List.map_append, List.sum_append, ih, blocksOf_size, hp.1, List.map_cons, List.sum_cons]

private theorem mul_le_sum {l : List Nat} {m x : Nat} (h : ∀ y ∈ l, x ≤ y + m) : l.length * x ≤ l.sum + l.length * m := by
  induction l with
  | nil => simp
  | cons y ys ih =>
    have h1 := h y (by simp)
    have h2 := ih (fun z hz => h z (by simp [hz]))
    rw [List.length_cons, List.sum_cons, Nat.succ_mul, Nat.succ_mul]
    omega

/-- C23. No block is larger than `ceil(total / n_cpu)` nor than the buffer; all pairs are given out; the numbers of pairs of two jobs differ by at most
that size; so no job has more than the mean plus one such block. -/
theorem C23_balance {argsort : List Int → List Nat} (hs : ArgsortLaw argsort) (bys : List (List Val)) (P : PairFile) (nCpu : Nat) (hc : 0 < nCpu) (hb : bys ≠ [])
    (ha : ∀ b ∈ bys, ∃ v, P.attrs.lookup b = some v) :
    ∃ jobs, createJobs argsort bys P nCpu = .ok jobs ∧ (jobs.map Spec.jobLoad).sum = Spec.total P bys ∧
      (∀ job ∈ jobs, ∀ b ∈ job, nCpu * (b.stop - b.start) < Spec.total P bys + nCpu ∧ b.stop - b.start ≤ 12500000) ∧
      (∀ j ∈ jobs, ∀ j' ∈ jobs, nCpu * Spec.jobLoad j < nCpu * Spec.jobLoad j' + Spec.total P bys + nCpu) ∧
      ∀ j ∈ jobs, nCpu * Spec.jobLoad j < 2 * Spec.total P bys + nCpu := by
  obtain ⟨jobs, ns, mss, max, float, h1, h2⟩ := createJobs_ok hs hc hb ha
  have hns := ns_keys h2.ns_ok
  have htot : (ns.map (·.2)).sum = Spec.total P bys := by
    rw [hns, List.map_map]; rfl
  have hsum : (jobs.map Spec.jobLoad).sum = Spec.total P bys := by
    rw [load_sum, (h2.perm.map _).sum_nat, blocks_sum h2.mss_ok, htot]
  obtain ⟨hm1, hm2⟩ := h2.max_le
  rw [htot] at hm1
  have hmax : nCpu * max < Spec.total P bys + nCpu := by
    have := Nat.mul_le_mul_left nCpu hm1
    have := Nat.mul_div_le (Spec.total P bys + nCpu - 1) nCpu
    omega
  refine ⟨jobs, h1, hsum, ?_, ?_, ?_⟩
  · intro job hj b hbj
    have := (blocks_size_le h2.mss_ok b (h2.perm.mem_iff.mp (List.mem_flatten.mpr ⟨job, hj, hbj⟩))).2
    have h3 := Nat.mul_le_mul_left nCpu this
    unfold bufferMax at hm2
    exact ⟨by omega, by omega⟩
  · intro j hj j' hj'
    have := Nat.mul_le_mul_left nCpu (h2.balance j hj j' hj')
    rw [Nat.mul_add] at this
    change nCpu * load j < nCpu * load j' + _ + _
    omega
  · intro j hj
    have := mul_le_sum (l := jobs.map Spec.jobLoad) (m := max) (x := Spec.jobLoad j) (by
      intro y hy
      obtain ⟨j', hj', rfl⟩ := List.mem_map.mp hy
      exact h2.balance j hj j' hj')
    rw [List.length_map, h2.length, hsum] at this
    omega

/-- example of C22, C23: levels of 5, 0 and 2 pairs on two cpus: blocks of at most 4 pairs -/
def jobsTable : PairFile := { data := [0, 1, 2, 3, 4, 5, 6], attrs := [([.int 0], 4, 0, 5), ([.int 1], 1, 5, 5), ([.int 2], 2, 5, 7)] }

example : createJobs insArgsort [[.int 0], [.int 1], [.int 2]] jobsTable 2 =
    .ok [[⟨[.int 0], 0, 4, false⟩], [⟨[.int 0], 4, 5, false⟩, ⟨[.int 2], 0, 2, false⟩]] := by decide +kernel

#print axioms C22_tiling
#print axioms C22_errors
#print axioms C23_balance

end ABX.Distances
