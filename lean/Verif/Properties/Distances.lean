import Verif.Proofs.Workers4
import Verif.Properties.Jobs
/-!
Properties C24, C25, C26 and C27: the concurrent computation of the distances.

`Steps I load sync s s'`: some execution leads from `s` to `s'`; its steps are those of the processes, in any order, the killing of any process at any point (a
process killed while it writes may leave any part of its block in the file), and those of the calling process.  `Calms n`: executions of `n` steps without killing.
`RowOK I k d`: `d` is the distance that row `k` should hold (Spec/Distances.lean).
-/
namespace ABX.Distances
open ExtSort ABX.Task Pairs
variable {ρ φ δ : Type}

/-- the blocks lie in the table -/
private theorem blocks_in {argsort : List Int → List Nat} (hs : ArgsortLaw argsort) {bys : List (List Val)} {P : PairFile} (hT : Tiled P bys) {nCpu : Nat} {jobs : List (List Block)}
    (hj : createJobs argsort bys P nCpu = .ok jobs) : ∀ job ∈ jobs, ∀ b ∈ job, BlockIn P b := by
  have hc : 0 < nCpu := by
    rcases Nat.eq_zero_or_pos nCpu with rfl | h
    · unfold createJobs at hj
      rw [if_neg hT.ne, if_pos rfl] at hj
      cases hj
    · exact h
  obtain ⟨jobs', h1, h2, h3, h4⟩ := C22_tiling hs bys P nCpu hc hT.ne hT.nodup (fun b hb => by obtain ⟨x, y, z, h⟩ := hT.levels b hb; exact ⟨_, h.attr⟩)
  rw [hj] at h1
  cases h1
  intro job hjob b hb
  obtain ⟨m1, m2, m3⟩ := h4 job hjob b hb
  obtain ⟨base, start, stop, hL⟩ := hT.levels b.by_ m1
  unfold Spec.pairsOfLevel at m3
  rw [hL.attr] at m3
  exact ⟨base, start, stop, hL, by omega, m3⟩

/-- a row has only one right value -/
theorem RowOK.unique {I : Inputs ρ φ δ} {bys : List (List Val)} (hT : Tiled I.pairs bys) {k : Nat} {d d' : δ} (h : RowOK I k d) (h' : RowOK I k d') : d = d' := by
  obtain ⟨b, base, start, stop, db, A, X, rA, rX, fA, fX, a1, a2, a3, a4, a5, a6, a7, a8, a9, a10, a11⟩ := h
  obtain ⟨b', base', start', stop', db', A', X', rA', rX', fA', fX', b1, b2, b3, b4, b5, b6, b7, b8, b9, b10, b11⟩ := h'
  have hbb := hT.disjoint _ _ _ _ _ _ _ _ a1 b1 k a2 a3 b2 b3
  subst hbb
  rw [a1] at b1
  injection b1 with b1
  injection b1 with b1 b1'
  subst b1
  rw [a6] at b6
  cases b6
  rw [a4] at b4
  injection b4 with b4
  have b4 : A + base * X = A' + base * X' := by exact_mod_cast b4
  have hA : A = A' := by
    have h1 : (A + base * X) % base = A := by rw [Nat.add_mul_mod_self_left, Nat.mod_eq_of_lt a5]
    have h2 : (A' + base * X') % base = A' := by rw [Nat.add_mul_mod_self_left, Nat.mod_eq_of_lt b5]
    rw [← h1, b4, h2]
  subst hA
  have hX : X = X' := by
    have : base * X = base * X' := by omega
    exact Nat.eq_of_mul_eq_mul_left (by omega) this
  subst hX
  rw [a7] at b7; cases b7
  rw [a8] at b8; cases b8
  rw [a9] at b9; cases b9
  rw [a10] at b10; cases b10
  rw [a11] at b11; cases b11
  rfl

/-- every pair is in a block -/
private theorem rows_done {argsort : List Int → List Nat} (hs : ArgsortLaw argsort) {bys : List (List Val)} {I : Inputs ρ φ δ} (hT : Tiled I.pairs bys) {nCpu : Nat} {jobs : List (List Block)}
    (hj : createJobs argsort bys I.pairs nCpu = .ok jobs) {rows : List δ} (h : ∀ job ∈ jobs, ∀ b ∈ job, BlockDone I rows b) : ∀ k, k < I.pairs.data.length → Good I rows k := by
  have hc : 0 < nCpu := by
    rcases Nat.eq_zero_or_pos nCpu with rfl | h
    · unfold createJobs at hj
      rw [if_neg hT.ne, if_pos rfl] at hj
      cases hj
    · exact h
  obtain ⟨jobs', h1, h2, h3, h4⟩ := C22_tiling hs bys I.pairs nCpu hc hT.ne hT.nodup (fun b hb => by obtain ⟨x, y, z, h⟩ := hT.levels b hb; exact ⟨_, h.attr⟩)
  rw [hj] at h1
  cases h1
  intro k hk
  obtain ⟨b, hb, base, start, stop, q1, q2, q3⟩ := hT.cover k hk
  obtain ⟨base', start', stop', hL⟩ := hT.levels b hb
  have hat := hL.attr
  rw [q1] at hat
  injection hat with hat
  injection hat with e1 e2
  injection e2 with e2 e3
  subst e1 e2 e3
  have hle := hL.le
  have h5 := h3 b hb (k - start.toNat) (by unfold Spec.pairsOfLevel; rw [q1]; dsimp only; omega)
  obtain ⟨blk, hblk⟩ : ∃ x, x ∈ Spec.holders jobs b (k - start.toNat) := List.exists_mem_of_length_pos (by omega)
  unfold Spec.holders at hblk
  obtain ⟨m1, m2⟩ := List.mem_filter.mp hblk
  obtain ⟨job, m3, m4⟩ := List.mem_flatten.mp m1
  simp at m2
  obtain ⟨m2, m5, m6⟩ := m2
  exact h job m3 blk m4 base start stop (by rw [m2, q1]) k (by omega) (by omega)

/-- C24: whenever `compute_distances` returns, every row `k` of distances/data is the distance between the items A and X of the pair `k`, A + base * X, in this order; so that two
executions of the same or of different numbers of processes, in whatever order, give the same file. -/
theorem C24_any_schedule {argsort argsort' : List Int → List Nat} (hs : ArgsortLaw argsort) (hs' : ArgsortLaw argsort') {bys : List (List Val)} {I : Inputs ρ φ δ} (hT : Tiled I.pairs bys)
    {nCpu nCpu' : Nat} {jobs jobs' : List (List Block)} (hj : createJobs argsort bys I.pairs nCpu = .ok jobs) (hj' : createJobs argsort' bys I.pairs nCpu' = .ok jobs')
    {load load' : Except Err Unit} {zero : δ} {s s' : State ρ δ}
    (h : Steps I load (decide (1 < nCpu)) (begin zero I.pairs.data.length jobs) s) (hr : s.main = .returned)
    (h' : Steps I load' (decide (1 < nCpu')) (begin zero I.pairs.data.length jobs') s') (hr' : s'.main = .returned) :
    (s.rows.length = I.pairs.data.length ∧ ∀ k, k < I.pairs.data.length → ∃ d, s.rows[k]? = some d ∧ RowOK I k d) ∧ s'.rows = s.rows := by
  have hi := (Inv.begin I zero jobs).steps (blocks_in hs hT hj) h
  have hi' := (Inv.begin I zero jobs').steps (blocks_in hs' hT hj') h'
  have hg := rows_done hs hT hj (hi.main (.inr (.inl hr)))
  have hg' := rows_done hs' hT hj' (hi'.main (.inr (.inl hr')))
  refine ⟨⟨hi.length, hg⟩, ?_⟩
  apply List.ext_getElem?
  intro k
  by_cases hk : k < I.pairs.data.length
  · obtain ⟨d, h1, h2⟩ := hg k hk
    obtain ⟨d', h3, h4⟩ := hg' k hk
    rw [h1, h3, h4.unique hT h2]
  · rw [List.getElem?_eq_none (by rw [hi'.length]; omega), List.getElem?_eq_none (by rw [hi.length]; omega)]

/-- what is needed for the computation of the distances to succeed: the items of the pairs exist, and their features and distances can be computed -/
structure Computable (I : Inputs ρ φ δ) (bys : List (List Val)) : Prop where
  feats : ∀ b ∈ bys, ∀ base start stop, I.pairs.attrs.lookup b = some (base, start, stop) → ∃ db, I.feats.lookup b = some db ∧
    (∀ k ∈ npSlice I.pairs.data start.toNat stop.toNat, (k % base).toNat < db.length ∧ (k / base).toNat < db.length) ∧ (∀ r ∈ db, ∃ f, I.getFeat r = .ok f) ∧
    ∀ r ∈ db, ∀ r' ∈ db, ∀ f g, I.getFeat r = .ok f → I.getFeat r' = .ok g → ∃ d, I.distance f g = .ok d

private theorem feats_total {I : Inputs ρ φ δ} {db : List ρ} (hdb : ∀ r ∈ db, ∃ f, I.getFeat r = .ok f) {inds : List Int} (hi : ∀ i ∈ inds, 0 ≤ i ∧ i.toNat < db.length) :
    ∃ fs, blockFeats I db inds = .ok fs ∧ ∀ i ∈ inds, ∃ f, fs.lookup i = some f ∧ ∃ r ∈ db, I.getFeat r = .ok f := by
  obtain ⟨items, h1, h2⟩ := sequence_exists (f := iloc db) (Q := fun _ r => r ∈ db) (l := inds) (by
    intro i hii
    obtain ⟨h0, hlt⟩ := hi i hii
    refine ⟨db[i.toNat], ?_, List.getElem_mem _⟩
    unfold iloc
    rw [if_pos h0, List.getElem?_eq_getElem hlt])
  obtain ⟨fs, h3, h4⟩ := sequence_exists (f := I.getFeat) (Q := fun r f => r ∈ db ∧ I.getFeat r = .ok f) (l := items) (by
    intro r hr
    obtain ⟨i, -, hdbr⟩ := forall₂_mem_right h2 r hr
    obtain ⟨f, hf⟩ := hdb r hdbr
    exact ⟨f, hf, hdbr, hf⟩)
  have hid : inds.map (fun i => if 0 ≤ i then i else (db.length : Int) + i) = inds := by
    conv_rhs => rw [← List.map_id inds]
    apply List.map_congr_left
    intro i hii
    rw [if_pos (hi i hii).1]
    rfl
  refine ⟨inds.zip fs, ?_, ?_⟩
  · unfold blockFeats
    rw [h1]
    dsimp only
    rw [h3, hid]
  · have hlen : inds.length = fs.length := h2.length_eq.trans h4.length_eq
    have hfs : ∀ f ∈ fs, ∃ r ∈ db, I.getFeat r = .ok f := fun f hf => by
      obtain ⟨r, -, h5, h6⟩ := forall₂_mem_right h4 f hf
      exact ⟨r, h5, h6⟩
    clear h1 h2 h3 h4 hid hi
    induction inds generalizing fs with
    | nil => intro i hi; cases hi
    | cons a inds ih =>
      cases fs with
      | nil => simp at hlen
      | cons f fs =>
        intro i hi
        rw [List.zip_cons_cons, List.lookup_cons]
        by_cases hia : i = a
        · subst hia; exact ⟨f, by simp, hfs f (by simp)⟩
        · have : (i == a) = false := by simpa using hia
          rw [this]
          exact ih fs (by simpa using hlen) (fun f hf => hfs f (by simp [hf])) i ((List.mem_cons.mp hi).resolve_left hia)

private theorem block_total {I : Inputs ρ φ δ} {bys : List (List Val)} (hC : Computable I bys) {b : Block} (hb : BlockIn I.pairs b) (hm : b.by_ ∈ bys) (hf : b.float = false) :
    ∃ r dis, readBlock I b = .ok r ∧ computeBlock I r.1 r.2.2.1 r.2.2.2 = .ok dis := by
  obtain ⟨base, start, stop, hL, hle, hst⟩ := hb
  obtain ⟨l1, l2, l3⟩ := hL.le
  obtain ⟨db, d1, d2, d3, d4⟩ := hC.feats _ hm _ _ _ hL.attr
  have hsub : ∀ k ∈ npSlice I.pairs.data (start.toNat + b.start) (start.toNat + b.stop), k ∈ npSlice I.pairs.data start.toNat stop.toNat := by
    intro k hk
    obtain ⟨j, hj⟩ := List.getElem?_of_mem hk
    have hj' := (List.getElem?_eq_some_iff.mp hj).1
    rw [npSlice_length_of _ (by omega)] at hj'
    rw [npSlice_getElem _ (by omega)] at hj
    apply List.mem_of_getElem? (i := b.start + j)
    rw [npSlice_getElem _ (by omega), ← hj]
    congr 1
    omega
  have hb' : (0 : Int) < base := by have := hL.pos; omega
  obtain ⟨fs, f1, f2⟩ := feats_total (I := I) d3 (inds := npUnique ((npSlice I.pairs.data (start.toNat + b.start) (start.toNat + b.stop)).map (· % (base : Int)) ++
      (npSlice I.pairs.data (start.toNat + b.start) (start.toNat + b.stop)).map (· / (base : Int)))) (by
    intro i hi
    rw [mem_npUnique, List.mem_append, List.mem_map, List.mem_map] at hi
    rcases hi with ⟨k, hk, rfl⟩ | ⟨k, hk, rfl⟩
    · exact ⟨Int.emod_nonneg _ (by omega), (d2 k (hsub k hk)).1⟩
    · exact ⟨Int.ediv_nonneg (hL.keys k (hsub k hk)) (by omega), (d2 k (hsub k hk)).2⟩)
  obtain ⟨dis, h1, -⟩ := sequence_exists (f := pairDist I base fs) (Q := fun _ _ => True) (l := npSlice I.pairs.data (start.toNat + b.start) (start.toNat + b.stop)) (by
    intro k hk
    obtain ⟨fA, a1, rA, a3, a4⟩ := f2 (k % base) (by rw [mem_npUnique, List.mem_append]; exact .inl (List.mem_map.mpr ⟨k, hk, rfl⟩))
    obtain ⟨fX, a2, rX, a5, a6⟩ := f2 (k / base) (by rw [mem_npUnique, List.mem_append]; exact .inr (List.mem_map.mpr ⟨k, hk, rfl⟩))
    obtain ⟨d, hd⟩ := d4 rA a3 rX a5 fA fX a4 a6
    refine ⟨d, ?_, trivial⟩
    unfold pairDist
    rw [a1, a2]
    exact hd)
  refine ⟨(db, start.toNat, base, npSlice I.pairs.data (start.toNat + b.start) (start.toNat + b.stop)), dis, ?_, ?_⟩
  · unfold readBlock
    rw [d1]
    dsimp only
    rw [hL.attr]
    dsimp only
    rw [if_neg (by rw [hf]; simp)]
  · unfold computeBlock
    dsimp only
    rw [f1]
    exact h1

/-- C24: when features and distances can be computed and every level has at most 12500000 pairs, no execution raises an exception or gets stuck: every execution without killing can be
continued until `compute_distances` returns, and has at most 8 * (blocks + jobs) + 2 steps.  Missing: larger levels (`C24_violated`). -/
theorem C24_completes_partial {argsort : List Int → List Nat} (hs : ArgsortLaw argsort) {bys : List (List Val)} {I : Inputs ρ φ δ} (hT : Tiled I.pairs bys) (hC : Computable I bys)
    (hsz : ∀ b ∈ bys, Spec.pairsOfLevel I.pairs b ≤ 12500000) {nCpu : Nat} {jobs : List (List Block)} (hj : createJobs argsort bys I.pairs nCpu = .ok jobs) (zero : δ) :
    ∀ n s, Calms I (.ok ()) (decide (1 < nCpu)) n (begin zero I.pairs.data.length jobs) s →
      n ≤ 8 * jobs.flatten.length + 8 * jobs.length + 2 ∧ (s.main = .returned ∨ ∃ s', Calm I (.ok ()) (decide (1 < nCpu)) s s') := by
  have hin := blocks_in hs hT hj
  have hread : ∀ job ∈ jobs, ∀ b ∈ job, ∃ r dis, readBlock I b = .ok r ∧ computeBlock I r.1 r.2.2.1 r.2.2.2 = .ok dis := by
    have hc : 0 < nCpu := by
      rcases Nat.eq_zero_or_pos nCpu with rfl | h
      · unfold createJobs at hj
        rw [if_neg hT.ne, if_pos rfl] at hj
        cases hj
      · exact h
    obtain ⟨jobs', ns, mss, max, float, h1, h2⟩ := createJobs_ok hs hc hT.ne (fun b hb => by obtain ⟨x, y, z, h⟩ := hT.levels b hb; exact ⟨_, h.attr⟩)
    rw [hj] at h1
    cases h1
    intro job hjob b hb
    obtain ⟨n, m1, -, -, m4⟩ := mem_blocks h2.mss_ok (h2.perm.mem_iff.mp (List.mem_flatten.mpr ⟨job, hjob, hb⟩))
    have hmem : ∀ p ∈ ns, p.1 ∈ bys ∧ p.2 ≤ 12500000 := by
      intro p hp
      obtain ⟨b, hb, hp1, base, start, stop, hp2, hp3⟩ := forall₂_mem_right h2.ns_ok p hp
      subst hp1
      have := hsz _ hb
      unfold Spec.pairsOfLevel at this
      rw [hp2] at this
      exact ⟨hb, by rw [hp3]; exact this⟩
    refine block_total hC (hin job hjob b hb) (hmem _ m1).1 ?_
    rw [m4, h2.float_eq, Bool.and_eq_false_iff]
    right
    rw [List.any_eq_false]
    intro p hp
    have := (hmem p hp).2
    unfold bufferMax
    simpa using this
  intro n s h
  have hrank := h.rank
  rw [begin_rank] at hrank
  refine ⟨by omega, ?_⟩
  have hi := (Inv.begin I zero jobs).steps hin h.steps
  have hh : (∀ w ∈ s.ws, Fine w.phase) ∧ ∀ e, s.main ≠ .raised e := by
    clear hrank hi
    generalize h0 : begin zero I.pairs.data.length jobs = s0 at h
    induction h with
    | refl =>
      subst h0
      refine ⟨?_, fun e h => by cases h⟩
      intro w hw
      obtain ⟨j, -, rfl⟩ := List.mem_map.mp hw
      exact ⟨fun e h => (by cases h), fun h => (by cases h)⟩
    | step h1 h' ih =>
      subst h0
      exact Healthy.step hin hread ((Inv.begin I zero jobs).steps hin h1.steps) (ih rfl) h'
  have hheld : decide (1 < nCpu) = true → Held s := by
    intro hsy
    rw [hsy] at h
    clear hrank hi hh
    generalize h0 : begin zero I.pairs.data.length jobs = s0 at h
    have hf0 : (∀ w ∈ s0.ws, Fine w.phase) ∧ ∀ e, s0.main ≠ .raised e := by
      subst h0
      refine ⟨?_, fun e h => by cases h⟩
      intro w hw
      obtain ⟨j, -, rfl⟩ := List.mem_map.mp hw
      exact ⟨fun e h => (by cases h), fun h => (by cases h)⟩
    suffices hx : Held s ∧ ((∀ w ∈ s.ws, Fine w.phase) ∧ ∀ e, s.main ≠ .raised e) by exact hx.1
    induction h with
    | refl =>
      subst h0
      exact ⟨fun i hi => (by cases hi), hf0⟩
    | step h1 h' ih =>
      subst h0
      have ih := ih rfl hf0
      have hF := Healthy.step hin hread ((Inv.begin I zero jobs).steps hin h1.steps) ih.2 h'
      refine ⟨ih.1.step ((LockOK.begin zero _ jobs).steps h1.steps) h'.step ?_, hF⟩
      intro i w w' _ hw' _
      exact hF.1 w' (List.mem_of_getElem? hw')
  cases hm : s.main with
  | returned => exact .inl rfl
  | raised e => exact absurd hm (hh.2 e)
  | marking =>
    right
    refine ⟨{ s with done := true, main := .returned }, .inr ?_⟩
    unfold stepMain
    rw [hm]
  | running =>
    right
    by_cases hall : s.ws.all Worker.ended = true
    · have hnone : s.ws.findSome? Worker.exception = none := by
        rw [List.findSome?_eq_none_iff]
        intro w hw
        unfold Worker.exception
        split
        · next hp => exact absurd hp ((hh.1 w hw).1 _)
        · rfl
      refine ⟨{ s with main := if decide (1 < nCpu) then .returned else .marking }, .inr ?_⟩
      unfold stepMain
      rw [hm]
      dsimp only
      rw [if_pos hall, hnone]
    · have : ∃ w ∈ s.ws, w.ended = false := by
        by_contra hno
        apply hall
        rw [List.all_eq_true]
        intro w hw
        cases hw' : w.ended with
        | true => rfl
        | false => exact absurd ⟨w, hw, hw'⟩ hno
      obtain ⟨w, hw, hwe⟩ := this
      obtain ⟨i, s', hs'⟩ := progress (ld := .ok ()) hi hheld hw hwe (hh.1 w hw).2
      exact ⟨s', .inl ⟨i, hs'⟩⟩

/-- C24: under the same conditions there is an execution in which `compute_distances` returns. -/
theorem C24_returns_partial {argsort : List Int → List Nat} (hs : ArgsortLaw argsort) {bys : List (List Val)} {I : Inputs ρ φ δ} (hT : Tiled I.pairs bys) (hC : Computable I bys)
    (hsz : ∀ b ∈ bys, Spec.pairsOfLevel I.pairs b ≤ 12500000) {nCpu : Nat} {jobs : List (List Block)} (hj : createJobs argsort bys I.pairs nCpu = .ok jobs) (zero : δ) :
    ∃ n s, Calms I (.ok ()) (decide (1 < nCpu)) n (begin zero I.pairs.data.length jobs) s ∧ s.main = .returned := by
  have hc := C24_completes_partial hs hT hC hsz hj zero
  suffices hx : ∀ m n s, n + m = 8 * jobs.flatten.length + 8 * jobs.length + 3 → Calms I (.ok ()) (decide (1 < nCpu)) n (begin zero I.pairs.data.length jobs) s →
      ∃ n s, Calms I (.ok ()) (decide (1 < nCpu)) n (begin zero I.pairs.data.length jobs) s ∧ s.main = .returned from hx (8 * jobs.flatten.length + 8 * jobs.length + 3) 0 _ (by omega) .refl
  intro m
  induction m with
  | zero => intro n s hn h; have := (hc n s h).1; omega
  | succ m ih =>
    intro n s hn h
    rcases (hc n s h).2 with h' | ⟨s', h'⟩
    · exact ⟨n, s, h, h'⟩
    · exact ih (n + 1) s' (by omega) (.step h h')

/-- C26: after any steps of any execution, wherever processes raised exceptions or were killed, every row is the right distance or the initial value, and the rows of the blocks
that a process has left behind are right. -/
theorem C26_crash {argsort : List Int → List Nat} (hs : ArgsortLaw argsort) {bys : List (List Val)} {I : Inputs ρ φ δ} (hT : Tiled I.pairs bys) {nCpu : Nat} {jobs : List (List Block)}
    (hj : createJobs argsort bys I.pairs nCpu = .ok jobs) {load : Except Err Unit} {sync : Bool} {zero : δ} {s : State ρ δ} (h : Steps I load sync (begin zero I.pairs.data.length jobs) s) :
    s.rows.length = I.pairs.data.length ∧ (∀ (k : Nat) (d : δ), s.rows[k]? = some d → d = zero ∨ RowOK I k d) ∧
    ∀ (i : Nat) (w : Worker ρ δ), s.ws[i]? = some w → ∃ job treated, jobs[i]? = some job ∧ job = treated ++ w.todo ∧ ∀ b ∈ treated, BlockDone I s.rows b := by
  have hi := (Inv.begin I zero jobs).steps (blocks_in hs hT hj) h
  refine ⟨hi.length, hi.rows, ?_⟩
  intro i w hw
  obtain ⟨job, hj', hwj⟩ := forall₂_getElem hi.workers.flip hw
  obtain ⟨⟨pre, h1, h2⟩, -⟩ := hwj
  exact ⟨job, pre, hj', h1, h2⟩

/-- C25: whenever the attribute `done` is True, at any point of any execution, every distance has been written; with one cpu, it is True whenever `compute_distances` has returned.
Missing: with several cpus it stays False (`C25_violated`). -/
theorem C25_done_partial {argsort : List Int → List Nat} (hs : ArgsortLaw argsort) {bys : List (List Val)} {I : Inputs ρ φ δ} (hT : Tiled I.pairs bys) {nCpu : Nat} {jobs : List (List Block)}
    (hj : createJobs argsort bys I.pairs nCpu = .ok jobs) {load : Except Err Unit} {zero : δ} {s : State ρ δ} (h : Steps I load (decide (1 < nCpu)) (begin zero I.pairs.data.length jobs) s) :
    (s.done = true → ∀ k, k < I.pairs.data.length → ∃ d, s.rows[k]? = some d ∧ RowOK I k d) ∧ (nCpu = 1 → s.main = .returned → s.done = true) := by
  have hi := (Inv.begin I zero jobs).steps (blocks_in hs hT hj) h
  refine ⟨fun hd => rows_done hs hT hj (hi.main (.inr (.inr hd))), ?_⟩
  rintro rfl
  clear hi
  generalize h0 : begin zero I.pairs.data.length jobs = s0 at h
  induction h with
  | refl => subst h0; intro h; cases h
  | step h1 h' ih =>
    cases h' with
    | work i ha =>
      unfold advance at ha
      split at ha
      · cases ha
      · split at ha <;> cases ha
        exact ih
    | kill => exact ih
    | main hm =>
      unfold stepMain at hm
      split at hm
      · split at hm
        · split at hm
          · cases hm; intro h; cases h
          · cases hm; intro h; cases h
        · cases hm
      · cases hm; intro _; rfl
      · cases hm

/-- C25, with several cpus: `done` is never True. -/
theorem C25_never {I : Inputs ρ φ δ} {load : Except Err Unit} {n : Nat} {jobs : List (List Block)} {zero : δ} {s : State ρ δ} (h : Steps I load true (begin zero n jobs) s) :
    s.done = false := by
  generalize h0 : begin zero n jobs = s0 at h
  suffices hx : s.done = false ∧ s.main ≠ .marking by exact hx.1
  induction h with
  | refl => subst h0; exact ⟨rfl, fun h => by cases h⟩
  | step h1 h' ih =>
    cases h' with
    | work i ha =>
      unfold advance at ha
      split at ha
      · cases ha
      · split at ha <;> cases ha
        exact ih
    | kill => exact ih
    | main hm =>
      unfold stepMain at hm
      split at hm
      · split at hm
        · split at hm
          · cases hm; exact ⟨ih.1, fun h => by cases h⟩
          · cases hm; exact ⟨ih.1, fun h => by cases h⟩
        · cases hm
      · next hmk => exact absurd hmk ih.2
      · cases hm

/-- C25 is violated with several cpus: for every computable table, `compute_distances` can return with all distances written and `done` False. -/
theorem C25_violated {argsort : List Int → List Nat} (hs : ArgsortLaw argsort) {bys : List (List Val)} {I : Inputs ρ φ δ} (hT : Tiled I.pairs bys) (hC : Computable I bys)
    (hsz : ∀ b ∈ bys, Spec.pairsOfLevel I.pairs b ≤ 12500000) {nCpu : Nat} (hc : 1 < nCpu) {jobs : List (List Block)} (hj : createJobs argsort bys I.pairs nCpu = .ok jobs) (zero : δ) :
    ∃ s, Steps I (.ok ()) true (begin zero I.pairs.data.length jobs) s ∧ s.main = .returned ∧ s.done = false ∧ ∀ k, k < I.pairs.data.length → ∃ d, s.rows[k]? = some d ∧ RowOK I k d := by
  obtain ⟨n, s, h1, h2⟩ := C24_returns_partial hs hT hC hsz hj zero
  have h3 := (C24_any_schedule hs hs hT hj hj h1.steps h2 h1.steps h2).1.2
  rw [decide_eq_true hc] at h1
  exact ⟨s, h1.steps, h2, C25_never h1.steps, h3⟩

/-- C25: a second run on the same distance file raises an exception, but only after `done` was set to False: the complete file is not marked any more. -/
theorem C25_rerun (zero : δ) (n : Nat) (done : Bool) (rows : List δ) :
    (createOutput zero n (some (done, rows))).2 = .error .valueError ∧ (createOutput zero n (some (done, rows))).1 = (false, rows) := ⟨rfl, rfl⟩

/-- C27: at most one process is between an acquire and the following release, at any point of any execution. -/
theorem C27_exclusion {I : Inputs ρ φ δ} {load : Except Err Unit} {n : Nat} {jobs : List (List Block)} {zero : δ} {s : State ρ δ} (h : Steps I load true (begin zero n jobs) s)
    (i j : Nat) (w v : Worker ρ δ) (hw : s.ws[i]? = some w) (hv : s.ws[j]? = some v) (hcw : w.phase.critical = true) (hcv : v.phase.critical = true) : i = j := by
  have hl := (LockOK.begin zero n jobs).steps h
  have h1 := hl i w hw hcw
  have h2 := hl j v hv hcv
  rw [h1] at h2
  injection h2

/-- C27: as long as no process fails or is killed between an acquire and the following release, whatever fails elsewhere, some process can make a step unless every process
has ended or been killed.  Missing: failures inside these sections (`C27_violated`). -/
theorem C27_progress_partial {argsort : List Int → List Nat} (hs : ArgsortLaw argsort) {bys : List (List Val)} {I : Inputs ρ φ δ} (hT : Tiled I.pairs bys) {nCpu : Nat}
    {jobs : List (List Block)} (hj : createJobs argsort bys I.pairs nCpu = .ok jobs) {load : Except Err Unit} {zero : δ} {s : State ρ δ}
    (h : SafeSteps I load (begin zero I.pairs.data.length jobs) s) :
    (∀ w ∈ s.ws, w.ended = true ∨ w.phase = .dead) ∨ ∃ i s', advance I load true i s = some s' := by
  have hi := (Inv.begin I zero jobs).steps (blocks_in hs hT hj) h.steps
  have hh := h.held (LockOK.begin zero _ jobs) (fun i hi => by cases hi)
  by_cases hall : ∀ w ∈ s.ws, w.ended = true ∨ w.phase = .dead
  · exact .inl hall
  · right
    push Not at hall
    obtain ⟨w, hw, h1, h2⟩ := hall
    exact progress hi (fun _ => hh) hw (by simpa using h1) h2

/-- C27: every execution has at most 8 * (blocks + jobs) + 2 steps, not counting killings. -/
theorem C27_termination {I : Inputs ρ φ δ} {load : Except Err Unit} {sync : Bool} {n m : Nat} {jobs : List (List Block)} {zero : δ} {s : State ρ δ}
    (h : Calms I load sync m (begin zero n jobs) s) : m ≤ 8 * jobs.flatten.length + 8 * jobs.length + 2 := by
  have := h.rank
  rw [begin_rank] at this
  omega

/-- a level of 25000001 pairs: those of 5001 items -/
def bigTable : PairFile := { data := (List.range 25000001).map (fun n : Nat => (n : Int)), attrs := [([.int 0], 5001, 0, 25000001)] }

private theorem big_one : createJobs insArgsort [[.int 0]] bigTable 1 = .ok [[⟨[.int 0], 0, 12500000, true⟩, ⟨[.int 0], 12500000, 25000000, true⟩, ⟨[.int 0], 25000000, 25000001, true⟩]] := by
  decide +kernel

private theorem big_two : createJobs insArgsort [[.int 0]] bigTable 2 = .ok [[⟨[.int 0], 12500000, 25000000, true⟩, ⟨[.int 0], 25000000, 25000001, true⟩], [⟨[.int 0], 0, 12500000, true⟩]] := by
  decide +kernel

/-- C24 is violated by large levels: the limit on the size of a block is a float (python 3), which is then used in slices.  Whatever the features and the distance, no row is ever
written and `compute_distances` never returns normally. -/
theorem C24_violated {I : Inputs ρ φ δ} (hI : I.pairs = bigTable) : ∃ jobs, createJobs insArgsort [[.int 0]] I.pairs 1 = .ok jobs ∧
    ∀ {load : Except Err Unit} {zero : δ} {s : State ρ δ}, Steps I load false (begin zero 25000001 jobs) s → s.rows = List.replicate 25000001 zero ∧ s.main ≠ .returned := by
  rw [hI]
  refine ⟨_, big_one, ?_⟩
  intro load zero s h
  have hF := Floats.steps (by simp) h
  exact ⟨hF.rows, (hF.main ⟨_, List.mem_singleton.mpr rfl, List.cons_ne_nil _ _⟩).2⟩

/-- C27 is violated: with the same table on two cpus the first process that reads raises this exception (TypeError) while it holds the lock.  The other process waits for ever, and
`compute_distances` with it: no step is possible although one process has not ended, and none was killed. -/
theorem C27_violated {I : Inputs ρ φ δ} (hI : I.pairs = bigTable) {items : List ρ} (hfe : I.feats.lookup [.int 0] = some items) (zero : δ) :
    ∃ jobs, createJobs insArgsort [[.int 0]] I.pairs 2 = .ok jobs ∧ ∃ n s, Calms I (.ok ()) true n (begin zero 25000001 jobs) s ∧
      (∃ w ∈ s.ws, w.ended = false ∧ w.phase ≠ .dead) ∧ (∀ s', ¬ Calm I (.ok ()) true s s') := by
  rw [hI]
  refine ⟨_, big_two, ?_⟩
  generalize hj1 : ([⟨[.int 0], 12500000, 25000000, true⟩, ⟨[.int 0], 25000000, 25000001, true⟩] : List Block) = j1
  generalize hj2 : ([⟨[.int 0], 0, 12500000, true⟩] : List Block) = j2
  generalize hrows : List.replicate 25000001 zero = rows
  have hb : begin (ρ := ρ) zero 25000001 [j1, j2] = ⟨none, [⟨j1, .start⟩, ⟨j2, .start⟩], rows, false, .running⟩ := by rw [← hrows]; rfl
  have hr : readBlock I ⟨[.int 0], 12500000, 25000000, true⟩ = .error .typeError := by
    unfold readBlock
    dsimp only
    rw [hfe, hI]
    dsimp only
    have : bigTable.attrs.lookup [.int 0] = some (5001, 0, 25000001) := by decide +kernel
    rw [this]
    rfl
  refine ⟨4, ⟨some 0, [⟨j1, .failed .typeError⟩, ⟨j2, .ready⟩], rows, false, .running⟩, ?_, ⟨⟨j2, .ready⟩, by simp, by rw [← hj2]; rfl, fun h => by cases h⟩, ?_⟩
  · rw [hb]
    refine .step (s' := ⟨some 0, [⟨j1, .reading⟩, ⟨j2, .ready⟩], rows, false, .running⟩) ?_ (.inl ⟨0, ?_⟩)
    · refine .step (s' := ⟨none, [⟨j1, .ready⟩, ⟨j2, .ready⟩], rows, false, .running⟩) ?_ (.inl ⟨0, ?_⟩)
      · refine .step (s' := ⟨none, [⟨j1, .ready⟩, ⟨j2, .start⟩], rows, false, .running⟩) ?_ (.inl ⟨1, rfl⟩)
        exact .step .refl (.inl ⟨0, rfl⟩)
      · subst hj1; rfl
    · subst hj1
      unfold advance stepWorker
      simp only [List.getElem?_cons_zero]
      rw [hr]
      rfl
  · rintro s' (⟨i, h⟩ | h)
    · unfold advance at h
      rcases i with _ | _ | i
      · subst hj1; cases h
      · subst hj2; cases h
      · cases h
    · unfold stepMain at h
      subst hj2
      cases h

theorem mem_of_lookup {α β : Type} [BEq α] [LawfulBEq α] {k : α} {v : β} : ∀ {l : List (α × β)}, l.lookup k = some v → (k, v) ∈ l
  | [], h => by simp at h
  | (a, b) :: l, h => by
    rw [List.lookup_cons] at h
    by_cases hk : k = a
    · subst hk; simp at h; simp [h]
    · have : (k == a) = false := by simpa using hk
      rw [this] at h
      exact List.mem_cons_of_mem _ (mem_of_lookup h)

/-- example: three levels (one of them without pairs), the features of an item are its number, and the distance is not symmetric -/
def exInputs : Inputs Nat Nat Int :=
  { pairs := jobsTable, feats := [([.int 0], [10, 11, 12, 13]), ([.int 1], [20]), ([.int 2], [30, 31, 32, 33])], getFeat := fun r => .ok r, distance := fun x y => .ok ((x : Int) - 2 * y) }

theorem exTiled : Tiled exInputs.pairs [[.int 0], [.int 1], [.int 2]] where
  ne := by simp
  nodup := by decide
  levels := by
    intro b hb
    simp at hb
    rcases hb with rfl | rfl | rfl
    · exact ⟨4, 0, 5, by decide +kernel, by decide, by decide, by decide⟩
    · exact ⟨1, 5, 5, by decide +kernel, by decide, by decide, by decide⟩
    · exact ⟨2, 5, 7, by decide +kernel, by decide, by decide, by decide⟩
  cover := by
    intro k hk
    have hk : k < 7 := hk
    by_cases h5 : k < 5
    · exact ⟨[.int 0], by simp, 4, 0, 5, by decide +kernel, by omega, by omega⟩
    · exact ⟨[.int 2], by simp, 2, 5, 7, by decide +kernel, by omega, by omega⟩
  disjoint := by
    intro b c base start stop base' start' stop' h h' k h1 h2 h3 h4
    have h := mem_of_lookup h
    have h' := mem_of_lookup h'
    simp [exInputs, jobsTable] at h h'
    rcases h with ⟨rfl, rfl, rfl, rfl⟩ | ⟨rfl, rfl, rfl, rfl⟩ | ⟨rfl, rfl, rfl, rfl⟩ <;> rcases h' with ⟨rfl, rfl, rfl, rfl⟩ | ⟨rfl, rfl, rfl, rfl⟩ | ⟨rfl, rfl, rfl, rfl⟩ <;>
      first | rfl | omega

theorem exComputable : Computable exInputs [[.int 0], [.int 1], [.int 2]] where
  feats := by
    intro b hb base start stop h
    have h := mem_of_lookup h
    simp [exInputs, jobsTable] at h
    rcases h with ⟨rfl, rfl, rfl, rfl⟩ | ⟨rfl, rfl, rfl, rfl⟩ | ⟨rfl, rfl, rfl, rfl⟩
    · exact ⟨[10, 11, 12, 13], by decide +kernel, by decide, fun r _ => ⟨r, rfl⟩, fun _ _ _ _ _ _ _ _ => ⟨_, rfl⟩⟩
    · exact ⟨[20], by decide +kernel, by decide, fun r _ => ⟨r, rfl⟩, fun _ _ _ _ _ _ _ _ => ⟨_, rfl⟩⟩
    · exact ⟨[30, 31, 32, 33], by decide +kernel, by decide, fun r _ => ⟨r, rfl⟩, fun _ _ _ _ _ _ _ _ => ⟨_, rfl⟩⟩

/-- example of C24, C25, C26: two processes, the first distance that can be seen in the file is 10 - 2 * 10 -/
example : ∃ s, Steps exInputs (.ok ()) true (begin 0 7 [[⟨[.int 0], 0, 4, false⟩], [⟨[.int 0], 4, 5, false⟩, ⟨[.int 2], 0, 2, false⟩]]) s ∧ s.main = .returned ∧ s.done = false ∧ s.rows[0]? = some (-10) := by
  have hj : createJobs insArgsort [[.int 0], [.int 1], [.int 2]] exInputs.pairs 2 =
    .ok [[⟨[.int 0], 0, 4, false⟩], [⟨[.int 0], 4, 5, false⟩, ⟨[.int 2], 0, 2, false⟩]] := by decide +kernel
  obtain ⟨s, h1, h2, h3, h4⟩ := C25_violated insArgsort_law exTiled exComputable (by decide) (by omega) hj 0
  refine ⟨s, h1, h2, h3, ?_⟩
  obtain ⟨d, d1, d2⟩ := h4 0 (by decide)
  rw [d1, d2.unique exTiled (d' := -10)]
  exact ⟨[.int 0], 4, 0, 5, [10, 11, 12, 13], 0, 0, 10, 10, 10, 10, by decide +kernel, by decide, by decide, by decide, by decide, by decide +kernel, rfl, rfl, rfl, rfl, rfl⟩

#print axioms C24_any_schedule
#print axioms C24_completes_partial
#print axioms C24_returns_partial
#print axioms C24_violated
#print axioms C25_done_partial
#print axioms C25_violated
#print axioms C25_never
#print axioms C26_crash
#print axioms C27_exclusion
#print axioms C27_progress_partial
#print axioms C27_termination
#print axioms C27_violated

#print axioms C25_rerun

end ABX.Distances
