import Verif.Proofs.EndToEnd
/-!
Property C18: from the triplets to the scores.
-/
namespace ABX.EndToEnd
open ExtSort H52NP ABX.Task Pairs SideOps Sampler Distances Score
variable {ρ φ δ : Type}

/-- the inputs of the distance jobs for a task: the table of pairs and the tables of items written by `_generate_pairs` (task.py, line 954) -/
def inputs (T : Task.Task ρ) (F : File) (P : PairFile) (getFeat : ρ → Except Err φ) (distance : φ → φ → Except Err δ) : Inputs ρ φ δ :=
  { pairs := P, feats := (remaining T F).map (fun L => (L.key, L.feat)), getFeat := getFeat, distance := distance }

/-- C18: for a task, its file and its table of pairs; the jobs for any number of cpus; any execution after which `compute_distances` has returned; then `score` succeeds and gives
to every triplet (A, B, X), at its row, 1 when d(A, X) < d(B, X), -1 when d(A, X) > d(B, X) and 0 otherwise, where d applies the distance to the features of the records
of the items, with X second.  `feat` are the records of the items of the level (C15).  Missing: the cases excluded in C12, C16 and C24. -/
theorem C18_scores_partial {e : Env} (he : e.Lawful) {a : Args ρ} (ha : a.OK) {T : Task.Task ρ} (h : init e a = .ok T)
    {N : Num} {threshold : Nat} {src : List Val → List Val → Nat → Src} {bl1 bl2 : Nat} (h1 : 0 < bl1) (h2 : 0 < bl2) {F : File}
    (hF : generate e N threshold src bl1 bl2 T = .ok (some F)) (hS : Small e T F) (hsq : ∀ L ∈ T.levels, ∀ p ∈ L.frame, p.1 < 94906265)
    {argsort : List Int → List Nat} (hs : ArgsortLaw argsort) {bufs : Bufs} (hb : bufs.Pos) {P : PairFile} (hP : generatePairs argsort bufs T F = .ok P)
    {getFeat : ρ → Except Err φ} {distance : φ → φ → Except Err δ} {argsort' : List Int → List Nat} (hs' : ArgsortLaw argsort') {nCpu : Nat} {jobs : List (List Block)}
    (hj : createJobs argsort' F.bys P nCpu = .ok jobs) {load : Except Err Unit} {zero : δ} {s : State ρ δ}
    (hst : Steps (inputs T F P getFeat distance) load (decide (1 < nCpu)) (begin zero P.data.length jobs) s) (hr : s.main = .returned)
    {lt : δ → δ → Bool} (hlt : ∀ x y, lt x y = true → lt y x = false) {bufLen : Nat} (hbl : 0 < bufLen) :
    ∃ S, score lt bufLen F P s.rows = .ok S ∧ S.length = F.data.length ∧
      ∀ i, i < F.data.length → ∃ (A B X : Nat) (L : Level ρ) (rA rB rX : ρ) (fA fB fX : φ) (dAX dBX : δ), F.data[i]? = some ((A : Int), (B : Int), (X : Int)) ∧ L ∈ T.levels ∧ L.key ∈ F.bys ∧
        (∃ (j : Nat) (iv : Int × Int), F.bys[j]? = some L.key ∧ F.byIndex[j]? = some iv ∧ iv.1 ≤ i ∧ (i : Int) < iv.2) ∧
        L.feat[A]? = some rA ∧ L.feat[B]? = some rB ∧ L.feat[X]? = some rX ∧ getFeat rA = .ok fA ∧ getFeat rB = .ok fB ∧ getFeat rX = .ok fX ∧
        distance fA fX = .ok dAX ∧ distance fB fX = .ok dBX ∧ S[i]? = some (if lt dAX dBX then 1 else if lt dBX dAX then -1 else 0) := by
  obtain ⟨total, t, tb, outs, K⟩ := generate_ok h1 h2 hF
  obtain ⟨hfit, hbys⟩ := file_fits he ha h K hS
  obtain ⟨us, g1, g2⟩ := generatePairs_ok hs hb K.index hfit
  have g2' := g2
  rw [hP] at g2
  injection g2 with g2
  have hnd : ((remaining T F).map (·.key)).Nodup := (init_keys_nodup he ha h).sublist (List.Sublist.map _ List.filter_sublist)
  have hne : remaining T F ≠ [] := by
    intro h0
    rw [h0] at hbys
    rw [← hbys] at hj
    cases hj
  have hT : Tiled P F.bys := by rw [← hbys, g2]; exact tiled_of g1 hnd hne
  have hC := (C24_any_schedule hs' hs' (I := inputs T F P getFeat distance) hT hj hj hst hr hst hr).1
  obtain ⟨S, s1, s2, s3, s4⟩ := C16_scores_partial he ha h h1 h2 hF hS hsq hs hb hP hlt (dist := s.rows) hC.1 hbl
  refine ⟨S, s1, s2, ?_⟩
  intro i hi
  obtain ⟨j, key, iv, c1, c2, c3, c4⟩ := s3 i hi
  obtain ⟨⟨A, B, X⟩, hd⟩ : ∃ d, F.data[i]? = some d := ⟨_, List.getElem?_eq_getElem hi⟩
  obtain ⟨base, start, stop, dAX, dBX, k1, k2, k3, k4⟩ := s4 j key iv c1 c2 i A B X c3 c4 hd
  have hrange : InRange (base : Nat) (A, B, X) := by
    have hk := hbys ▸ c1
    rw [List.getElem?_map, Option.map_eq_some_iff] at hk
    obtain ⟨L, hL, hLk⟩ := hk
    obtain ⟨iv', hiv', hLf⟩ := forall₂_getElem hfit hL
    rw [K.index, List.getElem?_map, hiv'] at c2
    cases c2
    dsimp only at c3 c4
    have hbase : base = baseOf L := by
      have k1' := k1
      rw [g2] at k1'
      obtain ⟨L', hL', hLk', hb', -⟩ := pair_range g1 k1'
      have : L' = L := by
        apply List.inj_on_of_nodup_map hnd hL' (List.mem_of_getElem? hL)
        rw [hLk', hLk]
      rw [hb', this]
    rw [hbase]
    apply hLf.range
    apply List.mem_of_getElem? (i := i - iv'.1)
    rw [npSlice_getElem _ (by omega), show iv'.1 + (i - iv'.1) = i by omega]
    exact hd
  obtain ⟨⟨a1, a2⟩, ⟨b1, b2⟩, x1, x2⟩ := hrange
  dsimp only at a1 a2 b1 b2 x1 x2
  have hle : 0 ≤ start ∧ start ≤ stop ∧ stop ≤ P.data.length := by
    obtain ⟨base', start', stop', hL⟩ := hT.levels key (List.mem_of_getElem? c1)
    have := hL.attr
    rw [k1] at this
    cases this
    exact hL.le
  have hrow : ∀ (Z : Int) (d : δ), 0 ≤ Z → Z < base → DistOf (npSlice P.data start.toNat stop.toNat) (npSlice s.rows start.toNat stop.toNat) (Z + base * X) d →
      ∃ (L : Level ρ) (rZ rX : ρ) (fZ fX : φ), L ∈ T.levels ∧ L.key = key ∧ L.feat[Z.toNat]? = some rZ ∧ L.feat[X.toNat]? = some rX ∧ getFeat rZ = .ok fZ ∧ getFeat rX = .ok fX ∧
        distance fZ fX = .ok d := by
    intro Z d z1 z2 hZ
    obtain ⟨m, m1, m2⟩ := hZ
    have hm : m < stop.toNat - start.toNat := by
      have := (List.getElem?_eq_some_iff.mp m1).1
      rwa [npSlice_length_of _ (by omega)] at this
    rw [npSlice_getElem _ hm] at m1 m2
    obtain ⟨d', d1, by_, base', start', stop', db, A', X', rA, rX, fA, fX, q1, q2, q3, q4, q5, q6, q7, q8, q9, q10, q11⟩ := hC.2 (start.toNat + m) (by change _ < P.data.length; omega)
    rw [m2] at d1
    cases d1
    have hbk : by_ = key := hT.disjoint _ _ _ _ _ _ _ _ q1 k1 (((start.toNat + m : Nat)) : Int) q2 q3 (by omega) (by omega)
    subst hbk
    have q1 : P.attrs.lookup by_ = some (base', start', stop') := q1
    rw [k1] at q1
    cases q1
    have q4 : P.data[start.toNat + m]? = some ((A' + base * X' : Nat) : Int) := q4
    rw [m1] at q4
    injection q4 with q4
    rw [Int.natCast_add, Int.natCast_mul] at q4
    have hpos : (0 : Int) < base := by omega
    have e1 : Z = (A' : Int) := by
      have r1 : (Z + base * X) % base = Z := by rw [Int.add_mul_emod_self_left, Int.emod_eq_of_lt z1 z2]
      have r2 : ((A' : Int) + base * (X' : Int)) % base = A' := by rw [Int.add_mul_emod_self_left, Int.emod_eq_of_lt (by omega) (by omega)]
      rw [← r1, q4, r2]
    have e2 : X = (X' : Int) := by
      have r1 : (Z + base * X) / base = X := by rw [Int.add_mul_ediv_left _ _ (by omega), Int.ediv_eq_zero_of_lt z1 z2, Int.zero_add]
      have r2 : ((A' : Int) + base * (X' : Int)) / base = X' := by rw [Int.add_mul_ediv_left _ _ (by omega), Int.ediv_eq_zero_of_lt (by omega) (by omega), Int.zero_add]
      rw [← r1, q4, r2]
    have hmem := mem_of_lookup (l := (remaining T F).map (fun L => (L.key, L.feat))) q6
    obtain ⟨L, hL, hLe⟩ := List.mem_map.mp hmem
    injection hLe with hLk hLf
    subst e1 e2 hLf
    refine ⟨L, rA, rX, fA, fX, (List.mem_filter.mp hL).1, hLk, ?_, ?_, q9, q10, q11⟩
    · simpa using q7
    · simpa using q8
  obtain ⟨L, rA, rX, fA, fX, l1, l2, l3, l4, l5, l6, l7⟩ := hrow A dAX a1 a2 k2
  obtain ⟨L', rB, rX', fB, fX', l1', l2', l3', l4', l5', l6', l7'⟩ := hrow B dBX b1 b2 k3
  have hLL : L' = L := List.inj_on_of_nodup_map (init_keys_nodup he ha h) l1' l1 (by rw [l2', l2])
  subst hLL
  rw [l4] at l4'; cases l4'
  rw [l6] at l6'; cases l6'
  refine ⟨A.toNat, B.toNat, X.toNat, L', rA, rB, rX, fA, fB, fX, dAX, dBX, ?_, l1, ?_, ⟨j, iv, ?_, c2, c3, c4⟩, l3, l3', l4, l5, l5', l6, l7, l7', k4⟩
  · rw [hd, Int.toNat_of_nonneg a1, Int.toNat_of_nonneg b1, Int.toNat_of_nonneg x1]
  · rw [l2]; exact List.mem_of_getElem? c1
  · rw [l2]; exact c1

/-- C18, the distances of a task can be computed: when the features of every item and the distances of the items of a level can be computed, there are triplets, and no level has more than 12500000 pairs, then for
any number of cpus the jobs are created, every execution without killing has a bounded length and can be continued until `compute_distances` returns, and some execution returns. -/
theorem C18_completes_partial {e : Env} (he : e.Lawful) {a : Args ρ} (ha : a.OK) {T : Task.Task ρ} (h : init e a = .ok T)
    {N : Num} {threshold : Nat} {src : List Val → List Val → Nat → Src} {bl1 bl2 : Nat} (h1 : 0 < bl1) (h2 : 0 < bl2) {F : File}
    (hF : generate e N threshold src bl1 bl2 T = .ok (some F)) (hS : Small e T F)
    {argsort : List Int → List Nat} (hs : ArgsortLaw argsort) {bufs : Bufs} (hb : bufs.Pos) {P : PairFile} (hP : generatePairs argsort bufs T F = .ok P)
    {getFeat : ρ → Except Err φ} {distance : φ → φ → Except Err δ} (hg : ∀ L ∈ T.levels, ∀ r ∈ L.feat, ∃ f, getFeat r = .ok f) (hd : ∀ L ∈ T.levels, ∀ r ∈ L.feat, ∀ r' ∈ L.feat, ∀ f g, getFeat r = .ok f → getFeat r' = .ok g → ∃ d, distance f g = .ok d)
    {argsort' : List Int → List Nat} (hs' : ArgsortLaw argsort') {nCpu : Nat} (hc : 0 < nCpu) (hne : F.bys ≠ []) (hsz : ∀ b ∈ F.bys, Spec.pairsOfLevel P b ≤ 12500000) (zero : δ) :
    ∃ jobs, createJobs argsort' F.bys P nCpu = .ok jobs ∧
      (∀ n s, Calms (inputs T F P getFeat distance) (.ok ()) (decide (1 < nCpu)) n (begin zero P.data.length jobs) s →
        n ≤ 8 * jobs.flatten.length + 8 * jobs.length + 2 ∧ (s.main = .returned ∨ ∃ s', Calm (inputs T F P getFeat distance) (.ok ()) (decide (1 < nCpu)) s s')) ∧
      ∃ n s, Calms (inputs T F P getFeat distance) (.ok ()) (decide (1 < nCpu)) n (begin zero P.data.length jobs) s ∧ s.main = .returned := by
  obtain ⟨total, t, tb, outs, K⟩ := generate_ok h1 h2 hF
  obtain ⟨hfit, hbys⟩ := file_fits he ha h K hS
  obtain ⟨us, g1, g2⟩ := generatePairs_ok hs hb K.index hfit
  rw [hP] at g2
  injection g2 with g2
  have hnd : ((remaining T F).map (·.key)).Nodup := (init_keys_nodup he ha h).sublist (List.Sublist.map _ List.filter_sublist)
  have hT : Tiled P F.bys := by
    rw [← hbys, g2]
    refine tiled_of g1 hnd ?_
    intro h0
    rw [h0] at hbys
    exact hne hbys.symm
  have hCo : Computable (inputs T F P getFeat distance) F.bys := by
    refine ⟨?_⟩
    intro b hb' base start stop hlk
    have hlk : P.attrs.lookup b = some (base, start, stop) := hlk
    rw [g2] at hlk
    obtain ⟨L, hL, hLk, hbase, hk⟩ := pair_range g1 hlk
    have hLT := (List.mem_filter.mp hL).1
    have hle := base_le_feat he ha h hLT
    refine ⟨L.feat, ?_, ?_, hg L hLT, hd L hLT⟩
    · rw [← hLk]
      exact lookup_of_nodup (l := (remaining T F).map (fun L => (L.key, L.feat))) (p := (L.key, L.feat)) (by rw [List.map_map]; exact hnd) (List.mem_map.mpr ⟨L, hL, rfl⟩)
    · intro k hk'
      have hk' : k ∈ npSlice P.data start.toNat stop.toNat := hk'
      rw [g2] at hk'
      have := hk k hk'
      omega
  obtain ⟨jobs, hj, -⟩ := C22_tiling hs' F.bys P nCpu hc hne hT.nodup (fun b hb => by obtain ⟨x, y, z, h⟩ := hT.levels b hb; exact ⟨_, h.attr⟩)
  exact ⟨jobs, hj, C24_completes_partial hs' (I := inputs T F P getFeat distance) hT hCo hsz hj zero, C24_returns_partial hs' (I := inputs T F P getFeat distance) hT hCo hsz hj zero⟩

/-- no level has more than 12500000 pairs when there are at most 6250000 triplets -/
theorem pairs_at_most {e : Env} (he : e.Lawful) {a : Args ρ} (ha : a.OK) {T : Task.Task ρ} (h : init e a = .ok T)
    {N : Num} {threshold : Nat} {src : List Val → List Val → Nat → Src} {bl1 bl2 : Nat} (h1 : 0 < bl1) (h2 : 0 < bl2) {F : File}
    (hF : generate e N threshold src bl1 bl2 T = .ok (some F)) (hS : Small e T F)
    {argsort : List Int → List Nat} (hs : ArgsortLaw argsort) {bufs : Bufs} (hb : bufs.Pos) {P : PairFile} (hP : generatePairs argsort bufs T F = .ok P) (b : List Val) :
    Spec.pairsOfLevel P b ≤ 2 * F.data.length := by
  obtain ⟨total, t, tb, outs, K⟩ := generate_ok h1 h2 hF
  obtain ⟨hfit, hbys⟩ := file_fits he ha h K hS
  obtain ⟨us, g1, g2⟩ := generatePairs_ok hs hb K.index hfit
  rw [hP] at g2
  injection g2 with g2
  rw [g2]
  exact size_le g1 b

theorem ex2_labels {T : Task.Task Nat} (h : init E0 ex2 = .ok T) : ∀ L ∈ T.levels, ∀ p ∈ L.frame, p.1 < 100 := labels_of (by decide +kernel) h

theorem ex2_small {T : Task.Task Nat} (h : init E0 ex2 = .ok T) {F : File} (hF : F.data.length ≤ 1000) : Small E0 T F := small_of (by decide +kernel) h hF

/-- C18, example: the task `ex2` with two levels, features and distances made up from the numbers of the records; some execution with three processes returns, and the scores then are as
stated for each of the five triplets. -/
example : ∃ T F P jobs s S, init E0 ex2 = .ok T ∧ generate E0 N0 0 (fun _ _ _ => src0) 1000 1000 T = .ok (some F) ∧ generatePairs insArgsort bufs0 T F = .ok P ∧
    createJobs insArgsort F.bys P 3 = .ok jobs ∧
    Steps (inputs T F P (fun r => .ok (r * r)) (fun f g => .ok (f % (g + 2) : Nat))) (.ok ()) true (begin (0 : Nat) P.data.length jobs) s ∧ s.main = .returned ∧
    score (fun x y => decide (x < y)) 7 F P s.rows = .ok S ∧ S.length = 5 := by
  obtain ⟨F, hF, d1, d2⟩ := ex2_file
  obtain ⟨T, h1, h2⟩ := run_ok hF
  have hS : Small E0 T F := ex2_small h1 (by rw [d1]; decide)
  obtain ⟨P, p1, -⟩ := C12_pairs_partial E0_lawful ex2_ok h1 (by omega) (by omega) h2 hS insArgsort_law bufs0_pos
  have hne : F.bys ≠ [] := by
    intro h0
    obtain ⟨S, -, s2, s3, -⟩ := C16_scores_partial E0_lawful ex2_ok h1 (by omega) (by omega) h2 hS (fun L hL p hp => by have := ex2_labels h1 L hL p hp; omega)
      insArgsort_law bufs0_pos p1 (lt := fun (x y : Nat) => decide (x < y)) (by intro x y h; simp at h ⊢; omega) (dist := List.replicate P.data.length 0) (by simp) (bufLen := 7) (by omega)
    obtain ⟨j, key, iv, c1, -⟩ := s3 0 (by rw [d1]; decide)
    rw [h0] at c1
    cases c1
  have hsz : ∀ b ∈ F.bys, Spec.pairsOfLevel P b ≤ 12500000 := by
    intro b hb
    have := pairs_at_most E0_lawful ex2_ok h1 (by omega) (by omega) h2 hS insArgsort_law bufs0_pos p1 b
    rw [d1] at this
    exact this.trans (by decide)
  obtain ⟨jobs, hj, -, n, s, hs, hr⟩ := C18_completes_partial E0_lawful ex2_ok h1 (by omega) (by omega) h2 hS insArgsort_law bufs0_pos p1 (getFeat := fun r => .ok (r * r))
    (distance := fun f g => .ok (f % (g + 2) : Nat)) (fun _ _ r _ => ⟨_, rfl⟩) (fun _ _ _ _ _ _ _ _ _ _ => ⟨_, rfl⟩) insArgsort_law (nCpu := 3) (by omega) hne hsz 0
  obtain ⟨S, s1, s2, -⟩ := C18_scores_partial E0_lawful ex2_ok h1 (by omega) (by omega) h2 hS
    (fun L hL p hp => by have := ex2_labels h1 L hL p hp; omega) insArgsort_law bufs0_pos p1 insArgsort_law hj hs.steps hr
    (lt := fun x y => decide (x < y)) (by intro x y h; simp at h ⊢; omega) (bufLen := 7) (by omega)
  exact ⟨T, F, P, jobs, s, S, h1, h2, p1, hj, hs.steps, hr, s1, by rw [s2, d1]; rfl⟩

#print axioms C18_scores_partial
#print axioms C18_completes_partial

end ABX.EndToEnd
