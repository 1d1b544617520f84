import Verif.Proofs.Pipeline
/-!
Property C77: the results of an experiment, from the table of items to the rows of the results, for every choice made on the way.
-/
namespace ABX.Pipeline
open ExtSort ABX.Task Pairs SideOps Sampler Distances Score EndToEnd Analyze F64
variable {ρ φ δ : Type}

/-- the choices that an experiment leaves open: the sorts, the random numbers, the sizes of the buffers, the number of cpus -/
structure Choices where
  num : Num
  src : List Val → List Val → Nat → Src
  bl1 : Nat
  bl2 : Nat
  sortPairs : List Int → List Nat
  bufs : Bufs
  sortJobs : List Int → List Nat
  nCpu : Nat
  bufLen : Nat
  sortRows : List Int → List Nat

structure Choices.Lawful (c : Choices) : Prop where
  num : ArgsortLaw c.num.argsort
  src : ∀ k k' j, (c.src k k' j).Lawful
  bl1 : 0 < c.bl1
  bl2 : 0 < c.bl2
  sortPairs : ArgsortLaw c.sortPairs
  bufs : c.bufs.Pos
  sortJobs : ArgsortLaw c.sortJobs
  bufLen : 0 < c.bufLen
  sortRows : ArgsortLaw c.sortRows

/-- the experiment, with a threshold (0: none), up to the scores: the file of triplets `F`, its table of pairs, the distances computed by the jobs in some order until `compute_distances` returns, the scores `S` -/
structure RanT (threshold : Nat) (c : Choices) (e : Env) (T : Task.Task ρ) (getFeat : ρ → Except Err φ) (distance : φ → φ → Except Err δ) (lt : δ → δ → Bool) (F : File) (S : List Int) : Prop where
  file : generate e c.num threshold c.src c.bl1 c.bl2 T = .ok (some F)
  scores : ∃ P jobs load zero s, generatePairs c.sortPairs c.bufs T F = .ok P ∧ createJobs c.sortJobs F.bys P c.nCpu = .ok jobs ∧
    Steps (inputs T F P getFeat distance) load (decide (1 < c.nCpu)) (begin zero P.data.length jobs) s ∧ s.main = .returned ∧ score lt c.bufLen F P s.rows = .ok S

/-- without threshold -/
abbrev Ran (c : Choices) (e : Env) (T : Task.Task ρ) (getFeat : ρ → Except Err φ) (distance : φ → φ → Except Err δ) (lt : δ → δ → Bool) (F : File) (S : List Int) : Prop := RanT 0 c e T getFeat distance lt F S

/-- `level_results`, with the columns and the scores in the files -/
theorem level_scores {e : Env} (he : e.Lawful) {a : Args ρ} (ha : a.OK) (hf : Spec'.KeptFirst a) {T : Task.Task ρ} (h : init e a = .ok T)
    (hpos : ∀ (i : Nat) (p : Nat × Row), a.db[i]? = some p → p.1 = i) (hfeat : a.feat.length = a.db.length)
    (hA : (∀ f ∈ a.regressors, Spec.readsA a.cols f = false) ∨ (T.filters.ops .ABX ≠ [] ∧ a.on ∈ a.cols.on ∧ a.on ∉ a.cols.by_)) {idx : DBFun Nat → List Val}
    (hidx : ∀ f ∈ allRegs e a, 0 < (idx f).length ∧ ∀ L ∈ T.levels, ∀ t ∈ tripsSpec a L.key, Spec.regValue a.cols f t < (idx f).length)
    (hc : ((allRegs e a).map (fun f => (idx f).length)).prod ≤ 2 ^ 53) (hz : Sizes a T) {threshold : Nat} {c : Choices} (hl : c.Lawful)
    {getFeat : ρ → Except Err φ} {distance : φ → φ → Except Err δ} {lt : δ → δ → Bool} (hlt : ∀ x y, lt x y = true → lt y x = false) {F : File} {S : List Int}
    (hr : RanT threshold c e T getFeat distance lt F S) (hS : Small e T F) :
    ∃ outs, collapse c.sortRows ((colRegs T.regressors).map idx) F S = .ok outs.flatten ∧ (colRegs T.regressors).Perm (allRegs e a) ∧
      F.bys.Nodup ∧
      List.Forall₂ (fun key out => ∃ (Q : List Tri) (abx : Tri → ℚ), (∀ t ∈ Q, t ∈ tripsSpec a key) ∧ (threshold = 0 → Q.Perm (tripsSpec a key)) ∧
        Sampled e c.num threshold a key Q ∧
        (∀ t ∈ Q, Spec.IsAbx lt (Spec.recDist getFeat distance) (Spec.records a.by_ (a.db.map (·.2)) a.feat (specKey a key)) t (abx t)) ∧
        (∀ Q' : List Tri, Q.Perm Q' → Spec.Results ((colRegs T.regressors).map idx) key (fun t => (colRegs T.regressors).map (fun f => Spec.regValue a.cols f t)) abx Q' out) ∧
        F.regs.lookup key = some ((colRegs T.regressors).map (fun f => Q.map (Spec.regValue a.cols f))) ∧
        ∃ (w : Tri → Int) (j x y : Nat), (∀ t ∈ Q, |w t| ≤ 1 ∧ abx t = ((w t : ℚ) + 1) / 2) ∧ F.bys[j]? = some key ∧ F.byIndex[j]? = some ((x : Int), (y : Int)) ∧ x + Q.length = y ∧ y ≤ S.length ∧ npSlice S x y = Q.map w ∧ Written e c.num threshold c.src T key Q) F.bys outs := by
  obtain ⟨hF, P, jobs, load, zero, s, hP, hj, hst, hret, hsc⟩ := hr
  have hsq : ∀ L ∈ T.levels, ∀ p ∈ L.frame, p.1 < 94906265 := by
    intro L hL p hp
    have := frame_lt he ha h hL hp
    have := hz.items L hL
    omega
  obtain ⟨S', q1, q2, q3⟩ := C18_scores_partial he ha h hl.bl1 hl.bl2 hF hS hsq hl.sortPairs hl.bufs hP hl.sortJobs hj hst hret hlt hl.bufLen
  rw [hsc] at q1
  cases q1
  have hbne : F.bys ≠ [] := by
    intro h0
    rw [h0] at hj
    cases hj
  obtain ⟨total, t, tb, bouts, K⟩ := generate_ok hl.bl1 hl.bl2 hF
  have hreg : (colRegs T.regressors).Perm (allRegs e a) := regs_perm he ha hf h hl.num hl.src hA K hbne
  obtain ⟨dt, hdt⟩ := bits_ok (indexes := (colRegs T.regressors).map idx) (by
      intro ix hix
      obtain ⟨f, hf', rfl⟩ := List.mem_map.mp hix
      exact (hidx f (hreg.mem_iff.mp hf')).1) (by
      rw [List.map_map, ((hreg.map _).prod_eq)]
      exact hc)
  obtain ⟨rs, Q, outs, rfl, c1, c2, c3, c4⟩ := task_levels he ha hf h hl.num hl.src hA hl.bl1 hl.bl2 hF hbne hidx hc hdt q2 hl.sortRows
  have hkl := K.kept_levels (init_keys_nodup he ha h)
  have hbk : (remaining T F).map (·.key) = F.bys := (file_fits he ha h K hS).2
  have hnd : F.bys.Nodup := by
    rw [← hbk]
    exact (init_keys_nodup he ha h).sublist (List.Sublist.map _ List.filter_sublist)
  have hbl : F.bys.length = F.byIndex.length := by
    rw [K.bys, K.index]; simp [intervals_length]
  refine ⟨outs, c2, c1, hnd, ?_⟩
  rw [List.forall₂_iff_get]
  refine ⟨c3.symm, fun j hj1 hj2 => ?_⟩
  have hkj : F.bys[j]? = some F.bys[j] := List.getElem?_eq_getElem hj1
  obtain ⟨⟨x, y⟩, hxj⟩ : ∃ xy, F.byIndex[j]? = some xy := ⟨_, List.getElem?_eq_getElem (by omega)⟩
  obtain ⟨d1, d2, dc, ⟨total', t', d3, d4, d5⟩, ⟨out, rows, d6, d7⟩, ⟨xn, yn, hxe, hye, d8, d9⟩, d10, d11⟩ := c4 j _ x y hkj hxj
  rw [List.get_eq_getElem, List.get_eq_getElem]
  rw [List.getElem?_eq_getElem hj2] at d6
  cases d6
  generalize F.bys[j] = key at *
  obtain ⟨L, hL, hLk⟩ : ∃ L ∈ T.levels, L.key = key := by
    have := List.mem_of_getElem? hkj
    rw [← hbk] at this
    obtain ⟨L, hL, hk⟩ := List.mem_map.mp this
    exact ⟨L, (List.mem_filter.mp hL).1, hk⟩
  have hrec := records_feat he ha h hL hpos hfeat
  rw [hLk] at hrec
  rw [hrec]
  have hcast : ∀ u ∈ Q j, castTrip t' (u.1.1, u.2.1.1, u.2.2.1) = ((u.1.1 : Int), (u.2.1.1 : Int), (u.2.2.1 : Int)) := by
    intro u hu
    have hu' := trips_lt (d1 u hu)
    have hs' := (C03_spec he ha hf h).1
    rw [hs'] at d3
    cases d3
    have h3 := fit_hi d4
    have h5 := hz.fit L hL
    rw [hLk] at h5
    exact castTrip_id (fit_sign d4).1 (fit_sign d4).2 (b := (itemsOf a key).length) (by omega) hu'
  have hsign : ∀ (k : Nat) (u : Tri), (Q j)[k]? = some u → ∃ w, (npSlice S x.toNat y.toNat)[k]? = some w ∧ IsSign lt (Spec.recDist getFeat distance) L.feat u w := by
    intro k u hu
    have hd : (npSlice F.data x.toNat y.toNat)[k]? = some ((u.1.1 : Int), (u.2.1.1 : Int), (u.2.2.1 : Int)) := by
      rw [d5, List.getElem?_map, hu, Option.map_some, hcast u (List.mem_of_getElem? hu)]
    unfold npSlice at hd ⊢
    rw [List.getElem?_drop, List.getElem?_take] at hd ⊢
    split at hd
    · rename_i hky
      rw [if_pos hky]
      have hil := (List.getElem?_eq_some_iff.mp hd).1
      obtain ⟨A, B, X, L', rA, rB, rX, fA, fB, fX, dAX, dBX, g1, g2, g3, ⟨j', iv, g4, g5, g6, g7⟩, g8, g9, g10, g11, g12, g13, g14, g15, g16⟩ := q3 _ hil
      rw [hd] at g1
      simp only [Option.some.injEq, Prod.mk.injEq, Int.natCast_inj] at g1
      obtain ⟨rfl, rfl, rfl⟩ := g1
      have hjj : j' = j := by
        rw [K.index, List.getElem?_map, Option.map_eq_some_iff] at g5 hxj
        obtain ⟨p, hp, rfl⟩ := g5
        obtain ⟨p', hp', hpe⟩ := hxj
        cases hpe
        rcases lt_trichotomy j' j with hlt' | heq | hlt'
        · have := intervals_order _ _ _ _ _ _ hp hp' hlt'
          simp at g6 g7 hky
          omega
        · exact heq
        · have := intervals_order _ _ _ _ _ _ hp' hp hlt'
          simp at g6 g7 hky
          omega
      subst hjj
      rw [hkj] at g4
      have hLL : L' = L := by
        have := List.inj_on_of_nodup_map (init_keys_nodup he ha h) g2 hL
        exact this (by rw [hLk]; exact (Option.some.inj g4).symm)
      subst hLL
      refine ⟨_, g16, rA, rB, rX, dAX, dBX, g8, g9, g10, ?_, ?_, rfl⟩
      · unfold Spec.recDist; rw [g11, g13]; exact g14
      · unfold Spec.recDist; rw [g12, g13]; exact g15
    · cases hd
  have hex : ∀ u : Tri, ∃ w : Int, u ∈ Q j → IsSign lt (Spec.recDist getFeat distance) L.feat u w := by
    intro u
    by_cases hu : u ∈ Q j
    · obtain ⟨k, hk⟩ := List.getElem?_of_mem hu
      obtain ⟨w, -, hw⟩ := hsign k u hk
      exact ⟨w, fun _ => hw⟩
    · exact ⟨0, fun h => absurd h hu⟩
  choose w hw using hex
  have hsl : npSlice S x.toNat y.toNat = (Q j).map w := by
    apply List.ext_getElem?
    intro k
    rw [List.getElem?_map]
    cases hk : (Q j)[k]? with
    | some u =>
      obtain ⟨w', h1, h2⟩ := hsign k u hk
      rw [h1, h2.unique (hw u (List.mem_of_getElem? hk))]
      rfl
    | none =>
      have h1 : (npSlice S x.toNat y.toNat).length = (npSlice F.data x.toNat y.toNat).length := by simp [npSlice, q2]
      rw [d5, List.length_map] at h1
      rw [Option.map_none, List.getElem?_eq_none_iff, h1]
      exact List.getElem?_eq_none_iff.mp hk
  have habs : ∀ u ∈ Q j, |w u| ≤ 1 := by
    intro u hu
    obtain ⟨_, _, _, _, _, -, -, -, -, -, hwu⟩ := hw u hu
    rw [hwu]
    split
    · decide
    · split <;> decide
  refine ⟨Q j, fun u => ((w u : ℚ) + 1) / 2, d1, d2, dc, ?_, ?_, d10, w, j, xn, yn, fun u hu => ⟨habs u hu, rfl⟩, hkj, by rw [hxj, hxe, hye], d8, d9, by rw [← hsl, hxe, hye]; rfl, d11⟩
  · intro u hu
    exact isAbx_iff.mpr ⟨w u, hw u hu, rfl⟩
  · intro Q' hQ
    rw [hsl] at d7
    exact results_of hQ (fun u hu => habs u (hQ.mem_iff.mpr hu)) d7

/-- the results of an experiment with any threshold in terms of the triplets `Q` of each level that are in the file -/
theorem level_results {e : Env} (he : e.Lawful) {a : Args ρ} (ha : a.OK) (hf : Spec'.KeptFirst a) {T : Task.Task ρ} (h : init e a = .ok T)
    (hpos : ∀ (i : Nat) (p : Nat × Row), a.db[i]? = some p → p.1 = i) (hfeat : a.feat.length = a.db.length)
    (hA : (∀ f ∈ a.regressors, Spec.readsA a.cols f = false) ∨ (T.filters.ops .ABX ≠ [] ∧ a.on ∈ a.cols.on ∧ a.on ∉ a.cols.by_)) {idx : DBFun Nat → List Val}
    (hidx : ∀ f ∈ allRegs e a, 0 < (idx f).length ∧ ∀ L ∈ T.levels, ∀ t ∈ tripsSpec a L.key, Spec.regValue a.cols f t < (idx f).length)
    (hc : ((allRegs e a).map (fun f => (idx f).length)).prod ≤ 2 ^ 53) (hz : Sizes a T) {threshold : Nat} {c : Choices} (hl : c.Lawful)
    {getFeat : ρ → Except Err φ} {distance : φ → φ → Except Err δ} {lt : δ → δ → Bool} (hlt : ∀ x y, lt x y = true → lt y x = false) {F : File} {S : List Int}
    (hr : RanT threshold c e T getFeat distance lt F S) (hS : Small e T F) :
    ∃ outs, collapse c.sortRows ((colRegs T.regressors).map idx) F S = .ok outs.flatten ∧ (colRegs T.regressors).Perm (allRegs e a) ∧
      F.bys.Nodup ∧
      List.Forall₂ (fun key out => ∃ (Q : List Tri) (abx : Tri → ℚ), (∀ t ∈ Q, t ∈ tripsSpec a key) ∧ (threshold = 0 → Q.Perm (tripsSpec a key)) ∧
        Sampled e c.num threshold a key Q ∧
        (∀ t ∈ Q, Spec.IsAbx lt (Spec.recDist getFeat distance) (Spec.records a.by_ (a.db.map (·.2)) a.feat (specKey a key)) t (abx t)) ∧
        ∀ Q' : List Tri, Q.Perm Q' → Spec.Results ((colRegs T.regressors).map idx) key (fun t => (colRegs T.regressors).map (fun f => Spec.regValue a.cols f t)) abx Q' out) F.bys outs := by
  obtain ⟨outs, h1, h2, h3, h4⟩ := level_scores he ha hf h hpos hfeat hA hidx hc hz hl hlt hr hS
  refine ⟨outs, h1, h2, h3, h4.imp ?_⟩
  rintro key out ⟨Q, abx, d1, d2, d3, d4, d5, -⟩
  exact ⟨Q, abx, d1, d2, d3, d4, d5⟩

/-- C77: for every choice of sorts, buffers and number of cpus and every order of the distance jobs, the rows of the results are, for every level of the `by` columns that has triplets, the rows of the
triplets that the definition of the task gives for the table of items, with their ABX scores for the given features and distance.  Missing: the cases excluded in C10, C12, C16, C19 and C20: filters
without suffix that remove other items than the last ones of the levels, some regressors of A, more than 2^53 combinations of regressors, and sizes beyond `Sizes`; a threshold is C79. -/
theorem C77_results_partial {e : Env} (he : e.Lawful) {a : Args ρ} (ha : a.OK) (hf : Spec'.KeptFirst a) {T : Task.Task ρ} (h : init e a = .ok T)
    (hpos : ∀ (i : Nat) (p : Nat × Row), a.db[i]? = some p → p.1 = i) (hfeat : a.feat.length = a.db.length)
    (hA : (∀ f ∈ a.regressors, Spec.readsA a.cols f = false) ∨ (T.filters.ops .ABX ≠ [] ∧ a.on ∈ a.cols.on ∧ a.on ∉ a.cols.by_)) {idx : DBFun Nat → List Val}
    (hidx : ∀ f ∈ allRegs e a, 0 < (idx f).length ∧ ∀ L ∈ T.levels, ∀ t ∈ tripsSpec a L.key, Spec.regValue a.cols f t < (idx f).length)
    (hc : ((allRegs e a).map (fun f => (idx f).length)).prod ≤ 2 ^ 53) (hz : Sizes a T) {c : Choices} (hl : c.Lawful)
    {getFeat : ρ → Except Err φ} {distance : φ → φ → Except Err δ} {lt : δ → δ → Bool} (hlt : ∀ x y, lt x y = true → lt y x = false) {F : File} {S : List Int}
    (hr : Ran c e T getFeat distance lt F S) :
    ∃ outs, collapse c.sortRows ((colRegs T.regressors).map idx) F S = .ok outs.flatten ∧ (colRegs T.regressors).Perm (allRegs e a) ∧
      F.bys.Nodup ∧ (∀ key, key ∈ F.bys ↔ (∃ p ∈ a.db, levelKey a p.2 = key) ∧ tripsSpec a key ≠ []) ∧
      List.Forall₂ (fun key out => ∃ abx : Tri → ℚ,
        (∀ t ∈ tripsSpec a key, Spec.IsAbx lt (Spec.recDist getFeat distance) (Spec.records a.by_ (a.db.map (·.2)) a.feat (specKey a key)) t (abx t)) ∧
        Spec.Results ((colRegs T.regressors).map idx) key (fun t => (colRegs T.regressors).map (fun f => Spec.regValue a.cols f t)) abx (tripsSpec a key) out) F.bys outs := by
  obtain ⟨outs, c1, c2, c3, c4⟩ := level_results he ha hf h hpos hfeat hA hidx hc hz hl hlt hr (small_of he ha hf h hz hl.num hl.bl1 hl.bl2 hr.file)
  obtain ⟨total, t, tb, bouts, K⟩ := generate_ok hl.bl1 hl.bl2 hr.file
  refine ⟨outs, c1, c2, c3, mem_bys he ha hf h hl.num hl.src K, c4.imp ?_⟩
  rintro key out ⟨Q, abx, -, q2, -, q4, q5⟩
  exact ⟨abx, fun t ht => q4 t ((q2 rfl).mem_iff.mpr ht), q5 _ (q2 rfl)⟩

/-- C77: the results do not depend on the choices: two runs with other sorts, random numbers, buffers, numbers of cpus and orders of the distance jobs have the same rows in the same order.  Missing as above. -/
theorem C77_deterministic_partial {e : Env} (he : e.Lawful) {a : Args ρ} (ha : a.OK) (hf : Spec'.KeptFirst a) {T : Task.Task ρ} (h : init e a = .ok T)
    (hpos : ∀ (i : Nat) (p : Nat × Row), a.db[i]? = some p → p.1 = i) (hfeat : a.feat.length = a.db.length)
    (hA : (∀ f ∈ a.regressors, Spec.readsA a.cols f = false) ∨ (T.filters.ops .ABX ≠ [] ∧ a.on ∈ a.cols.on ∧ a.on ∉ a.cols.by_)) {idx : DBFun Nat → List Val}
    (hidx : ∀ f ∈ allRegs e a, 0 < (idx f).length ∧ ∀ L ∈ T.levels, ∀ t ∈ tripsSpec a L.key, Spec.regValue a.cols f t < (idx f).length)
    (hc : ((allRegs e a).map (fun f => (idx f).length)).prod ≤ 2 ^ 53) (hz : Sizes a T) {c c' : Choices} (hl : c.Lawful) (hl' : c'.Lawful)
    {getFeat : ρ → Except Err φ} {distance : φ → φ → Except Err δ} {lt : δ → δ → Bool} (hlt : ∀ x y, lt x y = true → lt y x = false) {F F' : File} {S S' : List Int}
    (hr : Ran c e T getFeat distance lt F S) (hr' : Ran c' e T getFeat distance lt F' S') :
    ∃ rows, collapse c.sortRows ((colRegs T.regressors).map idx) F S = .ok rows ∧ collapse c'.sortRows ((colRegs T.regressors).map idx) F' S' = .ok rows := by
  obtain ⟨outs, a1, a2, a3, a4, a5⟩ := C77_results_partial he ha hf h hpos hfeat hA hidx hc hz hl hlt hr
  obtain ⟨outs', b1, -, b3, b4, b5⟩ := C77_results_partial he ha hf h hpos hfeat hA hidx hc hz hl' hlt hr'
  have hb : F.bys = F'.bys := by
    have k1 : (remaining T F).map (·.key) = F.bys := by
      obtain ⟨total, t, tb, bouts, K⟩ := generate_ok hl.bl1 hl.bl2 hr.file
      exact (file_fits he ha h K (small_of he ha hf h hz hl.num hl.bl1 hl.bl2 hr.file)).2
    have k2 : (remaining T F').map (·.key) = F'.bys := by
      obtain ⟨total, t, tb, bouts, K⟩ := generate_ok hl'.bl1 hl'.bl2 hr'.file
      exact (file_fits he ha h K (small_of he ha hf h hz hl'.num hl'.bl1 hl'.bl2 hr'.file)).2
    rw [← k1, ← k2]
    unfold remaining
    refine congrArg (List.map _) ?_
    apply List.filter_congr
    intro L _
    rw [Bool.eq_iff_iff, List.contains_iff_mem, List.contains_iff_mem, a4, b4]
  have ho : outs = outs' := by
    rw [hb] at a5
    apply List.ext_getElem?
    intro j
    by_cases hj : j < F'.bys.length
    · obtain ⟨o, g1, abx, g2, g3⟩ := Distances.forall₂_getElem a5 (List.getElem?_eq_getElem hj)
      obtain ⟨o', g1', abx', g2', g3'⟩ := Distances.forall₂_getElem b5 (List.getElem?_eq_getElem hj)
      rw [g1, g1', Results.unique (by simp) (fun t ht => IsAbx.unique (g2 t ht) (g2' t ht)) g3 g3']
    · rw [List.getElem?_eq_none (by rw [← a5.length_eq]; omega), List.getElem?_eq_none (by rw [← b5.length_eq]; omega)]
  exact ⟨_, a1, by rw [ho]; exact b1⟩

/-- choices for the examples; the number of cpus and the length of the buffer of the scores are left open -/
def choices0 (n m : Nat) : Choices := ⟨N0, fun _ _ _ => src0, 1000, 1000, insArgsort, bufs0, insArgsort, n, m, insArgsort⟩

theorem choices0_lawful {n m : Nat} (h : 0 < m) : (choices0 n m).Lawful :=
  ⟨insArgsort_law, fun _ _ _ => src0_lawful, Nat.zero_lt_succ _, Nat.zero_lt_succ _, insArgsort_law, bufs0_pos, insArgsort_law, h, insArgsort_law⟩

def labels0 : List Val := (List.range 10).map (fun i : Nat => Val.int i)

theorem ex2_sizes {T : Task.Task Nat} (hT : init E0 ex2 = .ok T) : Sizes ex2 T := by
  have h : (match init E0 ex2 with
      | .ok T => decide ((∀ L ∈ T.levels, (itemsOf ex2 L.key).length ≤ 128) ∧ (T.levels.map (fun L => (tripsSpec ex2 L.key).length)).sum = 5)
      | _ => true) = true := by decide +kernel
  rw [hT] at h
  simp only [decide_eq_true_eq] at h
  refine ⟨fun L hL => le_max_of_le_left (h.1 L hL), fun L hL => (h.1 L hL).trans (by norm_num), ?_⟩
  rw [h.2]
  norm_num

/-- C77, example: the task `ex2` of nine items in two levels, with made-up features and distances: an experiment with three cpus exists, meets the conditions of the theorems, and gives rows for its two levels; an experiment with
one cpu and another length of the buffer, if it also ends, gives the same rows -/
example : ∃ T F S rows, init E0 ex2 = .ok T ∧ Ran (choices0 3 7) E0 T (fun r => .ok (r * r)) (fun f g => .ok (f % (g + 2) : Nat)) (fun x y => decide (x < y)) F S ∧ F.bys.length = 2 ∧ S.length = 5 ∧
    collapse insArgsort ((colRegs T.regressors).map (fun _ => labels0)) F S = .ok rows ∧
    ∀ F' S', Ran (choices0 1 2) E0 T (fun r => .ok (r * r)) (fun f g => .ok (f % (g + 2) : Nat)) (fun x y => decide (x < y)) F' S' →
      collapse insArgsort ((colRegs T.regressors).map (fun _ => labels0)) F' S' = .ok rows := by
  obtain ⟨F, hF, d1, d2⟩ := ex2_file
  obtain ⟨T, h1, h2⟩ := run_ok hF
  have hS : Small E0 T F := ex2_small h1 (by rw [d1]; decide)
  obtain ⟨P, p1, -⟩ := C12_pairs_partial E0_lawful ex2_ok h1 (by omega) (by omega) h2 hS insArgsort_law bufs0_pos
  have hb : F.bys.length = 2 := by
    obtain ⟨total, t, tb, bouts, K⟩ := generate_ok (by omega) (by omega) h2
    have := congrArg List.length d2
    rw [K.index] at this
    rw [K.bys]
    simpa [intervals_length] using this
  have hne : F.bys ≠ [] := by intro h0; rw [h0] at hb; cases hb
  have hsz : ∀ b ∈ F.bys, Spec.pairsOfLevel P b ≤ 12500000 := by
    intro b hb
    have := pairs_at_most E0_lawful ex2_ok h1 (by omega) (by omega) h2 hS insArgsort_law bufs0_pos p1 b
    rw [d1] at this
    exact this.trans (by decide)
  obtain ⟨jobs, hj, -, n, s, hs, hr⟩ := C18_completes_partial E0_lawful ex2_ok h1 (by omega) (by omega) h2 hS insArgsort_law bufs0_pos p1 (getFeat := fun r => .ok (r * r))
    (distance := fun f g => .ok (f % (g + 2) : Nat)) (fun _ _ r _ => ⟨_, rfl⟩) (fun _ _ _ _ _ _ _ _ _ _ => ⟨_, rfl⟩) insArgsort_law (nCpu := 3) (by omega) hne hsz 0
  have hlt : ∀ x y : Nat, decide (x < y) = true → decide (y < x) = false := by intro x y h; simp at h ⊢; omega
  obtain ⟨S, s1, s2, -⟩ := C18_scores_partial E0_lawful ex2_ok h1 (by omega) (by omega) h2 hS
    (fun L hL p hp => by have := ex2_labels h1 L hL p hp; omega) insArgsort_law bufs0_pos p1 insArgsort_law hj hs.steps hr (lt := fun x y => decide (x < y)) hlt (bufLen := 7) (by omega)
  have R : Ran (choices0 3 7) E0 T (fun r => .ok (r * r)) (fun f g => .ok (f % (g + 2) : Nat)) (fun x y => decide (x < y)) F S := ⟨h2, P, jobs, _, 0, s, p1, hj, hs.steps, hr, s1⟩
  have hpos : ∀ (i : Nat) (p : Nat × Row), ex2.db[i]? = some p → p.1 = i := by
    intro i p h
    have : ex2.db.map (·.1) = List.range 9 := by decide +kernel
    have h' := congrArg (·[i]?) this
    simp only [List.getElem?_map, h, Option.map_some] at h'
    have := List.getElem?_eq_some_iff.mp h'.symm
    obtain ⟨_, h⟩ := this
    simpa using h.symm
  have hidx : ∀ f ∈ allRegs E0 ex2, 0 < labels0.length ∧ ∀ L ∈ T.levels, ∀ t ∈ tripsSpec ex2 L.key,
      Spec.regValue ex2.cols f t < labels0.length := fun f hf => ⟨by decide, fun L hL t ht => ex2_regs h1 f hf L hL t ht⟩
  obtain ⟨outs, o1, -⟩ := C77_results_partial E0_lawful ex2_ok (.of_not_bare (by intro f hf; cases hf)) h1 hpos (by decide +kernel) (.inl (by intro f hf; cases hf))
    (idx := fun _ => labels0) hidx (by decide +kernel) (ex2_sizes h1) (choices0_lawful (n := 3) (m := 7) (by omega)) hlt R
  refine ⟨T, F, S, _, h1, R, hb, by rw [s2, d1]; rfl, o1, ?_⟩
  intro F' S' R'
  obtain ⟨rows, e1, e2⟩ := C77_deterministic_partial E0_lawful ex2_ok (.of_not_bare (by intro f hf; cases hf)) h1 hpos (by decide +kernel) (.inl (by intro f hf; cases hf))
    (idx := fun _ => labels0) hidx (by decide +kernel) (ex2_sizes h1) (choices0_lawful (n := 3) (m := 7) (by omega)) (choices0_lawful (n := 1) (m := 2) (by omega)) hlt R R'
  have e3 := o1.symm.trans e1
  cases e3
  exact e2

#print axioms C77_results_partial
#print axioms C77_deterministic_partial

end ABX.Pipeline
