import Verif.Proofs.Threshold
/-!
Property C79: the results of an experiment with a threshold.
-/
namespace ABX.Pipeline
open ExtSort ABX.Task Pairs SideOps Sampler Distances Score EndToEnd Analyze F64
variable {ρ φ δ : Type}

/-- C79: with a threshold, for every choice of sorts, random numbers, buffers and number of cpus and every order of the distance jobs, the rows of the results are, for every level of the `by` columns that has
triplets, the rows of a sample of its triplets: of the triplets with the same regressors all when there are at most `threshold`, else exactly `threshold`.  Missing: tasks without across column, for which this is
false (`C79_violated`), regressors of A, and the cases excluded in C08 and C77. -/
theorem C79_results_partial {e : Env} (he : e.Lawful) {a : Args ρ} (ha : a.OK) (hf : Spec'.KeptFirst a) {T : Task.Task ρ} (h : init e a = .ok T)
    (hpos : ∀ (i : Nat) (p : Nat × Row), a.db[i]? = some p → p.1 = i) (hfeat : a.feat.length = a.db.length)
    (hA : ∀ f ∈ a.regressors, Spec.readsA a.cols f = false) (hac : a.across ≠ []) (hsub : ∀ c ∈ a.across, c ∈ a.cols.across) {idx : DBFun Nat → List Val}
    (hidx : ∀ f ∈ allRegs e a, 0 < (idx f).length ∧ ∀ L ∈ T.levels, ∀ t ∈ tripsSpec a L.key, Spec.regValue a.cols f t < (idx f).length)
    (hc : ((allRegs e a).map (fun f => (idx f).length)).prod ≤ 2 ^ 53) (hz : Sizes a T) {threshold : Nat} (hthr : 0 < threshold)
    (hG : ∀ L ∈ T.levels, GroupFit threshold a.cols a.on a.across (allRegs e a) (tripsSpec a L.key)) {c : Choices} (hl : c.Lawful) (hE : c.num.Exact)
    {getFeat : ρ → Except Err φ} {distance : φ → φ → Except Err δ} {lt : δ → δ → Bool} (hlt : ∀ x y, lt x y = true → lt y x = false) {F : File} {S : List Int}
    (hr : RanT threshold c e T getFeat distance lt F S) :
    ∃ outs, collapse c.sortRows ((colRegs T.regressors).map idx) F S = .ok outs.flatten ∧ (colRegs T.regressors).Perm (allRegs e a) ∧
      F.bys.Nodup ∧ (∀ key, key ∈ F.bys ↔ (∃ p ∈ a.db, levelKey a p.2 = key) ∧ tripsSpec a key ≠ []) ∧
      List.Forall₂ (fun key out => ∃ (Q : List Tri) (abx : Tri → ℚ),
        Spec.Sampled threshold (fun t => (colRegs T.regressors).map (fun f => Spec.regValue a.cols f t)) (tripsSpec a key) Q ∧
        (∀ t ∈ Q, Spec.IsAbx lt (Spec.recDist getFeat distance) (Spec.records a.by_ (a.db.map (·.2)) a.feat (specKey a key)) t (abx t)) ∧
        Spec.Results ((colRegs T.regressors).map idx) key (fun t => (colRegs T.regressors).map (fun f => Spec.regValue a.cols f t)) abx Q out) F.bys outs := by
  have hS := small_ofT he ha hf h hz hl.num hE hG hl.src hl.bl1 hl.bl2 hr.file
  obtain ⟨outs, c1, c2, c3, c4⟩ := level_results he ha hf h hpos hfeat (.inl hA) hidx hc hz hl hlt hr hS
  obtain ⟨total, t, tb, bouts, K⟩ := generate_ok hl.bl1 hl.bl2 hr.file
  have hbk : (remaining T F).map (·.key) = F.bys := (file_fits he ha h K hS).2
  refine ⟨outs, c1, c2, c3, mem_bysT he ha hf h hl.num hE hG hl.src K, ?_⟩
  rw [List.forall₂_iff_get] at c4 ⊢
  refine ⟨c4.1, fun j hj1 hj2 => ?_⟩
  obtain ⟨Q, abx, q1, -, q3, q4, q5⟩ := c4.2 j hj1 hj2
  have hmem : F.bys.get ⟨j, hj1⟩ ∈ F.bys := List.get_mem _ _
  generalize F.bys.get ⟨j, hj1⟩ = key at *
  obtain ⟨L, hL, rfl⟩ : ∃ L ∈ T.levels, L.key = key := by
    rw [← hbk] at hmem
    obtain ⟨L, hL, hk⟩ := List.mem_map.mp hmem
    exact ⟨L, (List.mem_filter.mp hL).1, hk⟩
  obtain ⟨n1, n2⟩ := q3.fit hE (hG L hL)
  refine ⟨Q, abx, ⟨n1, q1, fun v => ?_⟩, q4, q5 _ (.refl _)⟩
  by_cases hv : ∃ u ∈ tripsSpec a L.key, (colRegs T.regressors).map (fun f => Spec.regValue a.cols f u) = v
  · obtain ⟨u, hu, rfl⟩ := hv
    have e1 : ∀ w ∈ tripsSpec a L.key, (Spec.sameGroup a.cols a.on a.across (allRegs e a) u w) =
        (((colRegs T.regressors).map (fun f => Spec.regValue a.cols f w)) == ((colRegs T.regressors).map (fun f => Spec.regValue a.cols f u))) := by
      intro w hw
      rw [Bool.eq_iff_iff, beq_iff_eq]
      exact sameGroup_iff he ha h hL hA hac hsub c2 hu hw
    have := n2 u hu
    rw [List.filter_congr (fun w hw => e1 w (q1 w hw)), List.filter_congr e1, keepCount, if_neg (by omega)] at this
    exact this
  · have e1 : ∀ w ∈ tripsSpec a L.key, (((colRegs T.regressors).map (fun f => Spec.regValue a.cols f w)) == v) = false := by
      intro w hw
      rw [beq_eq_false_iff_ne]
      exact fun h0 => hv ⟨w, hw, h0⟩
    rw [List.filter_congr (fun w hw => e1 w (q1 w hw)), List.filter_congr e1]
    simp

theorem Results.sampled {labels : List (List Val)} {key : List Val} {value : Tri → List Nat} {abx abx' : Tri → ℚ} {S Q : List Tri} {threshold : Nat} (ht : 0 < threshold) {out out' : List OutRow}
    (hw : ∀ t ∈ S, (value t).length = labels.length)
    (hQ : Spec.Sampled threshold value S Q) (h : Spec.Results labels key value abx S out) (h' : Spec.Results labels key value abx' Q out') :
    List.Forall₂ (fun o o' => o'.labels = o.labels ∧ o'.by_ = o.by_ ∧ o'.n = min threshold o.n) out out' := by
  obtain ⟨cs, s1, m1, r1⟩ := h
  obtain ⟨cs', s2, m2, r2⟩ := h'
  have hc : cs = cs' := by
    apply List.Perm.eq_of_pairwise (le := (· < ·)) (fun a b _ _ h1 h2 => (lt_asymm h1 h2).elim) s1 s2
    rw [List.perm_ext_iff_of_nodup (s1.imp (fun hlt he => by subst he; exact lt_irrefl _ hlt)) (s2.imp (fun hlt he => by subst he; exact lt_irrefl _ hlt))]
    intro r
    rw [m1, m2]
    constructor
    · rintro ⟨t, ht', rfl⟩
      have h1 : (Q.filter (fun u => value u == value t)).length = min threshold (S.filter (fun u => value u == value t)).length := hQ.2.2 (value t)
      have h2 : 0 < (S.filter (fun u => value u == value t)).length := List.length_pos_of_mem (List.mem_filter.mpr ⟨ht', by simp⟩)
      have h3 : 0 < (Q.filter (fun u => value u == value t)).length := by omega
      obtain ⟨u, hu⟩ := List.exists_mem_of_length_pos h3
      obtain ⟨u1, u2⟩ := List.mem_filter.mp hu
      exact ⟨u, u1, by simpa using u2⟩
    · rintro ⟨t, ht', rfl⟩
      exact ⟨t, hQ.2.1 t ht', rfl⟩
  subst hc
  rw [List.forall₂_iff_get]
  have l1 := r1.length_eq
  have l2 := r2.length_eq
  refine ⟨by omega, fun i hi1 hi2 => ?_⟩
  have hi : i < cs.length := by omega
  rw [List.forall₂_iff_get] at r1 r2
  obtain ⟨a1, a2, a3, -⟩ := r1.2 i hi hi1
  obtain ⟨b1, b2, b3, -⟩ := r2.2 i hi hi2
  refine ⟨?_, by rw [a2, b2], by rw [a3, b3]; exact hQ.2.2 _⟩
  obtain ⟨t, ht', htc⟩ := (m1 _).mp (List.get_mem cs ⟨i, hi⟩)
  apply List.ext_getElem?
  intro j
  by_cases hj : j < labels.length
  · have hjr : j < (cs.get ⟨i, hi⟩).length := by rw [← htc, hw t ht']; exact hj
    rw [a1.2 j _ _ (List.getElem?_eq_getElem hj) (List.getElem?_eq_getElem hjr), b1.2 j _ _ (List.getElem?_eq_getElem hj) (List.getElem?_eq_getElem hjr)]
  · rw [List.getElem?_eq_none (by rw [b1.1]; omega), List.getElem?_eq_none (by rw [a1.1]; omega)]

/-- a sample that may take everything is everything -/
theorem Sampled.all {threshold : Nat} {value : Tri → List Nat} {S Q : List Tri} (hS : S.Nodup) (h : Spec.Sampled threshold value S Q)
    (ht : ∀ t ∈ S, (S.filter (fun u => value u == value t)).length ≤ threshold) : Q.Perm S := by
  rw [List.perm_ext_iff_of_nodup h.1 hS]
  intro t
  refine ⟨h.2.1 t, fun hm => ?_⟩
  have h1 : (Q.filter (fun u => value u == value t)).length = min threshold (S.filter (fun u => value u == value t)).length := h.2.2 (value t)
  rw [Nat.min_eq_right (ht t hm)] at h1
  have h2 : (Q.filter (fun u => value u == value t)).Subperm (S.filter (fun u => value u == value t)) := by
    apply List.subperm_of_subset (h.1.filter _)
    intro u hu
    obtain ⟨u1, u2⟩ := List.mem_filter.mp hu
    exact List.mem_filter.mpr ⟨h.2.1 u u1, u2⟩
  have h3 := h2.perm_of_length_le (by omega)
  exact (List.mem_filter.mp (h3.mem_iff.mpr (List.mem_filter.mpr ⟨hm, by simp⟩))).1

section
variable {e : Env} (he : e.Lawful) {a : Args ρ} (ha : a.OK) (hf : Spec'.KeptFirst a) {T : Task.Task ρ} (h : init e a = .ok T)
    (hpos : ∀ (i : Nat) (p : Nat × Row), a.db[i]? = some p → p.1 = i) (hfeat : a.feat.length = a.db.length)
    (hA : ∀ f ∈ a.regressors, Spec.readsA a.cols f = false) (hac : a.across ≠ []) (hsub : ∀ c ∈ a.across, c ∈ a.cols.across) {idx : DBFun Nat → List Val}
    (hidx : ∀ f ∈ allRegs e a, 0 < (idx f).length ∧ ∀ L ∈ T.levels, ∀ t ∈ tripsSpec a L.key, Spec.regValue a.cols f t < (idx f).length)
    (hc : ((allRegs e a).map (fun f => (idx f).length)).prod ≤ 2 ^ 53) (hz : Sizes a T) {threshold : Nat} (hthr : 0 < threshold)
    (hG : ∀ L ∈ T.levels, GroupFit threshold a.cols a.on a.across (allRegs e a) (tripsSpec a L.key)) {c c' : Choices} (hl : c.Lawful) (hl' : c'.Lawful) (hE : c'.num.Exact)
    {getFeat : ρ → Except Err φ} {distance : φ → φ → Except Err δ} {lt : δ → δ → Bool} (hlt : ∀ x y, lt x y = true → lt y x = false) {F F' : File} {S S' : List Int}
    (hr : Ran c e T getFeat distance lt F S) (hr' : RanT threshold c' e T getFeat distance lt F' S')
include he ha hf h hpos hfeat hA hac hsub hidx hc hz hthr hG hl hl' hE hlt hr hr'

theorem bys_eq : F.bys = F'.bys := by
  obtain ⟨outs, -, -, -, a4, -⟩ := C77_results_partial he ha hf h hpos hfeat (.inl hA) hidx hc hz hl hlt hr
  obtain ⟨outs', -, -, -, b4, -⟩ := C79_results_partial he ha hf h hpos hfeat hA hac hsub hidx hc hz hthr hG hl' hE hlt hr'
  have k1 : (remaining T F).map (·.key) = F.bys := by
    obtain ⟨total, t, tb, bouts, K⟩ := generate_ok hl.bl1 hl.bl2 hr.file
    exact (file_fits he ha h K (small_of he ha hf h hz hl.num hl.bl1 hl.bl2 hr.file)).2
  have k2 : (remaining T F').map (·.key) = F'.bys := by
    obtain ⟨total, t, tb, bouts, K⟩ := generate_ok hl'.bl1 hl'.bl2 hr'.file
    exact (file_fits he ha h K (small_ofT he ha hf h hz hl'.num hE hG hl'.src hl'.bl1 hl'.bl2 hr'.file)).2
  rw [← k1, ← k2]
  unfold remaining
  refine congrArg (List.map _) ?_
  apply List.filter_congr
  intro L _
  rw [Bool.eq_iff_iff, List.contains_iff_mem, List.contains_iff_mem, a4, b4]

/-- C79: compared with an experiment without threshold, whatever the choices made in both, the rows of the results are for the same labels and levels in the same order and the number of triplets of each is the
smaller of `threshold` and the number without threshold.  Missing as above. -/
theorem C79_rows_partial : ∃ rows rows', collapse c.sortRows ((colRegs T.regressors).map idx) F S = .ok rows ∧ collapse c'.sortRows ((colRegs T.regressors).map idx) F' S' = .ok rows' ∧
    List.Forall₂ (fun o o' => o'.labels = o.labels ∧ o'.by_ = o.by_ ∧ o'.n = min threshold o.n) rows rows' := by
  have hb := bys_eq he ha hf h hpos hfeat hA hac hsub hidx hc hz hthr hG hl hl' hE hlt hr hr'
  obtain ⟨outs, a1, -, -, -, a5⟩ := C77_results_partial he ha hf h hpos hfeat (.inl hA) hidx hc hz hl hlt hr
  obtain ⟨outs', b1, -, -, -, b5⟩ := C79_results_partial he ha hf h hpos hfeat hA hac hsub hidx hc hz hthr hG hl' hE hlt hr'
  refine ⟨_, _, a1, b1, ?_⟩
  rw [← hb] at b5
  clear a1 b1
  generalize F.bys = keys at a5 b5
  induction a5 generalizing outs' with
  | nil => cases b5; exact .nil
  | cons ha' _ ih =>
    cases b5 with
    | cons hb' hbs =>
      obtain ⟨abx, -, g3⟩ := ha'
      obtain ⟨Q, abx', g1', -, g3'⟩ := hb'
      rw [List.flatten_cons, List.flatten_cons]
      exact List.rel_append (Results.sampled hthr (by simp) g1' g3 g3') (ih _ hbs)

/-- C79: a threshold that no combination of regressors exceeds changes nothing: same rows, same scores.  Missing as above. -/
theorem C79_unchanged_partial (ht : ∀ L ∈ T.levels, ∀ t ∈ tripsSpec a L.key,
      ((tripsSpec a L.key).filter (fun u => decide (∀ f ∈ allRegs e a, Spec.regValue a.cols f u = Spec.regValue a.cols f t))).length ≤ threshold) :
    ∃ rows, collapse c.sortRows ((colRegs T.regressors).map idx) F S = .ok rows ∧ collapse c'.sortRows ((colRegs T.regressors).map idx) F' S' = .ok rows := by
  have hb := bys_eq he ha hf h hpos hfeat hA hac hsub hidx hc hz hthr hG hl hl' hE hlt hr hr'
  have hkl : ∀ key ∈ F'.bys, ∃ L ∈ T.levels, L.key = key := by
    intro key hk
    obtain ⟨total, t, tb, bouts, K⟩ := generate_ok hl'.bl1 hl'.bl2 hr'.file
    rw [← (file_fits he ha h K (small_ofT he ha hf h hz hl'.num hE hG hl'.src hl'.bl1 hl'.bl2 hr'.file)).2] at hk
    obtain ⟨L, hL, hk⟩ := List.mem_map.mp hk
    exact ⟨L, (List.mem_filter.mp hL).1, hk⟩
  obtain ⟨outs, a1, a2, -, -, a5⟩ := C77_results_partial he ha hf h hpos hfeat (.inl hA) hidx hc hz hl hlt hr
  obtain ⟨outs', b1, -, -, -, b5⟩ := C79_results_partial he ha hf h hpos hfeat hA hac hsub hidx hc hz hthr hG hl' hE hlt hr'
  have ho : outs = outs' := by
    rw [hb] at a5
    apply List.ext_getElem?
    intro j
    by_cases hj : j < F'.bys.length
    · obtain ⟨o, g1, abx, g2, g3⟩ := Distances.forall₂_getElem a5 (List.getElem?_eq_getElem hj)
      obtain ⟨o', g1', Q, abx', g2', g3', g4'⟩ := Distances.forall₂_getElem b5 (List.getElem?_eq_getElem hj)
      obtain ⟨L, hL, hLk⟩ := hkl _ (List.getElem_mem hj)
      rw [← hLk] at g2 g3 g2' g3' g4'
      have hp := Sampled.all (tripsSpec_nodup a L.key) g2' (by
        intro t ht'
        refine le_trans (le_of_eq (congrArg List.length ?_)) (ht L hL t ht')
        apply List.filter_congr
        intro u _
        rw [Bool.eq_iff_iff, beq_iff_eq, List.map_inj_left, decide_eq_true_eq]
        constructor
        · intro h0 f hf'; exact h0 f (a2.mem_iff.mpr hf')
        · intro h0 f hf'; exact h0 f (a2.mem_iff.mp hf'))
      have g5 : Spec.Results ((colRegs T.regressors).map idx) L.key (fun t => (colRegs T.regressors).map (fun f => Spec.regValue a.cols f t)) abx' (tripsSpec a L.key) o' := by
        obtain ⟨cs, s1, m1, r1⟩ := g4'
        refine ⟨cs, s1, fun x => by rw [m1]; simp only [hp.mem_iff], r1.imp ?_⟩
        rintro x o ⟨x1, x2, x3, x4, x5, x6⟩
        have hpf := fun x => hp.filter (fun t => (colRegs T.regressors).map (fun f => Spec.regValue a.cols f t) == x)
        refine ⟨x1, x2, by rw [x3, (hpf x).length_eq], ?_, ?_, x6⟩
        · rw [x4, ((hpf x).map _).sum_eq]
        · rw [← ((hpf x).map _).sum_eq]; exact x5
      rw [g1, g1', Results.unique (by simp) (fun t ht' => IsAbx.unique (g2 t ht') (g3' t (hp.mem_iff.mpr ht'))) g3 g5]
    · rw [List.getElem?_eq_none (by rw [← a5.length_eq]; omega), List.getElem?_eq_none (by rw [← b5.length_eq]; omega)]
  exact ⟨_, a1, by rw [ho]; exact b1⟩

end

/-! ### examples -/

/-- an experiment with total features and distances ends -/
theorem ran_exists {a : Args Nat} (ha : a.OK) {T : Task.Task Nat} (h : init E0 a = .ok T) {threshold : Nat} {F : File} (hF : generate E0 N0 threshold (fun _ _ _ => src0) 1000 1000 T = .ok (some F))
    (hS : Small E0 T F) (hsq : ∀ L ∈ T.levels, ∀ p ∈ L.frame, p.1 < 94906265) (hne : F.bys ≠ []) (hd : F.data.length ≤ 1000) {n m : Nat} (hn : 0 < n) (hm : 0 < m) {g : Nat → Nat} {d : Nat → Nat → Nat} :
    ∃ S, RanT threshold (choices0 n m) E0 T (fun r => .ok (g r)) (fun x y => .ok (d x y)) (fun x y => decide (x < y)) F S ∧ S.length = F.data.length ∧
      ∀ x ∈ S, x ∈ [(-1 : Int), 0, 1] := by
  obtain ⟨P, p1, -⟩ := C12_pairs_partial E0_lawful ha h (by omega) (by omega) hF hS insArgsort_law bufs0_pos
  have hsz : ∀ b ∈ F.bys, Spec.pairsOfLevel P b ≤ 12500000 := by
    intro b _
    have := pairs_at_most E0_lawful ha h (by omega) (by omega) hF hS insArgsort_law bufs0_pos p1 b
    omega
  obtain ⟨jobs, hj, -, k, s, hs, hr⟩ := C18_completes_partial E0_lawful ha h (by omega) (by omega) hF hS insArgsort_law bufs0_pos p1 (getFeat := fun r => .ok (g r))
    (distance := fun x y => .ok (d x y)) (fun _ _ r _ => ⟨_, rfl⟩) (fun _ _ _ _ _ _ _ _ _ _ => ⟨_, rfl⟩) insArgsort_law (nCpu := n) hn hne hsz 0
  obtain ⟨S, s1, s2, s3⟩ := C18_scores_partial E0_lawful ha h (by omega) (by omega) hF hS hsq insArgsort_law bufs0_pos p1 insArgsort_law hj hs.steps hr
    (lt := fun x y => decide (x < y)) (by intro x y h; simp at h ⊢; omega) (bufLen := m) hm
  refine ⟨S, ⟨hF, P, jobs, _, 0, s, p1, hj, hs.steps, hr, s1⟩, s2, ?_⟩
  intro x hx
  obtain ⟨i, hi⟩ := List.getElem?_of_mem hx
  obtain ⟨-, -, -, -, -, -, -, -, -, -, dAX, dBX, -, -, -, -, -, -, -, -, -, -, -, -, h16⟩ := s3 i (by rw [← s2]; exact (List.getElem?_eq_some_iff.mp hi).1)
  rw [hi] at h16
  cases h16
  split
  · simp
  · split <;> simp

/-- two items of "a" and one of "b", without across column -/
def exNoAcross : Args Nat := ⟨["on"], "on", [], [], ⟨["on"], [], []⟩, [], [], [mk "a" 0, mk "a" 0, mk "b" 0].zipIdx.map (fun p => (p.2, p.1)), [0, 1, 2]⟩

theorem exNoAcross_ok : exNoAcross.OK := Args.OK.flat rfl (by decide +kernel) (by intro f hf; cases hf) (by intro f hf; cases hf)
  (by intro f hf; cases hf) (by intro f hf; cases hf) (by decide +kernel)

theorem exNoAcross_file : ∃ F, run 1 exNoAcross = .ok (some F) ∧ F = ⟨[(0, 2, 1), (1, 2, 0)], F.blockIndex, [[.int 0]], [(0, 2)], [([.int 0], [[0, 0], [1, 1]])]⟩ := by
  have : (match run 1 exNoAcross with
      | .ok (some F) => decide (F = ⟨[(0, 2, 1), (1, 2, 0)], F.blockIndex, [[.int 0]], [(0, 2)], [([.int 0], [[0, 0], [1, 1]])]⟩)
      | _ => false) = true := by decide +kernel
  split at this
  · rename_i F h
    exact ⟨F, h, by simpa only [decide_eq_true_eq] using this⟩
  · cases this

/-- C79 is false without across column: the groups are then made for each item A, and the rows of the results are for all of them: with threshold 1 the only row of this experiment has two triplets. -/
theorem C79_violated : ∃ T F S rows, exNoAcross.OK ∧ init E0 exNoAcross = .ok T ∧
    RanT 1 (choices0 1 1) E0 T (fun r => .ok (r * r)) (fun f g => .ok (f % (g + 2) : Nat)) (fun x y => decide (x < y)) F S ∧
    collapse insArgsort ((colRegs T.regressors).map (fun _ => labels0)) F S = .ok rows ∧ rows.map OutRow.n = [2] := by
  obtain ⟨F, hF, hF'⟩ := exNoAcross_file
  obtain ⟨T, h1, h2⟩ := run_ok hF
  have hd : F.data.length = 2 := by rw [hF']; rfl
  have hS : Small E0 T F := ABX.Pairs.small_of (by decide +kernel) h1 (by omega)
  have hlab : ∀ L ∈ T.levels, ∀ p ∈ L.frame, p.1 < 10 := labels_of (by decide +kernel) h1
  obtain ⟨S, hr, hl, hs⟩ := ran_exists exNoAcross_ok h1 h2 hS (fun L hL p hp => by have := hlab L hL p hp; omega) (by rw [hF']; simp) (by omega) (n := 1) (m := 1) (by omega) (by omega)
    (g := fun r => r * r) (d := fun f g => f % (g + 2))
  have hk : (colRegs T.regressors).map (fun _ => labels0) = [labels0, labels0] := by
    have h : (match init E0 exNoAcross with | .ok T => (colRegs T.regressors).length | _ => 2) = 2 := by decide +kernel
    rw [h1] at h
    simp only at h
    rw [List.map_const', h]
    rfl
  have hall : ∀ x ∈ [(-1 : Int), 0, 1], ∀ y ∈ [(-1 : Int), 0, 1], (match collapse insArgsort [labels0, labels0] ⟨[(0, 2, 1), (1, 2, 0)], [], [[.int 0]], [(0, 2)], [([.int 0], [[0, 0], [1, 1]])]⟩ [x, y] with
      | .ok rows => rows.map OutRow.n
      | _ => []) = [2] := by
    have : ∀ x ∈ [(-1 : Int), 0, 1], ∀ y ∈ [(-1 : Int), 0, 1], (match collapse insArgsort [labels0, labels0] ⟨[(0, 2, 1), (1, 2, 0)], [], [[.int 0]], [(0, 2)], [([.int 0], [[0, 0], [1, 1]])]⟩ [x, y] with
      | .ok rows => rows.map OutRow.n
      | _ => []) = [2] := by decide +kernel
    exact this
  rw [hd] at hl
  match S, hl with
  | [x, y], _ =>
    have hx := hall x (hs x (by simp)) y (hs y (by simp))
    have he : collapse insArgsort [labels0, labels0] F [x, y] = collapse insArgsort [labels0, labels0] ⟨[(0, 2, 1), (1, 2, 0)], [], [[.int 0]], [(0, 2)], [([.int 0], [[0, 0], [1, 1]])]⟩ [x, y] := by
      rw [hF']; rfl
    rw [← he] at hx
    split at hx
    · rename_i rows hrows
      exact ⟨T, F, [x, y], rows, exNoAcross_ok, h1, hr, by rw [hk]; exact hrows, hx⟩
    · cases hx

theorem ex2_file2 : ∃ F, run 2 ex2 = .ok (some F) ∧ F.data = [(0, 2, 4), (0, 3, 4), (0, 1, 2)] ∧ F.bys = [[.int 0], [.int 2]] := by
  have : (match run 2 ex2 with | .ok (some F) => (F.data, F.bys) | _ => ([], [])) =
      ([(0, 2, 4), (0, 3, 4), (0, 1, 2)], [[.int 0], [.int 2]]) := by decide +kernel
  split at this
  · rename_i F h
    simp only [Prod.mk.injEq] at this
    exact ⟨F, h, this⟩
  · cases this

theorem ex2_pos : ∀ (i : Nat) (p : Nat × Row), ex2.db[i]? = some p → p.1 = i := by
  intro i p h
  have : ex2.db.map (·.1) = List.range 9 := by decide +kernel
  have h' := congrArg (·[i]?) this
  simp only [List.getElem?_map, h, Option.map_some] at h'
  obtain ⟨_, h⟩ := List.getElem?_eq_some_iff.mp h'.symm
  simpa using h.symm

theorem ex2_fit {T : Task.Task Nat} (hT : init E0 ex2 = .ok T) (threshold : Nat) : ∀ L ∈ T.levels, GroupFit threshold ex2.cols ex2.on ex2.across (allRegs E0 ex2) (tripsSpec ex2 L.key) := by
  have h : (match init E0 ex2 with
      | .ok T => T.levels.all (fun L => (tripsSpec ex2 L.key).all (fun t =>
        decide (Spec.combinations ex2.cols (allRegs E0 ex2) ((tripsSpec ex2 L.key).filter (Spec.sameBlock ex2.on ex2.across t)) ≤ 2 ^ 53) &&
        decide (((tripsSpec ex2 L.key).filter (Spec.sameBlock ex2.on ex2.across t)).length ≤ 256)))
      | _ => true) = true := by decide +kernel
  rw [hT] at h
  simp only [List.all_eq_true, Bool.and_eq_true, decide_eq_true_eq] at h
  exact fun L hL => GroupFit.small (h L hL)

/-- C79, example: the task `ex2` with threshold 2: without threshold its rows have 4 and 1 triplets, with threshold 2 and 1, and all else that the theorems ask for holds; with threshold 4 the rows of any two experiments are the same -/
example : ∃ T F S F' S' rows rows', init E0 ex2 = .ok T ∧
    Ran (choices0 3 7) E0 T (fun r => .ok (r * r)) (fun f g => .ok (f % (g + 2) : Nat)) (fun x y => decide (x < y)) F S ∧
    RanT 2 (choices0 2 3) E0 T (fun r => .ok (r * r)) (fun f g => .ok (f % (g + 2) : Nat)) (fun x y => decide (x < y)) F' S' ∧ S.length = 5 ∧ S'.length = 3 ∧
    collapse insArgsort ((colRegs T.regressors).map (fun _ => labels0)) F S = .ok rows ∧ collapse insArgsort ((colRegs T.regressors).map (fun _ => labels0)) F' S' = .ok rows' ∧
    List.Forall₂ (fun o o' => o'.labels = o.labels ∧ o'.by_ = o.by_ ∧ o'.n = min 2 o.n) rows rows' := by
  obtain ⟨F, hF, d1, d2⟩ := ex2_file
  obtain ⟨T, h1, h2⟩ := run_ok hF
  obtain ⟨F', hF', d1', d2'⟩ := ex2_file2
  obtain ⟨T', h1', h2'⟩ := run_ok hF'
  rw [h1] at h1'
  cases h1'
  have hS : Small E0 T F := ex2_small h1 (by rw [d1]; decide)
  have hS' : Small E0 T F' := ex2_small h1 (by rw [d1']; decide)
  have hsq : ∀ L ∈ T.levels, ∀ p ∈ L.frame, p.1 < 94906265 := fun L hL p hp => by have := ex2_labels h1 L hL p hp; omega
  have hne : F.bys ≠ [] := by
    obtain ⟨total, t, tb, bouts, K⟩ := generate_ok (by omega) (by omega) h2
    intro h0
    rw [K.bys, List.map_eq_nil_iff] at h0
    have := congrArg List.length d2
    rw [K.index, h0] at this
    simp [intervals] at this
  obtain ⟨S, hr, hl, -⟩ := ran_exists ex2_ok h1 h2 hS hsq hne (by rw [d1]; decide) (n := 3) (m := 7) (by omega) (by omega) (g := fun r => r * r) (d := fun f g => f % (g + 2))
  obtain ⟨S', hr', hl', -⟩ := ran_exists ex2_ok h1 h2' hS' hsq (by rw [d2']; simp) (by rw [d1']; decide) (n := 2) (m := 3) (by omega) (by omega) (g := fun r => r * r) (d := fun f g => f % (g + 2))
  have hlt : ∀ x y : Nat, decide (x < y) = true → decide (y < x) = false := by intro x y h; simp at h ⊢; omega
  have hidx : ∀ f ∈ allRegs E0 ex2, 0 < labels0.length ∧ ∀ L ∈ T.levels, ∀ t ∈ tripsSpec ex2 L.key,
      Spec.regValue ex2.cols f t < labels0.length := fun f hf => ⟨by decide, fun L hL t ht => ex2_regs h1 f hf L hL t ht⟩
  obtain ⟨rows, rows', r1, r2, r3⟩ := C79_rows_partial E0_lawful ex2_ok (.of_not_bare (by intro f hf; cases hf)) h1 ex2_pos (by decide +kernel) (by intro f hf; cases hf) (by decide) (by decide)
    (idx := fun _ => labels0) hidx (by decide +kernel) (ex2_sizes h1) (threshold := 2) (by omega) (ex2_fit h1 2) (choices0_lawful (n := 3) (m := 7) (by omega)) (choices0_lawful (n := 2) (m := 3) (by omega)) N0_exact hlt hr hr'
  exact ⟨T, F, S, F', S', rows, rows', h1, hr, hr', by rw [hl, d1]; rfl, by rw [hl', d1']; rfl, r1, r2, r3⟩

/-- the condition of `C79_unchanged_partial` for `ex2` and threshold 4 -/
example : ∃ T, init E0 ex2 = .ok T ∧ T.levels ≠ [] ∧ ∀ L ∈ T.levels, ∀ t ∈ tripsSpec ex2 L.key,
    ((tripsSpec ex2 L.key).filter (fun u => decide (∀ f ∈ allRegs E0 ex2, Spec.regValue ex2.cols f u = Spec.regValue ex2.cols f t))).length ≤ 4 := by
  obtain ⟨F, hF, d1, d2⟩ := ex2_file
  obtain ⟨T, h1, h2⟩ := run_ok hF
  have h : (match init E0 ex2 with
      | .ok T => !T.levels.isEmpty && T.levels.all (fun L => (tripsSpec ex2 L.key).all (fun t =>
        decide (((tripsSpec ex2 L.key).filter (fun u => decide (∀ f ∈ allRegs E0 ex2, Spec.regValue ex2.cols f u = Spec.regValue ex2.cols f t))).length ≤ 4)))
      | _ => true) = true := by decide +kernel
  rw [h1] at h
  simp only [Bool.and_eq_true, Bool.not_eq_true', List.isEmpty_eq_false_iff, List.all_eq_true, decide_eq_true_eq] at h
  exact ⟨T, h1, h.1, h.2⟩

#print axioms C79_results_partial
#print axioms C79_rows_partial
#print axioms C79_unchanged_partial
#print axioms C79_violated

end ABX.Pipeline
