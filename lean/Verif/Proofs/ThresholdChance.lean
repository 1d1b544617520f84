import Verif.Spec.ThresholdChance
import Verif.Proofs.SamplerChance
import Verif.Proofs.TaskSort
import Verif.Proofs.TaskReg
import Verif.Proofs.TaskGenTotal
/-!
Lemmas for C103: the distribution of what a threshold keeps.
-/
namespace ABX.Task
open MeasureTheory Set Filter Topology ProbabilityTheory ExtSort Sampler

theorem thresholdLoop_shift (permut : List Nat) (t : IntType) (T : Nat) (src : Nat → Src) : ∀ (cs : List Nat) (i j : Nat),
    thresholdLoop permut t T src cs i (j + 1) = thresholdLoop permut t T (fun k => src (k + 1)) cs i j
  | [], _, _ => rfl
  | c :: cs, i, j => by
    unfold thresholdLoop
    rw [thresholdLoop_shift permut t T src cs (i + c) (j + 1)]

theorem mem_npSlice_iff {l : List Nat} {a b x : Nat} (hb : b ≤ l.length) : x ∈ npSlice l a b ↔ ∃ i, a ≤ i ∧ i < b ∧ l.getD i 0 = x := by
  unfold npSlice
  rw [List.mem_iff_getElem]
  simp only [List.length_drop, List.length_take, List.getElem_drop, List.getElem_take]
  constructor
  · rintro ⟨i, h, rfl⟩
    refine ⟨a + i, by omega, by omega, ?_⟩
    have : a + i < l.length := by omega
    simp [this]
  · rintro ⟨i, h1, h2, rfl⟩
    have : i < l.length := by omega
    refine ⟨i - a, by omega, ?_⟩
    simp [this, show a + (i - a) = i by omega]

/-- the part of a group: lines 1196-1203 of task.py -/
def partOf (permut : List Nat) (t : IntType) (T c i : Nat) (src : Src) : Except Err (List Nat) :=
  if T ≠ 0 ∧ c > T then
    match sampleT t T c src with
    | .error e => .error e
    | .ok s => gather permut (s.map (fun x => castNat t (x + i)))
  else .ok (npSlice permut i (i + c))

theorem thresholdLoop_cons (permut : List Nat) (t : IntType) (T : Nat) (src : Nat → Src) (c : Nat) (cs : List Nat) (i : Nat) (P : List (List Nat) → Prop) :
    (∃ ps, thresholdLoop permut t T src (c :: cs) i 0 = .ok ps ∧ P ps) ↔
    ∃ p ps, partOf permut t T c i (src 0) = .ok p ∧ thresholdLoop permut t T (fun k => src (k + 1)) cs (i + c) 0 = .ok ps ∧ P (p :: ps) := by
  have e : thresholdLoop permut t T src (c :: cs) i 0 = match partOf permut t T c i (src 0) with
      | .error e => .error e
      | .ok p => match thresholdLoop permut t T src cs (i + c) (0 + 1) with
        | .error e => .error e
        | .ok ps => .ok (p :: ps) := by
    conv_lhs => unfold thresholdLoop
    rfl
  rw [e, thresholdLoop_shift]
  cases h1 : partOf permut t T c i (src 0) with
  | error e => simp
  | ok p =>
    cases h2 : thresholdLoop permut t T (fun k => src (k + 1)) cs (i + c) 0 with
    | error e => simp
    | ok ps => simp

theorem partOf_sample {permut : List Nat} {t : IntType} (hu : t.signed = false) {T c i : Nat} {src : Src} (hl : src.Lawful) (hN : (permut.length : Int) ≤ t.hi) (hi : i + c ≤ permut.length) (hT : T ≠ 0) (hc : T < c) (p : List Nat) :
    partOf permut t T c i src = .ok p ↔ ∃ s, sampleWithoutReplacement T c src = .ok s ∧ p = s.map (fun x => permut.getD (i + x) 0) := by
  unfold partOf
  rw [if_pos ⟨hT, hc⟩, sampleT_eq hu hl (by omega) (by omega)]
  cases h : sampleWithoutReplacement T c src with
  | error e => simp
  | ok s =>
    obtain ⟨l1, l2, l3⟩ := swr_ok T c src hl (by omega) s h
    have e : s.map (fun x => castNat t (x + i)) = s.map (· + i) := by
      apply List.map_congr_left
      intro x hx
      have := l3 x hx
      exact castNat_lt hu (by omega)
    have hg : gather permut (s.map (· + i)) = .ok (s.map (fun x => permut.getD (i + x) 0)) := by
      rw [gather_ok permut _ (by
        intro y hy
        obtain ⟨x, hx, rfl⟩ := List.mem_map.mp hy
        have := l3 x hx
        omega)]
      congr 1
      rw [List.filterMap_map]
      clear h l1 l2 e
      induction s with
      | nil => rfl
      | cons x xs ih =>
        have hx := l3 x (by simp)
        rw [List.filterMap_cons, List.map_cons, ih fun y hy => l3 y (by simp [hy])]
        have : x + i < permut.length := by omega
        simp [this, Nat.add_comm i x]
    dsimp only
    rw [e, hg]
    constructor
    · intro h
      exact ⟨s, rfl, (Except.ok.inj h).symm⟩
    · rintro ⟨s', hs', rfl⟩
      rw [Except.ok.inj hs']

theorem partOf_all {permut : List Nat} {t : IntType} {T c i : Nat} {src : Src} (hc : c ≤ T) (p : List Nat) : partOf permut t T c i src = .ok p ↔ p = npSlice permut i (i + c) := by
  unfold partOf
  rw [if_neg (by omega)]
  exact ⟨fun h => (Except.ok.inj h).symm, fun h => by rw [h]⟩

theorem partOf_mem {permut : List Nat} {t : IntType} (hu : t.signed = false) {T c i : Nat} {src : Src} (hl : src.Lawful) (hN : (permut.length : Int) ≤ t.hi) (hi : i + c ≤ permut.length) (hT : T ≠ 0) {p : List Nat}
    (h : partOf permut t T c i src = .ok p) : ∀ x ∈ p, x ∈ npSlice permut i (i + c) := by
  rcases Nat.lt_or_ge T c with hc | hc
  · obtain ⟨s, h1, rfl⟩ := (partOf_sample hu hl hN hi hT hc p).mp h
    obtain ⟨-, -, l3⟩ := swr_ok T c src hl (by omega) s h1
    intro y hy
    obtain ⟨x, hx, rfl⟩ := List.mem_map.mp hy
    have := l3 x hx
    exact (mem_npSlice_iff hi).mpr ⟨i + x, by omega, by omega, rfl⟩
  · rw [(partOf_all hc p).mp h]
    exact fun x hx => hx

theorem loop_mem {permut : List Nat} {t : IntType} (hu : t.signed = false) {T : Nat} (hN : (permut.length : Int) ≤ t.hi) (hT : T ≠ 0) : ∀ (cs : List Nat) (i : Nat) (src : Nat → Src), (∀ j, (src j).Lawful) → i + cs.sum ≤ permut.length →
    ∀ ps, thresholdLoop permut t T src cs i 0 = .ok ps → ∀ x ∈ ps.flatten, x ∈ npSlice permut i (i + cs.sum)
  | [], i, src, _, _, ps, h, x, hx => by
    cases h
    simp at hx
  | c :: cs, i, src, hl, hi, ps, h, x, hx => by
    rw [List.sum_cons] at hi ⊢
    obtain ⟨p, ps', h1, h2, rfl⟩ := (thresholdLoop_cons permut t T src c cs i (fun q => q = ps)).mp ⟨ps, h, rfl⟩
    rw [List.flatten_cons, List.mem_append] at hx
    rw [← npSlice_append permut (a := i) (b := i + c) (by omega) (by omega), List.mem_append]
    rcases hx with hx | hx
    · exact Or.inl (partOf_mem hu (hl 0) hN (by omega) hT h1 x hx)
    · right
      have := loop_mem hu hN hT cs (i + c) _ (fun j => hl (j + 1)) (by omega) ps' h2 x hx
      rwa [Nat.add_assoc] at this

theorem slices_disjoint {permut : List Nat} (hnd : permut.Nodup) {a b c x : Nat} (hc : c ≤ permut.length) (hb : b ≤ c) (h1 : x ∈ npSlice permut a b) (h2 : x ∈ npSlice permut b c) : False := by
  obtain ⟨i, i1, i2, rfl⟩ := (mem_npSlice_iff (by omega)).mp h1
  obtain ⟨j, j1, j2, hj⟩ := (mem_npSlice_iff hc).mp h2
  have hi' : i < permut.length := by omega
  have hj' : j < permut.length := by omega
  simp only [List.getD_eq_getElem?_getD, List.getElem?_eq_getElem hi', List.getElem?_eq_getElem hj', Option.getD_some] at hj
  have := (List.Nodup.getElem_inj_iff hnd).mp hj
  omega

/-- the elements of `W` in the run of `c` keptAt from `i` on, relative to its start -/
def inRun (permut : List Nat) (W : Finset Nat) (i c : Nat) : List Nat := (List.range c).filter (fun x => decide (permut.getD (i + x) 0 ∈ W))

/-- of every run, `W` has `T` or all elements -/
def RunsOK (permut : List Nat) (W : Finset Nat) (T : Nat) : List Nat → Nat → Prop
  | [], _ => True
  | c :: cs, i => (inRun permut W i c).length = min T c ∧ RunsOK permut W T cs (i + c)

variable {Ω : Type} [Inhabited Ω] [MeasurableSpace Ω] {μ : Measure Ω} [IsProbabilityMeasure μ] {S : Nat → Ω → Src} {lo hi : ℝ} {T M : Nat}

theorem inc_eq_of_mem {l r : List Nat} (hl : l.Pairwise (· < ·)) (hr : r.Pairwise (· < ·)) (h : ∀ x, x ∈ l ↔ x ∈ r) : l = r := by
  have hl' : l.Nodup := hl.imp (by intro a b; omega)
  have hr' : r.Nodup := hr.imp (by intro a b; omega)
  exact List.Perm.eq_of_pairwise (fun a b _ _ h1 h2 => absurd h1 (by omega)) hl hr ((List.perm_ext_iff_of_nodup hl' hr').mpr h)

theorem getD_inj {permut : List Nat} (hnd : permut.Nodup) {i j : Nat} (hi : i < permut.length) (hj : j < permut.length) (h : permut.getD i 0 = permut.getD j 0) : i = j := by
  simp only [List.getD_eq_getElem?_getD, List.getElem?_eq_getElem hi, List.getElem?_eq_getElem hj, Option.getD_some] at h
  exact (List.Nodup.getElem_inj_iff hnd).mp h

omit [Inhabited Ω] in
theorem part_prob (hF : FairDraw μ S lo hi T M) (hT : T ≠ 0) {permut : List Nat} (hnd : permut.Nodup) {t : IntType} (hu : t.signed = false) (hN : (permut.length : Int) ≤ t.hi) (hM : permut.length ≤ M) {W : Finset Nat} {i c : Nat}
    (hic : i + c ≤ permut.length) (hW : (inRun permut W i c).length = min T c) :
    let p := μ.real {w | ∃ p, partOf permut t T c i (S c w) = .ok p ∧ ∀ x, x ∈ p ↔ x ∈ W ∧ x ∈ npSlice permut i (i + c)}
    lo * (1 / ((c.choose (min T c) : Nat) : ℝ)) ≤ p ∧ p ≤ hi * (1 / ((c.choose (min T c) : Nat) : ℝ)) := by
  dsimp only
  have hrun : ∀ x, x ∈ inRun permut W i c ↔ x < c ∧ permut.getD (i + x) 0 ∈ W := by
    intro x
    unfold inRun
    rw [List.mem_filter, List.mem_range, decide_eq_true_iff]
  rcases Nat.lt_or_ge T c with hc | hc
  · have hset : {w | ∃ p, partOf permut t T c i (S c w) = .ok p ∧ ∀ x, x ∈ p ↔ x ∈ W ∧ x ∈ npSlice permut i (i + c)} = {w | sampleWithoutReplacement T c (S c w) = .ok (inRun permut W i c)} := by
      ext w
      constructor
      · rintro ⟨p, h1, h2⟩
        obtain ⟨s, h3, rfl⟩ := (partOf_sample hu (hF.lawful c w) hN hic hT hc p).mp h1
        obtain ⟨-, l2, l3⟩ := swr_ok T c _ (hF.lawful c w) (by omega) s h3
        show sampleWithoutReplacement T c (S c w) = _
        rw [h3]
        congr 1
        refine inc_eq_of_mem l2 (List.Pairwise.filter _ List.pairwise_lt_range) fun x => ?_
        rw [hrun]
        constructor
        · intro hx
          exact ⟨l3 x hx, ((h2 _).mp (List.mem_map_of_mem hx)).1⟩
        · rintro ⟨x1, x2⟩
          obtain ⟨y, hy, e⟩ := List.mem_map.mp ((h2 _).mpr ⟨x2, (mem_npSlice_iff hic).mpr ⟨i + x, by omega, by omega, rfl⟩⟩)
          have := l3 y hy
          have := getD_inj hnd (by omega) (by omega) e
          obtain rfl : y = x := by omega
          exact hy
      · intro h
        refine ⟨_, (partOf_sample hu (hF.lawful c w) hN hic hT hc _).mpr ⟨_, h, rfl⟩, fun x => ?_⟩
        rw [List.mem_map]
        constructor
        · rintro ⟨y, hy, rfl⟩
          obtain ⟨y1, y2⟩ := (hrun y).mp hy
          exact ⟨y2, (mem_npSlice_iff hic).mpr ⟨i + y, by omega, by omega, rfl⟩⟩
        · rintro ⟨x1, x2⟩
          obtain ⟨k, k1, k2, rfl⟩ := (mem_npSlice_iff hic).mp x2
          refine ⟨k - i, (hrun _).mpr ⟨by omega, ?_⟩, ?_⟩
          · rwa [show i + (k - i) = k by omega]
          · rw [show i + (k - i) = k by omega]
    rw [hset, show min T c = T by omega]
    exact hF.draw c _ hc (by omega) (List.Pairwise.filter _ List.pairwise_lt_range) (fun x hx => ((hrun x).mp hx).1) (by omega)
  · have hall : ∀ x < c, permut.getD (i + x) 0 ∈ W := by
      have h1 : (inRun permut W i c).length = (List.range c).length := by rw [hW, List.length_range]; omega
      have := List.length_filter_eq_length_iff.mp h1
      intro x hx
      simpa using this x (List.mem_range.mpr hx)
    have hset : {w | ∃ p, partOf permut t T c i (S c w) = .ok p ∧ ∀ x, x ∈ p ↔ x ∈ W ∧ x ∈ npSlice permut i (i + c)} = univ := by
      refine Set.eq_univ_of_forall fun w => ⟨_, (partOf_all hc _).mpr rfl, fun x => ⟨fun hx => ⟨?_, hx⟩, fun hx => hx.2⟩⟩
      obtain ⟨k, k1, k2, rfl⟩ := (mem_npSlice_iff hic).mp hx
      have := hall (k - i) (by omega)
      rwa [show i + (k - i) = k by omega] at this
    rw [hset, probReal_univ, show min T c = c by omega, Nat.choose_self]
    have := hF.low; have := hF.high
    constructor
    · norm_num; linarith
    · norm_num; linarith

theorem loop_prob (hF : FairDraw μ S lo hi T M) (hT : T ≠ 0) {permut : List Nat} (hnd : permut.Nodup) {t : IntType} (hu : t.signed = false) (hN : (permut.length : Int) ≤ t.hi) (hM : permut.length ≤ M) {W : Finset Nat} :
    ∀ (cs : List Nat) (i : Nat), i + cs.sum ≤ permut.length → RunsOK permut W T cs i →
    let p := (Measure.pi (fun _ : Fin cs.length => μ)).real {ω | ∃ ps, thresholdLoop permut t T (runSrc S cs (extend ω)) cs i 0 = .ok ps ∧ ∀ x, x ∈ ps.flatten ↔ x ∈ W ∧ x ∈ npSlice permut i (i + cs.sum)}
    lo ^ cs.length * (cs.map (fun c => 1 / ((c.choose (min T c) : Nat) : ℝ))).prod ≤ p ∧ p ≤ hi ^ cs.length * (cs.map (fun c => 1 / ((c.choose (min T c) : Nat) : ℝ))).prod
  | [], i, _, _ => by
    dsimp only
    rw [pi_univ μ]
    · simp
    · intro ω
      refine ⟨[], rfl, fun x => ?_⟩
      constructor
      · intro h
        simp at h
      · rintro ⟨-, h⟩
        simp [npSlice] at h
  | c :: cs, i, hic, ⟨hW, hR⟩ => by
    rw [List.sum_cons] at hic
    have ih := loop_prob hF hT hnd hu hN hM cs (i + c) (by omega) hR
    have hp := part_prob hF hT hnd hu hN hM (W := W) (i := i) (c := c) (by omega) hW
    dsimp only at ih hp ⊢
    have key := pi_split μ {w | ∃ p, partOf permut t T c i (S c w) = .ok p ∧ ∀ x, x ∈ p ↔ x ∈ W ∧ x ∈ npSlice permut i (i + c)}
      {ω : Fin cs.length → Ω | ∃ ps, thresholdLoop permut t T (runSrc S cs (extend ω)) cs (i + c) 0 = .ok ps ∧ ∀ x, x ∈ ps.flatten ↔ x ∈ W ∧ x ∈ npSlice permut (i + c) (i + c + cs.sum)}
      {ω : Fin (cs.length + 1) → Ω | ∃ ps, thresholdLoop permut t T (runSrc S (c :: cs) (extend ω)) (c :: cs) i 0 = .ok ps ∧ ∀ x, x ∈ ps.flatten ↔ x ∈ W ∧ x ∈ npSlice permut i (i + (c :: cs).sum)} ?_
    · have h1 : 0 ≤ (1 / ((c.choose (min T c) : Nat) : ℝ)) := by positivity
      have h2 : 0 ≤ (cs.map (fun c => 1 / ((c.choose (min T c) : Nat) : ℝ))).prod := List.prod_nonneg (by
        intro a ha
        obtain ⟨b, -, rfl⟩ := List.mem_map.mp ha
        positivity)
      have := mul_bounds (R := cs.length) hF.low.1 hF.high h1 h2 hp ih
      rw [List.map_cons, List.prod_cons]
      exact ⟨this.1.trans_eq key.symm, key.le.trans this.2⟩
    · intro ω
      have e0 : runSrc S (c :: cs) (extend ω) 0 = S c (ω 0) := by
        unfold runSrc
        rw [extend_zero]
        rfl
      have e1 : (fun k => runSrc S (c :: cs) (extend ω) (k + 1)) = runSrc S cs (extend fun j : Fin cs.length => ω j.succ) := by
        funext k
        have := congrFun (extend_succ ω) k
        unfold runSrc
        rw [← this]
        rfl
      rw [Set.mem_ofPred_eq, thresholdLoop_cons permut t T _ c cs i (fun ps => ∀ x, x ∈ ps.flatten ↔ x ∈ W ∧ x ∈ npSlice permut i (i + (c :: cs).sum)), e0, e1, List.sum_cons, ← Nat.add_assoc]
      have hsp : ∀ x, x ∈ npSlice permut i (i + c + cs.sum) ↔ x ∈ npSlice permut i (i + c) ∨ x ∈ npSlice permut (i + c) (i + c + cs.sum) := by
        intro x
        rw [← npSlice_append permut (a := i) (b := i + c) (by omega) (by omega), List.mem_append]
      have hlaw : ∀ j, (runSrc S cs (extend fun j : Fin cs.length => ω j.succ) j).Lawful := fun j => hF.lawful _ _
      constructor
      · rintro ⟨p, ps, h1, h2, h3⟩
        have m1 := partOf_mem hu (hF.lawful _ _) hN (by omega) hT h1
        have m2 := loop_mem hu hN hT cs (i + c) _ hlaw (by omega) ps h2
        have h3 : ∀ x, x ∈ p ∨ x ∈ ps.flatten ↔ x ∈ W ∧ x ∈ npSlice permut i (i + c + cs.sum) := fun x => by
          rw [← h3 x, List.flatten_cons, List.mem_append]
        refine ⟨⟨p, h1, fun x => ⟨fun hx => ⟨((h3 x).mp (Or.inl hx)).1, m1 x hx⟩, fun hx => ?_⟩⟩, ⟨ps, h2, fun x => ⟨fun hx => ⟨((h3 x).mp (Or.inr hx)).1, m2 x hx⟩, fun hx => ?_⟩⟩⟩
        · rcases (h3 x).mpr ⟨hx.1, (hsp x).mpr (Or.inl hx.2)⟩ with h | h
          · exact h
          · exact (slices_disjoint hnd (by omega) (by omega) hx.2 (m2 x h)).elim
        · rcases (h3 x).mpr ⟨hx.1, (hsp x).mpr (Or.inr hx.2)⟩ with h | h
          · exact (slices_disjoint hnd (by omega) (by omega) (m1 x h) hx.2).elim
          · exact h
      · rintro ⟨⟨p, h1, h2⟩, ⟨ps, h3, h4⟩⟩
        refine ⟨p, ps, h1, h3, fun x => ?_⟩
        rw [List.flatten_cons, List.mem_append, h2 x, h4 x, hsp x]
        tauto

/-! ### runs and values -/

theorem runs_value {s : List Int} (hsort : s.Pairwise (· ≤ ·)) {u : List Nat} {a b : Nat} (h : Bounds s (b :: u) a) (ha : a ∈ uniqueIdx s) :
    s.drop a = List.replicate (b - a) (s.getD a 0) ++ s.drop b ∧ s.getD a 0 ∉ s.drop b ∧ ∀ i < s.length, s.getD i 0 = s.getD a 0 ↔ a ≤ i ∧ i < b := by
  obtain ⟨h1, h2⟩ := h.le
  have hrun : ∀ i, a ≤ i → i < b → s.getD i 0 = s.getD a 0 := by
    intro i hi1 hi2
    have := h.run (i - a) (by omega)
    rw [show a + (i - a) = i by omega] at this
    simp only [List.getD_eq_getElem?_getD, this]
  have step : ∀ c ∈ uniqueIdx s, 0 < c → c < s.length → s.getD (c - 1) 0 < s.getD c 0 := by
    intro c hc hc0 hcl
    have h4 := sorted_lt hsort (i := c - 1) (j := c) (by omega) hcl
    have hne : s[c]? ≠ s[c - 1]? := by
      rcases (mem_uniqueIdx.mp hc).2 with h | h | h
      · omega
      · omega
      · exact h
    have hc1 : c - 1 < s.length := by omega
    rw [List.getElem?_eq_getElem hcl, List.getElem?_eq_getElem hc1] at hne
    have hne' : s[c] ≠ s[c - 1] := fun h => hne (by rw [h])
    simp only [List.getD_eq_getElem?_getD, List.getElem?_eq_getElem hcl, List.getElem?_eq_getElem hc1, Option.getD_some] at h4 ⊢
    omega
  have hlater : ∀ i, b ≤ i → i < s.length → s.getD a 0 < s.getD i 0 := by
    intro i hi hil
    have h3 := sorted_lt hsort (i := b) (j := i) hi hil
    have h4 := step b ((h.mem b).mp (by simp)).2 (by omega) (by omega)
    have h5 := hrun (b - 1) (by omega) (by omega)
    omega
  refine ⟨?_, ?_, fun i hi => ⟨fun e => ?_, fun e => hrun i e.1 e.2⟩⟩
  · have hsp : s.drop a = npSlice s a b ++ s.drop b := by
      have := npSlice_append s (a := a) (b := b) (c := s.length) (by omega) h2
      simp only [npSlice, List.take_length] at this
      rw [← this]; rfl
    rw [hsp]
    congr 1
    obtain ⟨w, hw⟩ := h.slice
    have hwa : w = s.getD a 0 := by
      simp only [npSlice] at hw
      have h0 : (List.drop a (List.take b s))[0]? = some w := by rw [hw, List.getElem?_replicate, if_pos (by omega)]
      rw [List.getElem?_drop, List.getElem?_take] at h0
      simp only [Nat.add_zero] at h0
      rw [if_pos h1] at h0
      simp [List.getD_eq_getElem?_getD, h0]
    rw [hw, hwa]
  · intro hm
    obtain ⟨i, hi, hiv⟩ := List.mem_iff_getElem.mp hm
    rw [List.length_drop] at hi
    rw [List.getElem_drop] at hiv
    have := hlater (b + i) (by omega) (by omega)
    have hbi : b + i < s.length := by omega
    simp only [List.getD_eq_getElem?_getD, List.getElem?_eq_getElem hbi, Option.getD_some] at this hiv
    omega
  · constructor
    · by_contra hlt
      have h3 := sorted_lt hsort (i := i) (j := a - 1) (by omega) (by omega)
      have h4 := step a ha (by omega) (by omega)
      omega
    · by_contra hge
      have := hlater i (by omega) hi
      omega

theorem runs_prod {s : List Int} (hsort : s.Pairwise (· ≤ ·)) (f : Nat → ℝ) : ∀ (u : List Nat) (a : Nat), Bounds s u a → a ≤ s.length → a ∈ uniqueIdx s →
    ((runCounts (a :: u)).map f).prod = ∏ v ∈ (s.drop a).toFinset, f ((s.drop a).count v)
  | [], a, h, ha, _ => by
    rw [List.drop_eq_nil_of_le (by have := h.nil ha; omega)]
    simp [runCounts]
  | b :: u, a, h, ha, hm => by
    obtain ⟨h1, h2⟩ := h.le
    have ih := runs_prod hsort f u b h.tail h2 ((h.mem b).mp (by simp)).2
    obtain ⟨r1, r2, -⟩ := runs_value hsort h hm
    have hv : s.getD a 0 ∉ (s.drop b).toFinset := by rwa [List.mem_toFinset]
    have hset : (s.drop a).toFinset = insert (s.getD a 0) (s.drop b).toFinset := by
      rw [r1, List.toFinset_append, List.toFinset_replicate_of_ne_zero (by omega)]
      rfl
    rw [runCounts_cons, List.map_cons, List.prod_cons, ih, hset, Finset.prod_insert hv]
    congr 1
    · rw [r1, List.count_append, List.count_replicate_self, List.count_eq_zero.mpr r2, Nat.add_zero]
    · refine Finset.prod_congr rfl fun v hv' => ?_
      have hne : s.getD a 0 ≠ v := fun e => hv (e ▸ hv')
      rw [r1, List.count_append, List.count_replicate]
      simp only [beq_iff_eq, hne, if_false, Nat.zero_add]

theorem runCounts_total {s : List Int} : ∀ (u : List Nat) (a : Nat), Bounds s u a → a ≤ s.length → a + (runCounts (a :: u)).sum = s.length
  | [], a, h, ha => by
    have := h.nil ha
    simp [runCounts]
    omega
  | b :: u, a, h, ha => by
    obtain ⟨h1, h2⟩ := h.le
    have := runCounts_total u b h.tail h2
    rw [runCounts_cons, List.sum_cons]
    omega

theorem runs_ok {permut : List Nat} {newIndex : List Int} (hp : permut.Perm (List.range newIndex.length)) {s : List Int} (hs : s = permut.map (fun i => newIndex.getD i 0)) (hc : s.Perm newIndex) (hsort : s.Pairwise (· ≤ ·)) {T : Nat} {W : Finset Nat}
    (hW : Selection newIndex T W) : ∀ (u : List Nat) (a : Nat), Bounds s u a → a ≤ s.length → a ∈ uniqueIdx s → RunsOK permut W T (runCounts (a :: u)) a
  | [], a, h, ha, _ => trivial
  | b :: u, a, h, ha, hm => by
    obtain ⟨h1, h2⟩ := h.le
    obtain ⟨r1, r2, r3⟩ := runs_value hsort h hm
    have hnd : permut.Nodup := hp.nodup_iff.mpr List.nodup_range
    have hl : s.length = permut.length := by rw [hs, List.length_map]
    have hkey : ∀ i < permut.length, newIndex.getD (permut.getD i 0) 0 = s.getD i 0 := by
      intro i hi
      rw [hs, getD_map' permut (fun j => newIndex.getD j 0) 0 0 hi]
    rw [runCounts_cons]
    refine ⟨?_, ?_⟩
    · have hcount : newIndex.count (s.getD a 0) = b - a := by
        rw [← hc.count_eq, ← List.take_append_drop a s, List.count_append, List.take_append_drop, r1, List.count_append, List.count_replicate_self, List.count_eq_zero.mpr r2]
        rw [List.count_eq_zero.mpr]
        · omega
        · intro hmem
          obtain ⟨i, hi, e⟩ := List.mem_iff_getElem.mp hmem
          rw [List.length_take] at hi
          rw [List.getElem_take] at e
          have hi' : i < s.length := by omega
          have := (r3 i hi').mp (by
            rw [← e]
            simp [hi'])
          omega
      rw [← hcount, ← hW.count (s.getD a 0)]
      have himg : ((inRun permut W a (newIndex.count (s.getD a 0))).map (fun x => permut.getD (a + x) 0)).toFinset = W.filter (fun x => newIndex.getD x 0 = s.getD a 0) := by
        rw [hcount]
        ext x
        rw [List.mem_toFinset, List.mem_map, Finset.mem_filter]
        unfold inRun
        simp only [List.mem_filter, List.mem_range, decide_eq_true_iff]
        constructor
        · rintro ⟨y, ⟨y1, y2⟩, rfl⟩
          refine ⟨y2, ?_⟩
          rw [hkey _ (by omega), (r3 (a + y) (by omega)).mpr ⟨by omega, by omega⟩]
        · rintro ⟨x1, x2⟩
          have hx := hW.lt x x1
          have hx' : x ∈ permut := hp.mem_iff.mpr (List.mem_range.mpr hx)
          obtain ⟨i, hi, rfl⟩ := List.mem_iff_getElem.mp hx'
          have e : permut.getD i 0 = permut[i] := by simp [hi]
          rw [← e, hkey i hi] at x2
          obtain ⟨i1, i2⟩ := (r3 i (by omega)).mp x2
          refine ⟨i - a, ⟨by omega, ?_⟩, ?_⟩
          · rw [show a + (i - a) = i by omega, e]
            exact x1
          · rw [show a + (i - a) = i by omega, e]
      rw [← himg, List.toFinset_card_of_nodup, List.length_map]
      refine List.Nodup.map_on ?_ ?_
      · intro x hx y hy e
        unfold inRun at hx hy
        rw [hcount, List.mem_filter, List.mem_range] at hx hy
        have := getD_inj hnd (by omega) (by omega) e
        omega
      · exact List.Nodup.filter _ List.nodup_range
    · rw [show a + (b - a) = b by omega]
      exact runs_ok hp hs hc hsort hW u b h.tail h2 ((h.mem b).mp (by simp)).2

theorem sort_prob (hF : FairDraw μ S lo hi T M) (hT : T ≠ 0) {argsort : List Int → List Nat} (ha : ArgsortLaw argsort) {newIndex : List Int} {t : IntType} (hu : t.signed = false) (hN : (newIndex.length : Int) ≤ t.hi) (hM : newIndex.length ≤ M) {W : Finset Nat}
    (hW : Selection newIndex T W) :
    let sizes := runSizes (argsort newIndex) newIndex
    let p := (Measure.pi (fun _ : Fin sizes.length => μ)).real {ω | ∃ p u, sortAndThreshold (argsort newIndex) newIndex t T (runSrc S sizes (extend ω)) = .ok (p, u) ∧ ∀ x, x ∈ p ↔ x ∈ W}
    sizes.length = newIndex.toFinset.card ∧ lo ^ sizes.length * selectionProb newIndex T ≤ p ∧ p ≤ hi ^ sizes.length * selectionProb newIndex T := by
  have hperm := ha.perm newIndex
  have hlen : (argsort newIndex).length = newIndex.length := by rw [hperm.length_eq]; simp
  have hnd : (argsort newIndex).Nodup := hperm.nodup_iff.mpr List.nodup_range
  obtain ⟨s, hs1, hs2⟩ := gather_perm newIndex _ hperm
  have hsort := ha.sorted _ _ hs1
  obtain ⟨hs3, hs4⟩ := gather_inv 0 hs1
  have hsl : s.length = (argsort newIndex).length := by rw [hs4]; simp
  have hsizes : runSizes (argsort newIndex) newIndex = runCounts (uniqueIdx s) := by
    unfold runSizes
    rw [hs1]
  obtain ⟨r, hr, hb⟩ := bounds_start s
  have h0 : 0 ∈ uniqueIdx s := by rw [hr]; simp
  rw [hsizes, hr]
  have hsum := runCounts_total r 0 hb (by omega)
  rw [Nat.zero_add] at hsum
  have hprod := fun f => runs_prod hsort f r 0 hb (by omega) h0
  have hfin : s.toFinset = newIndex.toFinset := List.toFinset_eq_of_perm _ _ hs2
  simp only [List.drop_zero, hfin, hs2.count_eq] at hprod
  have hcard : (runCounts (0 :: r)).length = newIndex.toFinset.card := by
    have := hprod (fun _ => 2)
    rw [List.map_const', List.prod_replicate, Finset.prod_const] at this
    exact Nat.pow_right_injective (le_refl 2) (by exact_mod_cast this)
  have hsel : selectionProb newIndex T = ((runCounts (0 :: r)).map (fun c => 1 / ((c.choose (min T c) : Nat) : ℝ))).prod := by
    rw [hprod]
    rfl
  have key := loop_prob hF hT hnd hu (by rw [hlen]; exact hN) (by rw [hlen]; exact hM) (W := W) (runCounts (0 :: r)) 0 (by omega) (runs_ok hperm hs4 hs2 hsort hW r 0 hb (by omega) h0)
  dsimp only at key ⊢
  refine ⟨hcard, ?_⟩
  rw [hsel]
  have hset : {ω : Fin (runCounts (0 :: r)).length → Ω | ∃ p u, sortAndThreshold (argsort newIndex) newIndex t T (runSrc S (runCounts (0 :: r)) (extend ω)) = .ok (p, u) ∧ ∀ x, x ∈ p ↔ x ∈ W} =
      {ω | ∃ ps, thresholdLoop (argsort newIndex) t T (runSrc S (runCounts (0 :: r)) (extend ω)) (runCounts (0 :: r)) 0 0 = .ok ps ∧ ∀ x, x ∈ ps.flatten ↔ x ∈ W ∧ x ∈ npSlice (argsort newIndex) 0 (0 + (runCounts (0 :: r)).sum)} := by
    have hall : ∀ x ∈ W, x ∈ npSlice (argsort newIndex) 0 (0 + (runCounts (0 :: r)).sum) := by
      intro x hx
      rw [Nat.zero_add, hsum, hsl]
      unfold npSlice
      rw [List.take_length, List.drop_zero]
      exact hperm.mem_iff.mpr (List.mem_range.mpr (hW.lt x hx))
    ext ω
    constructor
    · rintro ⟨p, u, h1, h2⟩
      unfold sortAndThreshold at h1
      rw [hs1] at h1
      dsimp only at h1
      rw [hr] at h1
      split at h1
      · cases h1
      · rename_i ps hps
        cases h1
        exact ⟨ps, hps, fun x => ⟨fun hx => ⟨(h2 x).mp hx, hall x ((h2 x).mp hx)⟩, fun hx => (h2 x).mpr hx.1⟩⟩
    · rintro ⟨ps, h1, h2⟩
      refine ⟨ps.flatten, uniqueIdx s, ?_, fun x => ⟨fun hx => ((h2 x).mp hx).1, fun hx => (h2 x).mpr ⟨hx, hall x hx⟩⟩⟩
      unfold sortAndThreshold
      rw [hs1]
      dsimp only
      rw [hr, h1]
  rw [hset]
  exact key

/-! ### a block -/

theorem count_map_inj {α : Type} [BEq α] [LawfulBEq α] (f : α → Int) (l : List α) (hf : ∀ x ∈ l, ∀ y ∈ l, f x = f y → x = y) {a : α} (ha : a ∈ l) : (l.map f).count (f a) = l.count a := by
  rw [List.count_eq_countP, List.countP_map, List.count_eq_countP]
  refine List.countP_congr fun x hx => ?_
  simp only [Function.comp, beq_iff_eq]
  exact ⟨hf x hx a ha, fun h => by rw [h]⟩

theorem prod_map_inj {α : Type} [DecidableEq α] [BEq α] [LawfulBEq α] (f : α → Int) (l : List α) (hf : ∀ x ∈ l, ∀ y ∈ l, f x = f y → x = y) (g : Nat → ℝ) :
    ∏ v ∈ (l.map f).toFinset, g ((l.map f).count v) = ∏ r ∈ l.toFinset, g (l.count r) := by
  have e : (l.map f).toFinset = l.toFinset.image f := by
    ext x
    simp
  rw [e, Finset.prod_image]
  · refine Finset.prod_congr rfl fun r hr => ?_
    rw [count_map_inj f l hf (List.mem_toFinset.mp hr)]
  · intro x hx y hy
    exact hf x (by simpa using hx) y (by simpa using hy)

/-- the positions of the triplets in `Q` -/
def keptAt (trips : List (Nat × Nat × Nat)) (Q : Finset (Nat × Nat × Nat)) : Finset Nat := (Finset.range trips.length).filter (fun i => trips.getD i (0, 0, 0) ∈ Q)

theorem zip_filter_card {α β : Type} (d : α) (e : β) (P : α → β → Prop) [∀ a b, Decidable (P a b)] : ∀ (l : List α) (m : List β), l.length = m.length →
    ((Finset.range l.length).filter (fun i => P (l.getD i d) (m.getD i e))).card = ((l.zip m).filter (fun p => P p.1 p.2)).length
  | [], [], _ => rfl
  | a :: l, b :: m, h => by
    have ih := zip_filter_card d e P l m (by simpa using h)
    rw [List.length_cons, Finset.range_eq_Ico, Finset.card_filter, Finset.sum_Ico_succ_top (Nat.zero_le _), ← Finset.range_eq_Ico, ← Finset.sum_range_succ, Finset.sum_range_succ', ← Finset.card_filter]
    simp only [List.getD_cons_succ, List.getD_cons_zero, List.zip_cons_cons, List.filter_cons]
    rw [ih]
    split_ifs with h1 h2 h2
    · simp
    · simp_all
    · simp_all
    · simp

theorem choice_selection {trips : List (Nat × Nat × Nat)} {rows : List (List Nat)} (hl : trips.length = rows.length) {f : List Nat → Int} (hf : ∀ x ∈ rows, ∀ y ∈ rows, f x = f y → x = y) {T : Nat} {Q : Finset (Nat × Nat × Nat)}
    (hQ : Choice trips rows T Q) : Selection (rows.map f) T (keptAt trips Q) := by
  constructor
  · intro x hx
    unfold keptAt at hx
    rw [Finset.mem_filter, Finset.mem_range] at hx
    rw [List.length_map, ← hl]
    exact hx.1
  · intro v
    by_cases hv : ∃ r ∈ rows, f r = v
    · obtain ⟨r, hr, rfl⟩ := hv
      rw [count_map_inj f rows hf hr, ← hQ.count r]
      rw [← zip_filter_card (0, 0, 0) [] (fun a b => b = r ∧ a ∈ Q) trips rows hl]
      congr 1
      unfold keptAt
      rw [Finset.filter_filter]
      refine Finset.filter_congr fun i hi => ?_
      rw [Finset.mem_range] at hi
      have hi' : i < rows.length := by omega
      rw [getD_map' rows f [] 0 hi']
      have hm : rows.getD i [] ∈ rows := by simp [hi']
      constructor
      · rintro ⟨a, b⟩
        exact ⟨hf _ hm _ hr b, a⟩
      · rintro ⟨a, b⟩
        exact ⟨b, by rw [a]⟩
    · have h0 : (rows.map f).count v = 0 := by
        rw [List.count_eq_zero]
        intro h
        obtain ⟨r, hr, e⟩ := List.mem_map.mp h
        exact hv ⟨r, hr, e⟩
      rw [h0, Nat.min_zero, Finset.card_eq_zero, Finset.filter_eq_empty_iff]
      intro i hi e
      unfold keptAt at hi
      rw [Finset.mem_filter, Finset.mem_range] at hi
      have hi' : i < rows.length := by omega
      rw [getD_map' rows f [] 0 hi'] at e
      exact hv ⟨_, by simp [hi'], e⟩

theorem gather_mem_kept {trips : List (Nat × Nat × Nat)} (hn : trips.Nodup) {Q : Finset (Nat × Nat × Nat)} (hQ : ∀ q ∈ Q, q ∈ trips) (p : List Nat) :
    (∃ r, gather trips p = .ok r ∧ ∀ t, t ∈ r ↔ t ∈ Q) ↔ ∀ x, x ∈ p ↔ x ∈ keptAt trips Q := by
  have hpos : ∀ x, x ∈ keptAt trips Q ↔ x < trips.length ∧ trips.getD x (0, 0, 0) ∈ Q := by
    intro x
    unfold keptAt
    rw [Finset.mem_filter, Finset.mem_range]
  constructor
  · rintro ⟨r, h1, h2⟩ x
    obtain ⟨g1, g2⟩ := gather_inv (0, 0, 0) h1
    rw [hpos]
    constructor
    · intro hx
      exact ⟨g1 x hx, (h2 _).mp (by rw [g2]; exact List.mem_map_of_mem hx)⟩
    · rintro ⟨a, b⟩
      have := (h2 _).mpr b
      rw [g2] at this
      obtain ⟨y, hy, e⟩ := List.mem_map.mp this
      have hy' := g1 y hy
      simp only [List.getD_eq_getElem?_getD, List.getElem?_eq_getElem hy', List.getElem?_eq_getElem a, Option.getD_some] at e
      rw [← (List.Nodup.getElem_inj_iff hn).mp e]
      exact hy
  · intro h
    have hlt : ∀ x ∈ p, x < trips.length := fun x hx => ((hpos x).mp ((h x).mp hx)).1
    have hg : ∃ r, gather trips p = .ok r := by
      clear h
      induction p with
      | nil => exact ⟨[], rfl⟩
      | cons i p ih =>
        obtain ⟨r, hr⟩ := ih (fun x hx => hlt x (List.mem_cons_of_mem _ hx))
        exact ⟨trips[i]'(hlt i (by simp)) :: r, by simp [gather, hr, List.getElem?_eq_getElem (hlt i (by simp))]⟩
    obtain ⟨r, hr⟩ := hg
    obtain ⟨g1, g2⟩ := gather_inv (0, 0, 0) hr
    refine ⟨r, hr, fun t => ?_⟩
    rw [g2, List.mem_map]
    constructor
    · rintro ⟨x, hx, rfl⟩
      exact ((hpos x).mp ((h x).mp hx)).2
    · intro ht
      obtain ⟨i, hi, rfl⟩ := List.mem_iff_getElem.mp (hQ t ht)
      have e : trips.getD i (0, 0, 0) = trips[i] := by simp [hi]
      exact ⟨i, (h i).mpr ((hpos i).mpr ⟨hi, by rw [e]; exact ht⟩), e⟩

/-- the indices of the triplets of a block -/
def blockIndex (N : Num) (S : List Tri) (K : List (Tri → Nat)) : List Int := S.map (fun t => N.index (nRegs (K.map (fun k => S.map k))) (keyRow K t))

theorem cast64_small {n : Nat} (h : n ≤ 2 ^ 53) : (⟨64, true⟩ : IntType).cast (n : Nat) = (n : Nat) := by
  simp only [IntType.cast, IntType.lo, if_true]
  norm_num
  omega

theorem sortBlock_back {N : Num} {T : Nat} {src : Nat → Src} {L : List Tri} (hL : L ≠ []) {K : List (Tri → Nat)} (hK : K ≠ []) {t : IntType} (ht : fitIntegerType ((⟨64, true⟩ : IntType).cast ((nRegs (K.map (fun k => L.map k))).prod : Nat)) false = .ok t)
    {p ix : List Nat} {r : List (Nat × Nat × Nat)} (h1 : sortAndThreshold (N.argsort (blockIndex N L K)) (blockIndex N L K) t T src = .ok (p, ix)) (h2 : gather (L.map lab) p = .ok r) :
    sortBlock N T src (L.map lab) (K.map (fun k => L.map k)) = .ok (r, p, ix) := by
  have hne : ¬ (rowsOf (K.map (fun k => L.map k))).isEmpty = true := by
    rw [rowsOf_isEmpty]
    push Not
    exact ⟨hK, hL⟩
  have hb : (L.map (fun t => K.map (fun k => k t))).map (N.index (nRegs (K.map (fun k => L.map k)))) = blockIndex N L K := by
    unfold blockIndex
    rw [List.map_map]
    rfl
  unfold sortBlock
  rw [if_neg hne, rowsOf_map K L hK, hb]
  split
  · rename_i er her
    rw [her] at ht
    cases ht
  · rename_i t' ht'
    have e : t' = t := Except.ok.inj (ht'.symm.trans ht)
    subst e
    dsimp only
    rw [h1]
    dsimp only
    rw [h2]

theorem block_prob (hF : FairDraw μ S lo hi T M) (hT : T ≠ 0) {N : Num} (ha : ArgsortLaw N.argsort) (hN : N.Exact) {L : List Tri} (hL : L ≠ []) (hn : (L.map lab).Nodup) {K : List (Tri → Nat)} (hK : K ≠ [])
    (hprod : (nRegs (K.map (fun k => L.map k))).prod ≤ 2 ^ 53) (hfit : ∀ t, fitIntegerType ((nRegs (K.map (fun k => L.map k))).prod : Nat) false = .ok t → (L.length : Int) ≤ t.hi) (hM : L.length ≤ M) {Q : Finset (Nat × Nat × Nat)}
    (hQ : Choice (L.map lab) (L.map (keyRow K)) T Q) :
    let sizes := runSizes (N.argsort (blockIndex N L K)) (blockIndex N L K)
    let p := (Measure.pi (fun _ : Fin sizes.length => μ)).real {ω | ∃ trips p u, sortBlock N T (runSrc S sizes (extend ω)) (L.map lab) (K.map (fun k => L.map k)) = .ok (trips, p, u) ∧ ∀ x, x ∈ trips ↔ x ∈ Q}
    sizes.length = (L.map (keyRow K)).toFinset.card ∧ lo ^ sizes.length * choiceProb (L.map (keyRow K)) T ≤ p ∧ p ≤ hi ^ sizes.length * choiceProb (L.map (keyRow K)) T := by
  set ix := N.index (nRegs (K.map (fun k => L.map k))) with hix
  have hinj : ∀ x ∈ L.map (keyRow K), ∀ y ∈ L.map (keyRow K), ix x = ix y → x = y := by
    intro x hx y hy e
    obtain ⟨t, ht, rfl⟩ := List.mem_map.mp hx
    obtain ⟨u, hu, rfl⟩ := List.mem_map.mp hy
    exact index_inj hN K hprod ht hu e
  have hbi : blockIndex N L K = (L.map (keyRow K)).map ix := by
    unfold blockIndex
    rw [List.map_map]
    rfl
  have hcast := cast64_small hprod
  obtain ⟨t, ht⟩ := fit_cast64 (nRegs (K.map (fun k => L.map k))).prod
  have ht' := ht
  rw [hcast] at ht'
  have hsel := choice_selection (trips := L.map lab) (rows := L.map (keyRow K)) (by simp) hinj hQ
  rw [← hbi] at hsel
  have key := sort_prob hF hT ha (newIndex := blockIndex N L K) (t := t) (fit_signed ht) (by unfold blockIndex; rw [List.length_map]; exact hfit t ht') (by unfold blockIndex; rw [List.length_map]; exact hM) hsel
  dsimp only at key ⊢
  have e1 : selectionProb (blockIndex N L K) T = choiceProb (L.map (keyRow K)) T := by
    unfold selectionProb choiceProb
    rw [hbi]
    exact prod_map_inj ix _ hinj (fun c => 1 / ((c.choose (min T c) : Nat) : ℝ))
  have e2 : (blockIndex N L K).toFinset.card = (L.map (keyRow K)).toFinset.card := by
    have h := prod_map_inj ix _ hinj (fun _ => 2)
    rw [← hbi, Finset.prod_const, Finset.prod_const] at h
    exact Nat.pow_right_injective (le_refl 2) (by exact_mod_cast h)
  rw [e1, e2] at key
  have hset : ∀ src, (∃ trips p u, sortBlock N T src (L.map lab) (K.map (fun k => L.map k)) = .ok (trips, p, u) ∧ ∀ x, x ∈ trips ↔ x ∈ Q) ↔
      ∃ p u, sortAndThreshold (N.argsort (blockIndex N L K)) (blockIndex N L K) t T src = .ok (p, u) ∧ ∀ x, x ∈ p ↔ x ∈ keptAt (L.map lab) Q := by
    intro src
    constructor
    · rintro ⟨trips, p, u, h1, h2⟩
      rcases sortBlock_cases h1 with ⟨a | a, -⟩ | ⟨-, -, t', -, a, b, d⟩
      · exact absurd a hK
      · exact absurd a hL
      · rw [ht] at a
        injection a with a
        subst a
        exact ⟨p, u, b, (gather_mem_kept hn hQ.mem p).mp ⟨_, d, h2⟩⟩
    · rintro ⟨p, u, h1, h2⟩
      obtain ⟨r, hr, h3⟩ := (gather_mem_kept hn hQ.mem p).mpr h2
      exact ⟨r, p, u, sortBlock_back hL hK ht h1 hr, h3⟩
  simp only [hset]
  exact key

/-! ### the random numbers of the code -/

noncomputable instance draws_inhabited (M R : Nat) : Inhabited (Draws M R) := ⟨fun _ => (fun _ => 0, fun k _ i => ⟨i.val, by omega⟩)⟩

instance draws_prob (M R : Nat) : IsProbabilityMeasure (draws M R) := by
  unfold draws
  infer_instance

theorem drawSrc_lawful (M R T c : Nat) (w : Draws M R) : (drawSrc M R T c w).Lawful := by
  have hp : ∀ {k n : Nat} (v : Fin R → Fin k → Fin n), (∀ N' i j, (padDraw v N' i j).length = j) ∧ ∀ N' i j, 0 < N' → ∀ x ∈ padDraw v N' i j, x < N' := by
    intro k n v
    constructor
    · intro N' i j
      unfold padDraw
      split
      · rename_i h
        exact drawOf_length v h.1 h.2.1
      · simp
    · intro N' i j h0 x hx
      unfold padDraw at hx
      split at hx
      · rename_i h
        rw [h.2.2]
        exact drawOf_lt v i j x hx
      · rw [List.eq_of_mem_replicate hx]
        exact h0
  have hz : (∀ _N' _i j : Nat, (List.replicate j 0).length = j) ∧ ∀ N' _i j : Nat, 0 < N' → ∀ x ∈ List.replicate j 0, x < N' :=
    ⟨fun _ _ j => by simp, fun N' _ j h0 x hx => by rw [List.eq_of_mem_replicate hx]; exact h0⟩
  constructor
  · intro i
    unfold drawSrc
    dsimp only
    split
    · exact stream_lt _ _
    · positivity
  · intro N' i j
    unfold drawSrc
    dsimp only
    split
    · split
      · exact (hp _).1 N' i j
      · exact hz.1 N' i j
    · exact hz.1 N' i j
  · intro N' i j
    unfold drawSrc
    dsimp only
    split
    · split
      · exact (hp _).2 N' i j
      · exact hz.2 N' i j
    · exact hz.2 N' i j

theorem drawSrc_event {M R T c : Nat} {l : List Nat} (hc : c < M + 1) (hR : M ≤ R) (hT : T ≤ c) (hl : l.length = T) (w : Draws M R) :
    sampleWithoutReplacement T c (drawSrc M R T c w) = .ok l ↔ w ⟨c, hc⟩ ∈ swrEvent R c l (by omega) := by
  subst hl
  have hu : (drawSrc M R l.length c w).u = stream (w ⟨c, hc⟩).1 := by
    unfold drawSrc
    dsimp only
    rw [dif_pos hc]
  have hd : (drawSrc M R l.length c w).draw = padDraw ((w ⟨c, hc⟩).2 ⟨l.length, by show l.length < c + 1; omega⟩) := by
    unfold drawSrc
    dsimp only
    rw [dif_pos hc, dif_pos (by omega : l.length < c + 1)]
  have hf : (drawSrc M R l.length c w).fuel = R := rfl
  unfold sampleWithoutReplacement swrEvent
  rw [hu, hd, hf, rejection_pad, knuth_more hT _ (stream_lt _) (by omega)]
  by_cases h : c > 100 ∧ 10 * l.length < 6 * c
  · rw [if_pos h, if_pos h]
    rfl
  · rw [if_neg h, if_neg h]
    rfl

theorem fairDraw_eventually {M T : Nat} (hM : M ≤ 2 ^ 53) {lo : ℝ} (h0 : 0 ≤ lo) (h1 : lo < (1 - (M : ℝ) / 2 ^ 53) ^ M) :
    ∀ᶠ R in atTop, FairDraw (draws M R) (fun c => drawSrc M R T c) lo ((1 + (M : ℝ) / 2 ^ 53) ^ M) T M := by
  set D := (1 - (M : ℝ) / 2 ^ 53) ^ M with hD
  have hE1 : 1 ≤ (1 + (M : ℝ) / 2 ^ 53) := by
    have : 0 ≤ (M : ℝ) / 2 ^ 53 := by positivity
    linarith
  have hEM : 1 ≤ (1 + (M : ℝ) / 2 ^ 53) ^ M := one_le_pow₀ hE1
  have hD0 : 0 < D := lt_of_le_of_lt h0 h1
  have hD1 : D ≤ 1 := by
    refine pow_le_one₀ ?_ ?_
    · rw [sub_nonneg, div_le_one (by positivity)]
      exact_mod_cast hM
    · have : 0 ≤ (M : ℝ) / 2 ^ 53 := by positivity
      linarith
  have hq : lo / D < 1 := (div_lt_one hD0).mpr h1
  have hq0 : 0 ≤ lo / D := by positivity
  set ε := (1 - lo / D) / 2 with hε
  have hε0 : 0 < ε := by linarith
  have hε1 : ε < 1 := by linarith
  have hlo : lo ≤ (1 - ε) * D := by
    have : lo / D ≤ 1 - ε := by linarith
    rwa [div_le_iff₀ hD0] at this
  have ev : ∀ᶠ R in atTop, ∀ n : Fin (M + 1), T < n.val → ∀ l : List Nat, (hl : l.length = T ∧ T < n.val) → StrictInc l → (∀ x ∈ l, x < n.val) →
      let p := ((uniformOn (univ : Set (Fin n.val → Fin (2 ^ 53)))).prod (Measure.pi fun k : Fin (n.val + 1) => uniformOn (univ : Set (Fin R → Fin k.val → Fin n.val)))).real (swrEvent R n.val l (by omega))
      (1 - ε) * D ≤ p * n.val.choose T ∧ p * n.val.choose T ≤ (1 + (M : ℝ) / 2 ^ 53) ^ M := by
    refine eventually_all.mpr fun n => ?_
    by_cases h : T < n.val
    · exact (swr_bounds (k := T) (by omega) (by omega) hM (by omega) hε0 hε1).mono fun R hR _ l hl => hR l hl.1
    · exact Eventually.of_forall fun R b => absurd b h
  filter_upwards [ev, eventually_ge_atTop M] with R hR hRM
  refine ⟨fun c w => drawSrc_lawful M R T c w, ⟨h0, (h1.le).trans hD1⟩, hEM, ?_⟩
  intro c l hc hcM hl1 hl2 hl3
  have hc' : c < M + 1 := by omega
  have hq' := hR ⟨c, hc'⟩ hc l ⟨hl3, hc⟩ hl1 hl2
  dsimp only at hq' ⊢
  have hset : {w | sampleWithoutReplacement T c (drawSrc M R T c w) = .ok l} = {v | v ⟨c, hc'⟩ ∈ swrEvent R c l (by omega)} := by
    ext w
    exact drawSrc_event hc' hRM (by omega) hl3 w
  have hpi : (draws M R).real {v | v ⟨c, hc'⟩ ∈ swrEvent R c l (by omega)} =
      ((uniformOn (univ : Set (Fin c → Fin (2 ^ 53)))).prod (Measure.pi fun k : Fin (c + 1) => uniformOn (univ : Set (Fin R → Fin k.val → Fin c)))).real (swrEvent R c l (by omega)) :=
    pi_eval_real (fun n : Fin (M + 1) => (uniformOn (univ : Set (Fin n.val → Fin (2 ^ 53)))).prod (Measure.pi fun k : Fin (n.val + 1) => uniformOn (univ : Set (Fin R → Fin k.val → Fin n.val)))) ⟨c, hc'⟩ _
  rw [hset, hpi]
  have hch : (0 : ℝ) < c.choose T := by exact_mod_cast Nat.choose_pos hc.le
  rw [mul_one_div, mul_one_div, div_le_iff₀ hch, le_div_iff₀ hch]
  exact ⟨hlo.trans hq'.1, hq'.2⟩

end ABX.Task
