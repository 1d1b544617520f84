import Verif.Proofs.TaskGenTotal2
import Verif.Properties.Pipeline
/-!
Property C78: when a task file is written; and C77, that the experiment ends.
-/
namespace ABX.Task
open ExtSort SideOps Sampler Pairs
variable {ρ : Type}

section
variable {e : Env} (he : e.Lawful) {a : Args ρ} (ha : a.OK) {T : Task ρ} (h : init e a = .ok T)
include h

theorem abx_iff : T.regressors.ops .ABX = [] ↔ ∀ f ∈ a.regressors, Spec.mixed a.cols f = false := by
  rw [mgr_abx (init_ok h).2.2.2.2.2.1]
  constructor
  · exact fun h f hf => h f (List.mem_append_left _ hf)
  · intro h f hf
    rcases List.mem_append.mp hf with hf | hf
    · exact h f hf
    · exact default_mixed f hf

include he ha

theorem level_of_db {L : Level ρ} (hL : L ∈ T.levels) : ∃ p ∈ a.db, levelKey a p.2 = L.key := by
  obtain ⟨fr0, I⟩ := init_level he ha h hL
  obtain ⟨q, hq, hqk⟩ := I.keyMem
  obtain ⟨p, hp, hpq⟩ := forall₂_mem_left (prep_sim a) q hq
  refine ⟨p, hp, ?_⟩
  obtain ⟨q', hq', hk'⟩ := levelKey_prep (init_ok h).1 hp
  rw [← hqk]
  unfold levelKey
  by_cases hb : a.by_ = []
  · rw [if_pos hb, (prep_by a hb).1, keyOf, List.map_cons, List.map_nil, (prep_by a hb).2 q hq]
  · rw [if_neg hb, prep_by' a hb, keyOf]
    obtain ⟨_, _, h3, h4⟩ := checkDatabase_ok (init_ok h).1
    apply List.map_congr_left
    intro c hc
    exact (hpq.2 c (h4 c (h3 c hc)).1 (h4 c (h3 c hc)).2).symm

theorem level_exists : (∃ p ∈ a.db, tripsSpec a (levelKey a p.2) ≠ []) → ∃ L ∈ T.levels, tripsSpec a L.key ≠ [] := by
  rintro ⟨p, hp, hne⟩
  rcases C04_levels he ha h hp with ⟨L, hL, hk⟩ | h0
  · exact ⟨L, hL, by rw [hk]; exact hne⟩
  · exact absurd (List.map_eq_nil_iff.mp h0) hne

end

theorem total_pos {a : Args ρ} {T : Task ρ} : ∀ L ∈ T.levels, tripsSpec a L.key ≠ [] → (T.levels.map (fun L => (tripsSpec a L.key).length)).sum ≠ 0 := by
  intro L hL hne h0
  rw [List.sum_eq_zero_iff] at h0
  have := h0 _ (List.mem_map.mpr ⟨L, hL, rfl⟩)
  exact hne (List.length_eq_zero_iff.mp this)

/-- C78: what `generate_triplets` does without threshold: nothing when no level has triplets; a `ValueError` when a regressor of the user reads two of A, B and X; otherwise it writes the file.  Missing: a threshold, and
filters without suffix that remove other items than the last ones (for which the number of triplets is wrong, C03 and C04). -/
theorem C78_outcome_partial {e : Env} (he : e.Lawful) {a : Args ρ} (ha : a.OK) (hf : Spec'.KeptFirst a) {T : Task ρ} (h : init e a = .ok T)
    {N : Num} (hN : ArgsortLaw N.argsort) {src : List Val → List Val → Nat → Src} {bl1 bl2 : Nat} (h1 : 0 < bl1) (h2 : 0 < bl2) :
    ((∀ p ∈ a.db, tripsSpec a (levelKey a p.2) = []) → generate e N 0 src bl1 bl2 T = .ok none) ∧
    ((∃ p ∈ a.db, tripsSpec a (levelKey a p.2) ≠ []) → (∃ f ∈ a.regressors, Spec.mixed a.cols f = true) → generate e N 0 src bl1 bl2 T = .error .valueError) ∧
    ((∃ p ∈ a.db, tripsSpec a (levelKey a p.2) ≠ []) → (∀ f ∈ a.regressors, Spec.mixed a.cols f = false) → ∃ F, generate e N 0 src bl1 bl2 T = .ok (some F)) := by
  have hnb := (C03_spec he ha hf h).1
  have hkey := fun L hL => level_of_db he ha h (L := L) hL
  have habx := abx_iff h
  have hlevel := level_exists he ha h
  have hpos := total_pos (T := T) (a := a)
  refine ⟨?_, ?_, ?_⟩
  · intro h0
    have hz : (T.levels.map (fun L => (tripsSpec a L.key).length)).sum = 0 := by
      rw [List.sum_eq_zero_iff]
      intro n hn
      obtain ⟨L, hL, rfl⟩ := List.mem_map.mp hn
      obtain ⟨p, hp, hk⟩ := hkey L hL
      rw [← hk, h0 p hp]
      rfl
    unfold generate
    rw [hnb, hz]
    rfl
  · intro hne hmix
    obtain ⟨L, hL, hLne⟩ := hlevel hne
    have hab : T.regressors.ops .ABX ≠ [] := by
      intro h0
      obtain ⟨f, hf, hm⟩ := hmix
      rw [habx.mp h0 f hf] at hm
      cases hm
    have hone : ∀ L ∈ T.levels, levelOut e N 0 src T L = .error .valueError ∨ levelOut e N 0 src T L = .ok [] := by
      intro L hL
      obtain ⟨fr0, I⟩ := init_level he ha h hL
      exact (levelOut_total I.hyp I.reg (positional he ha hf h hL) I.nonempty hN).1 hab
    have hne' : levelOut e N 0 src T L ≠ .ok [] := by
      intro h0
      have := (C03_spec he ha hf h).2 L hL
      have h3 := C03_level he ha h hL hN this h0
      exact hLne (by simpa using h3)
    have hseq : sequence (T.levels.map (fun L => (levelOut e N 0 src T L).map (fun o => (L.key, o)))) = .error .valueError := by
      rcases sequence_err_or_ok (l := T.levels.map (fun L => (levelOut e N 0 src T L).map (fun o => (L.key, o)))) (er := .valueError) (by
        intro x hx
        obtain ⟨L, hL, rfl⟩ := List.mem_map.mp hx
        rcases hone L hL with h' | h' <;> rw [h']
        · exact .inl rfl
        · exact .inr ⟨_, rfl⟩) with h' | ⟨ys, h'⟩
      · exact h'
      · exfalso
        obtain ⟨y, -, hy⟩ := forall₂_mem_left (sequence_inv h') L hL
        rcases hone L hL with h'' | h''
        · rw [h''] at hy; cases hy
        · exact hne' h''
    unfold generate
    rw [hnb]
    dsimp only
    rw [if_neg (by exact_mod_cast hpos L hL hLne)]
    obtain ⟨t, ht⟩ := fit_total63 (total_lt he ha h)
    obtain ⟨tb, htb⟩ := fit_total63 (blocks_lt he ha h)
    rw [ht]
    dsimp only
    rw [htb]
    dsimp only
    rw [hseq]
  · intro hne hmix
    obtain ⟨L, hL, hLne⟩ := hlevel hne
    obtain ⟨outs, ho⟩ : ∃ outs, List.Forall₂ (fun L os => levelOut e N 0 src T L = .ok os) T.levels outs := by
      obtain ⟨ys, -, hy⟩ := sequence_exists (f := levelOut e N 0 src T) (Q := fun L os => levelOut e N 0 src T L = .ok os) (l := T.levels) (by
        intro L' hL'
        obtain ⟨fr0, I⟩ := init_level he ha h hL'
        obtain ⟨os, hos⟩ := (levelOut_total (src := src) I.hyp I.reg (positional he ha hf h hL') I.nonempty hN).2 (habx.mpr hmix) (fun row => sort_some he ha h hL hLne row)
        exact ⟨os, hos, hos⟩)
      exact ⟨ys, hy⟩
    have hsum := C03_total he ha h hN hnb ho
    exact generate_total h1 h2 hnb (hpos L hL hLne) (total_lt he ha h) (blocks_lt he ha h) ho (by omega)

/-! ### examples -/

/-- a regressor that reads A and X: whether they have the same speaker -/
def sameAX : DBFun Nat := ⟨[("sp", .A), ("sp", .X)], fun e => if e ("sp", .A) == e ("sp", .X) then 1 else 0, by
  intro e e' h
  rw [h ("sp", .A) (by simp), h ("sp", .X) (by simp)]⟩

theorem sameAX_avail {c : Cols} : ∀ f ∈ [sameAX], Avail c f := by
  intro f hf
  rw [List.mem_singleton.mp hf]
  constructor
  · intro v hv h
    simp only [sameAX, List.mem_cons, List.not_mem_nil, or_false] at hv
    rcases hv with rfl | rfl <;> cases h
  · rintro ⟨v, hv, -, h⟩
    simp only [sameAX, List.mem_cons, List.not_mem_nil, or_false] at hv
    rcases hv with rfl | rfl <;> cases h

/-- the task `ex1` with this regressor -/
def exMixed : Args Nat := args0 [mk "a" 1, mk "a" 1, mk "b" 1, mk "b" 1, mk "a" 2] [] [sameAX]

theorem exMixed_ok : exMixed.OK := Args.OK.flat rfl (by decide +kernel) (by intro f hf; cases hf) sameAX_avail
  (by intro f hf; cases hf) (by decide +kernel) (by decide +kernel)

/-- no item can be X: all items have the same across value -/
def exNoX : Args Nat := args0 [mk "a" 1, mk "a" 1, mk "b" 1] [] [sameAX]

theorem exNoX_ok : exNoX.OK := Args.OK.flat rfl (by decide +kernel) (by intro f hf; cases hf) sameAX_avail
  (by intro f hf; cases hf) (by decide +kernel) (by decide +kernel)

theorem init_exists {a : Args Nat} (h : (match init E0 a with | .ok _ => true | _ => false) = true) : ∃ T, init E0 a = .ok T := by
  split at h
  · exact ⟨_, ‹_›⟩
  · cases h

/-- a mixed regressor and a triplet: an error, whatever the sorts, the random numbers and the lengths of the buffers -/
example : ∃ T, init E0 exMixed = .ok T ∧ ∀ (N : Num), ArgsortLaw N.argsort → ∀ src bl1 bl2, 0 < bl1 → 0 < bl2 → generate E0 N 0 src bl1 bl2 T = .error .valueError := by
  obtain ⟨T, hT⟩ := init_exists (a := exMixed) (by decide +kernel)
  refine ⟨T, hT, fun N hN src bl1 bl2 h1 h2 => (C78_outcome_partial E0_lawful exMixed_ok (.of_not_bare (by intro f hf; cases hf)) hT hN h1 h2).2.1 ?_ ?_⟩
  · exact ⟨(0, mk "a" 1), by simp [exMixed, args0], by decide +kernel⟩
  · exact ⟨sameAX, by simp [exMixed, args0], by decide +kernel⟩

/-- the same regressor without triplets: no error and no file -/
example : ∃ T, init E0 exNoX = .ok T ∧ ∀ (N : Num), ArgsortLaw N.argsort → ∀ src bl1 bl2, 0 < bl1 → 0 < bl2 → generate E0 N 0 src bl1 bl2 T = .ok none := by
  obtain ⟨T, hT⟩ := init_exists (a := exNoX) (by decide +kernel)
  exact ⟨T, hT, fun N hN src bl1 bl2 h1 h2 => (C78_outcome_partial E0_lawful exNoX_ok (.of_not_bare (by intro f hf; cases hf)) hT hN h1 h2).1 (by decide +kernel)⟩

/-- no mixed regressor: the file of the task `ex2` is written -/
example : ∃ T, init E0 ex2 = .ok T ∧ ∀ (N : Num), ArgsortLaw N.argsort → ∀ src bl1 bl2, 0 < bl1 → 0 < bl2 → ∃ F, generate E0 N 0 src bl1 bl2 T = .ok (some F) := by
  obtain ⟨T, hT⟩ := init_exists (a := ex2) (by decide +kernel)
  refine ⟨T, hT, fun N hN src bl1 bl2 h1 h2 => (C78_outcome_partial E0_lawful ex2_ok (.of_not_bare (by intro f hf; cases hf)) hT hN h1 h2).2.2 ?_ (by intro f hf; cases hf)⟩
  exact ⟨(1, mk "a" 1), by simp [ex2, args0], by decide +kernel⟩

/-- which regressors are mixed: `sp_A` with `sp_X` is, `sp_A` is not; `on_1` with `on_2` is not, as the first is known for a whole block and the second read from B; `ac_2` with `on_2` is, one read from X and the other from B;
`on_X` with `on_1` is not -/
example : Spec.mixed ex1.cols sameAX = true ∧ Spec.mixed ex1.cols spA = false ∧
    Spec.mixed (β := Nat) ex1.cols ⟨[("on", .one), ("on", .two)], fun _ => 0, fun _ _ _ => rfl⟩ = false ∧
    Spec.mixed (β := Nat) ex1.cols ⟨[("ac", .two), ("on", .two)], fun _ => 0, fun _ _ _ => rfl⟩ = true ∧
    Spec.mixed (β := Nat) ex1.cols ⟨[("on", .X), ("on", .one)], fun _ => 0, fun _ _ _ => rfl⟩ = false := by decide +kernel

#print axioms C78_outcome_partial

end ABX.Task

namespace ABX.Pipeline
open ExtSort ABX.Task Pairs SideOps Sampler Distances Score EndToEnd Analyze F64
variable {ρ φ δ : Type}

/-- C77, the experiment ends: when there is a triplet, no regressor of the user reads two of A, B and X, the features of all items and their distances can be computed, and there are at most 6250000 triplets or at most 3535 items
per level, then for all choices, with at least one cpu, the experiment can be run to its end.  Missing as in C78 and, for the distances, C24: more than 12500000 pairs in a level. -/
theorem C77_completes_partial {e : Env} (he : e.Lawful) {a : Args ρ} (ha : a.OK) (hf : Spec'.KeptFirst a) {T : Task.Task ρ} (h : init e a = .ok T)
    (hne : ∃ p ∈ a.db, tripsSpec a (levelKey a p.2) ≠ []) (hmix : ∀ f ∈ a.regressors, Spec.mixed a.cols f = false) (hz : Sizes a T)
    (hp : (T.levels.map (fun L => (tripsSpec a L.key).length)).sum ≤ 6250000 ∨ ∀ L ∈ T.levels, (itemsOf a L.key).length ≤ 3535) {c : Choices} (hl : c.Lawful) (hc : 0 < c.nCpu)
    {getFeat : ρ → Except Err φ} {distance : φ → φ → Except Err δ} (hg : ∀ r ∈ a.feat, ∃ f, getFeat r = .ok f) (hd : ∀ r ∈ a.feat, ∀ r' ∈ a.feat, ∀ f g, getFeat r = .ok f → getFeat r' = .ok g → ∃ d, distance f g = .ok d) (zero : δ)
    {lt : δ → δ → Bool} (hlt : ∀ x y, lt x y = true → lt y x = false) : ∃ F S, Ran c e T getFeat distance lt F S := by
  obtain ⟨F, hF⟩ := (C78_outcome_partial he ha hf h hl.num (src := c.src) hl.bl1 hl.bl2).2.2 hne hmix
  have hS := small_of he ha hf h hz hl.num hl.bl1 hl.bl2 hF
  obtain ⟨P, hP, -⟩ := C12_pairs_partial he ha h hl.bl1 hl.bl2 hF hS hl.sortPairs hl.bufs
  obtain ⟨total, t, tb, outs, K⟩ := generate_ok hl.bl1 hl.bl2 hF
  have hbne : F.bys ≠ [] := by
    obtain ⟨p, hp', hne⟩ := hne
    intro h0
    have := (mem_bys he ha hf h hl.num hl.src K (levelKey a p.2)).mpr ⟨⟨p, hp', rfl⟩, hne⟩
    rw [h0] at this
    cases this
  have hsz : ∀ b ∈ F.bys, Spec.pairsOfLevel P b ≤ 12500000 := by
    intro b _
    rcases hp with hp | hp
    · have := pairs_at_most he ha h hl.bl1 hl.bl2 hF hS hl.sortPairs hl.bufs hP b
      rw [data_length he ha hf h hl.num K] at this
      omega
    · obtain ⟨hfit, hbys⟩ := file_fits he ha h K hS
      obtain ⟨us, g1, g2⟩ := generatePairs_ok hl.sortPairs hl.bufs K.index hfit
      rw [hP] at g2
      injection g2 with g2
      rw [g2]
      obtain h0 | ⟨L, hL, hle⟩ := size_le_sq g1 b
      · omega
      · have h3 := hp L (List.mem_filter.mp hL).1
        obtain ⟨fr0, I⟩ := init_level he ha h (List.mem_filter.mp hL).1
        obtain ⟨q, hq, hb⟩ := baseOf_mem I.nonempty
        have h4 := frame_lt he ha h (List.mem_filter.mp hL).1 hq
        have h5 : baseOf L ≤ 3535 := by omega
        have := Nat.mul_le_mul h5 h5
        omega
  obtain ⟨jobs, hj, -, n, s, hs, hr⟩ := C18_completes_partial he ha h hl.bl1 hl.bl2 hF hS hl.sortPairs hl.bufs hP (getFeat := getFeat) (distance := distance)
    (by
      intro L hL r hr
      obtain ⟨fr0, I⟩ := init_level he ha h hL
      exact hg r (mem_of_gather I.feat r hr))
    (by
      intro L hL r hr r' hr'
      obtain ⟨fr0, I⟩ := init_level he ha h hL
      exact hd r (mem_of_gather I.feat r hr) r' (mem_of_gather I.feat r' hr')) hl.sortJobs hc hbne hsz zero
  have hsq : ∀ L ∈ T.levels, ∀ p ∈ L.frame, p.1 < 94906265 := by
    intro L hL p hp
    have := frame_lt he ha h hL hp
    have := hz.items L hL
    omega
  obtain ⟨S, s1, -⟩ := C18_scores_partial he ha h hl.bl1 hl.bl2 hF hS hsq hl.sortPairs hl.bufs hP hl.sortJobs hj hs.steps hr hlt hl.bufLen
  exact ⟨F, S, hF, P, jobs, _, zero, s, hP, hj, hs.steps, hr, s1⟩

/-- C77, example: the experiment of `ex2` with any number of cpus and any length of the buffer of the scores ends -/
example (n m : Nat) : ∃ T F S, init E0 ex2 = .ok T ∧ Ran (choices0 (n + 1) (m + 1)) E0 T (fun r => .ok (r * r)) (fun f g => .ok (f % (g + 2) : Nat)) (fun x y => decide (x < y)) F S := by
  obtain ⟨T, hT⟩ := init_exists (a := ex2) (by decide +kernel)
  have hlt : ∀ x y : Nat, decide (x < y) = true → decide (y < x) = false := by intro x y h; simp at h ⊢; omega
  have hz := ex2_sizes hT
  have h5 : (match init E0 ex2 with
      | .ok T => decide (∀ L ∈ T.levels, (itemsOf ex2 L.key).length ≤ 128)
      | _ => true) = true := by decide +kernel
  rw [hT] at h5
  simp only [decide_eq_true_eq] at h5
  obtain ⟨F, S, h⟩ := C77_completes_partial E0_lawful ex2_ok (.of_not_bare (by intro f hf; cases hf)) hT ⟨(1, mk "a" 1), by simp [ex2, args0], by decide +kernel⟩ (by intro f hf; cases hf) hz
    (.inr (fun L hL => (h5 L hL).trans (by norm_num))) (choices0_lawful (n := n + 1) (m := m + 1) (Nat.zero_lt_succ _)) (Nat.zero_lt_succ _) (getFeat := fun r => .ok (r * r))
    (distance := fun f g => .ok (f % (g + 2) : Nat)) (fun _ _ => ⟨_, rfl⟩) (fun _ _ _ _ _ _ _ _ => ⟨_, rfl⟩) 0 hlt
  exact ⟨T, F, S, hT, h⟩

#print axioms C77_completes_partial

end ABX.Pipeline
