import Verif.Proofs.TaskGenThreshold
import Verif.Properties.Generate
import Verif.Properties.Threshold
/-!
Property C78 with a threshold; and C79, that the experiment ends.
-/
namespace ABX.Task
open ExtSort SideOps Sampler Pairs
variable {ρ : Type}

section
variable {e : Env} (he : e.Lawful) {a : Args ρ} (ha : a.OK) (hf : Spec'.KeptFirst a) {T : Task ρ} (h : init e a = .ok T)
include h

theorem abx_filters : T.filters.ops .ABX = [] ↔ ∀ f ∈ a.filters, Spec.mixed a.cols f = false := mgr_abx (init_ok h).2.2.2.2.1

theorem ops_A (hA : ∀ f ∈ a.regressors, Spec.readsA a.cols f = false) : T.regressors.ops .A = [] := by
  refine regA_nil (init_ok h).2.2.2.2.2.1 ?_
  intro f hf
  rcases List.mem_append.mp hf with hf | hf
  · exact hA f hf
  · exact defaultRegs_readsA f hf

/-- a regressor that reads A and no other item -/
theorem ops_A_ne {f : DBFun Nat} (hf : f ∈ a.regressors) (hA : Spec.readsA a.cols f = true) (hm : Spec.mixed a.cols f = false) : T.regressors.ops .A ≠ [] := by
  have hmgr := (init_ok h).2.2.2.2.2.1
  obtain ⟨q, hq, hpl⟩ := forall₂_mem_left (mgr_forall₂ hmgr) f (List.mem_append_left _ hf)
  have hop := (place_ok hpl).op
  have P := mgr_ok hmgr q hq
  rw [← hop] at hA hm
  unfold Spec.readsA at hA
  obtain ⟨⟨r, x⟩, hv, hp⟩ := List.any_eq_true.mp hA
  simp only [Bool.and_eq_true, beq_iff_eq, Bool.not_eq_true', List.contains_eq_mem, decide_eq_false_iff_not] at hp
  obtain ⟨⟨rfl, hb⟩, hon⟩ := hp
  have hc : condition a.cols (r, Ext.A) = true := by simp [condition, hon]
  have hg : getExt a.cols (r, Ext.A) = .A := by simp [getExt]
  have hs : q.stage = .A := by
    cases hs : q.stage with
    | «by» => exact absurd (P.hby' hs _ hv) hb
    | generic => have := P.hgen' hs; simp at this
    | onAcrossBy => have := P.hoab hs _ hv hb; rw [hc] at this; cases this
    | A => rfl
    | B => have := (P.bV _ (P.hB hs _ hv hb hc)).2.2; rw [hg] at this; cases this
    | X => have := (P.xV _ (P.hX hs _ hv hb hc)).2.2; rw [hg] at this; cases this
    | ABX => rw [hop, (place_abx hpl).mp hs] at hm; cases hm
  intro h0
  have : q.op ∈ T.regressors.ops .A := mem_ops.mpr ⟨q, hq, hs, rfl⟩
  rw [h0] at this
  cases this

include he ha

theorem level_length {L : Level ρ} {fr0 : Frame} (I : InitLevel e a T L fr0) :
    (Spec.itemTriplets T.cols T.on (userAcross T.across) a.filters fr0).length = (tripsSpec a L.key).length := by
  obtain ⟨h1, h2, h3, h4⟩ := checkDatabase_ok (init_ok h).1
  rw [I.cols, I.on, I.across]
  exact (itemTriplets_sim h1 h2 ha.inF I.sim).length_eq

/-- with samplings that end and types that hold the sizes of the blocks, all samplings of a level succeed -/
theorem sampleOr_ends {L : Level ρ} {fr0 : Frame} (I : InitLevel e a T L fr0) (hABX : T.regressors.ops .ABX = []) {threshold : Nat} (ht : 0 < threshold)
    (hG : GroupFit threshold a.cols a.on a.across (allRegs e a) (tripsSpec a L.key)) {src : List Val → List Val → Nat → Src} (hl : ∀ k k' j, (src k k' j).Lawful)
    (hend : ∀ t ∈ tripsSpec a L.key, ∀ k j n, threshold < n → n ≤ ((tripsSpec a L.key).filter (Spec.sameBlock a.on a.across t)).length → ∃ s, sampleWithoutReplacement threshold n (src L.key k j) = .ok s) :
    SampleOr (fun _ => False) threshold src T L a.filters fr0 := by
  obtain ⟨h1, h2, h3, h4⟩ := checkDatabase_ok (init_ok h).1
  have sim : List.Forall₂ (Sim3 a.columns) (Spec.itemTriplets T.cols T.on (userAcross T.across) a.filters fr0) (tripsSpec a L.key) := by
    rw [I.cols, I.on, I.across]
    exact itemTriplets_sim h1 h2 ha.inF I.sim
  have inR : ∀ f ∈ allRegs e a, ∀ v ∈ f.inputs, v.1 ∈ a.columns := by
    intro f hf
    rcases List.mem_append.mp hf with hf | hf
    · exact ha.inR f hf
    · exact defaultRegs_in he (init_ok h).1 ha f hf
  have fit : GroupFit threshold T.cols T.on (userAcross T.across) (allRegs e a) (Spec.itemTriplets T.cols T.on (userAcross T.across) a.filters fr0) := by
    rw [I.cols, I.on, I.across]; rw [I.cols, I.on, I.across] at sim; exact groupFit_sim h1 h2 inR sim hG
  intro key S hS p hp t htf j n hn hnS
  obtain ⟨t0, ht0⟩ := List.exists_mem_of_length_pos (l := S) (by omega)
  have g0 := (hS.mem t0).mp ht0
  have hperm := block_eq I.hyp hS (.refl _) ht0
  have hcomb := combinations_eq I.reg hABX hperm
  rw [← sortFns_value I.hyp I.reg hp hS] at hcomb
  obtain ⟨f1, f2⟩ := fit t0 ((mem_itemTriplets I.hyp).mpr g0.1)
  rcases f2 with f2 | f2
  · omega
  rw [hcomb] at htf
  have hcast : (⟨64, true⟩ : IntType).cast ((Spec.combinations T.cols (allRegs e a) ((Spec.itemTriplets T.cols T.on (userAcross T.across) a.filters fr0).filter (Spec.sameBlock T.on (userAcross T.across) t0)) : Nat) : Int) =
      ((Spec.combinations T.cols (allRegs e a) ((Spec.itemTriplets T.cols T.on (userAcross T.across) a.filters fr0).filter (Spec.sameBlock T.on (userAcross T.across) t0)) : Nat) : Int) := by
    clear htf f2 hcomb
    generalize Spec.combinations T.cols (allRegs e a) ((Spec.itemTriplets T.cols T.on (userAcross T.across) a.filters fr0).filter (Spec.sameBlock T.on (userAcross T.across) t0)) = m at f1
    simp only [IntType.cast, IntType.lo, if_true]
    norm_num
    omega
  have htf' := f2 t (hcast ▸ htf)
  have hlen := hperm.length_eq
  obtain ⟨t1, ht1, hs1⟩ := forall₂_mem_left sim t0 ((mem_itemTriplets I.hyp).mpr g0.1)
  have hle : ((Spec.itemTriplets T.cols T.on (userAcross T.across) a.filters fr0).filter (Spec.sameBlock T.on (userAcross T.across) t0)).length = ((tripsSpec a L.key).filter (Spec.sameBlock a.on a.across t1)).length := by
    have hb := forall₂_filter (fun u u' hu => sameBlock_sim h1 h2 hs1 hu) sim
    rw [← hb.length_eq, I.on, I.across]
  obtain ⟨s, hs⟩ := hend t1 ht1 key j n hn (by omega)
  have hok := sampleT_okOr (fit_signed htf) hn (hl L.key key j)
  rw [sampleT_eq (fit_signed htf) (hl _ _ _) (by omega) (by omega)] at hok ⊢
  rw [hs] at hok ⊢
  exact hok

include hf

theorem generate_okOr {Q : Err → Prop} {N : Num} (hN : ArgsortLaw N.argsort) {threshold : Nat} {src : List Val → List Val → Nat → Src}
    (hsm : ∀ L ∈ T.levels, ∀ fr0, InitLevel e a T L fr0 → SampleOr Q threshold src T L a.filters fr0) {bl1 bl2 : Nat} (h1 : 0 < bl1) (h2 : 0 < bl2) :
    ((∃ p ∈ a.db, tripsSpec a (levelKey a p.2) ≠ []) → (∃ f ∈ a.regressors, Spec.mixed a.cols f = true) →
      OkOr (fun er => er = .valueError ∨ Q er) (fun _ => False) (generate e N threshold src bl1 bl2 T)) ∧
    ((∃ p ∈ a.db, tripsSpec a (levelKey a p.2) ≠ []) → (∀ f ∈ a.regressors, Spec.mixed a.cols f = false) →
      ((∀ f ∈ a.regressors, Spec.readsA a.cols f = false) ∨ ∃ f ∈ a.filters, Spec.mixed a.cols f = true) →
      OkOr Q (fun r => ∃ F, r = some F) (generate e N threshold src bl1 bl2 T)) ∧
    ((∃ L ∈ T.levels, tripsSpec a L.key ≠ [] ∧ ∀ os, levelOut e N threshold src T L ≠ .ok os) →
      OkOr (fun er => er = .valueError ∨ Q er) (fun _ => False) (generate e N threshold src bl1 bl2 T)) := by
  have hnb := (C03_spec he ha hf h).1
  obtain ⟨t, ht⟩ := fit_total63 (total_lt he ha h)
  obtain ⟨tb, htb⟩ := fit_total63 (blocks_lt he ha h)
  have bad : ∀ L ∈ T.levels, tripsSpec a L.key ≠ [] → (∀ os, levelOut e N threshold src T L ≠ .ok os) →
      OkOr (fun er => er = .valueError ∨ Q er) (fun _ => False) (generate e N threshold src bl1 bl2 T) := by
    intro L hL hLne hno
    have hseq := sequence_okOr (Q := fun er => er = .valueError ∨ Q er) (P := fun (L : Level ρ) (p : List Val × List BlkOut) => levelOut e N threshold src T L = .ok p.2)
      (f := fun L => (levelOut e N threshold src T L).map (fun o => (L.key, o))) (l := T.levels) (by
        intro L' hL'
        obtain ⟨fr0, I⟩ := init_level he ha h hL'
        have := (levelOut_okOr I.hyp I.reg (positional he ha hf h hL') I.nonempty hN (hsm L' hL' fr0 I)).2.2.1
        cases hlo : levelOut e N threshold src T L' with
        | error er => rw [hlo] at this; exact this
        | ok os => rfl)
    unfold generate
    rw [hnb]
    dsimp only
    rw [if_neg (by exact_mod_cast total_pos L hL hLne), ht]
    dsimp only
    rw [htb]
    dsimp only
    revert hseq
    cases hsq : sequence (T.levels.map (fun L => (levelOut e N threshold src T L).map (fun o => (L.key, o)))) with
    | error er => exact id
    | ok ys =>
      intro hseq
      exfalso
      obtain ⟨y, -, hy⟩ := forall₂_mem_left hseq.ok L hL
      exact absurd hy (hno _)
  refine ⟨?_, ?_, fun ⟨L, hL, h3, h4⟩ => bad L hL h3 h4⟩
  · intro hne hmix
    obtain ⟨L, hL, hLne⟩ := level_exists he ha h hne
    have hab : T.regressors.ops .ABX ≠ [] := by
      intro h0
      obtain ⟨f, hf, hm⟩ := hmix
      rw [(abx_iff h).mp h0 f hf] at hm
      cases hm
    refine bad L hL hLne ?_
    intro os hos
    obtain ⟨fr0, I⟩ := init_level he ha h hL
    have h3 := (levelOut_okOr I.hyp I.reg (positional he ha hf h hL) I.nonempty hN (hsm L hL fr0 I)).1 hab
    rw [hos] at h3
    -- then no block has triplets, also without threshold
    have h4 : levelOut e N 0 src T L = .ok [] := by
      obtain ⟨row0, hrow⟩ := iloc_zero I.nonempty
      unfold levelOut
      rw [hrow]
      dsimp only
      rw [byRegs_ok I.reg.mgrOK]
      dsimp only
      have : (groupKeys e "gen" (T.on :: T.across) L.frame).map (blockOut e N 0 src T L ((T.regressors.ops .by).map (fun f => f.fn (fun v => row0 v.1)))) =
          (groupKeys e "gen" (T.on :: T.across) L.frame).map (fun _ => .ok none) := by
        apply List.map_congr_left
        intro k hk
        unfold blockOut
        rw [h3.2 k hk]
      rw [this]
      have sq : ∀ l : List (List Val), sequence (l.map (fun _ => (.ok none : Except Err (Option BlkOut)))) = .ok (l.map (fun _ => none)) := by
        intro l
        induction l with
        | nil => rfl
        | cons k l ih => simp only [List.map_cons, sequence, ih]
      rw [sq]
      have nil : ∀ l : List (List Val), (l.map (fun _ => (none : Option BlkOut))).filterMap id = [] := by
        intro l
        rw [List.filterMap_eq_nil_iff]
        intro x hx
        obtain ⟨_, -, rfl⟩ := List.mem_map.mp hx
        rfl
      dsimp only
      rw [nil]
    have h5 := C03_level he ha h hL hN ((C03_spec he ha hf h).2 L hL) h4
    exact hLne (by simpa using h5)
  · intro hne hmix hA
    obtain ⟨L, hL, hLne⟩ := level_exists he ha h hne
    have hab := (abx_iff h).mpr hmix
    have hA' : T.regressors.ops .A = [] ∨ T.filters.ops .ABX ≠ [] := by
      rcases hA with hA | ⟨f, hf', hm⟩
      · exact .inl (ops_A h hA)
      · refine .inr (fun h0 => ?_)
        rw [(abx_filters h).mp h0 f hf'] at hm
        cases hm
    have hseq := sequence_okOr (Q := Q) (P := fun (L : Level ρ) (p : List Val × List BlkOut) => levelOut e N threshold src T L = .ok p.2 ∧ (p.2.flatMap BlkOut.trips).length ≤ (tripsSpec a L.key).length)
      (f := fun L => (levelOut e N threshold src T L).map (fun o => (L.key, o))) (l := T.levels) (by
        intro L' hL'
        obtain ⟨fr0, I⟩ := init_level he ha h hL'
        have := (levelOut_okOr I.hyp I.reg (positional he ha hf h hL') I.nonempty hN (hsm L' hL' fr0 I)).2.1 hab (fun row => sort_some he ha h hL hLne row) hA'
        cases hlo : levelOut e N threshold src T L' with
        | error er => rw [hlo] at this; exact this
        | ok os =>
          rw [hlo] at this
          rw [← level_length he ha h I]
          exact ⟨rfl, this⟩)
    cases hsq : sequence (T.levels.map (fun L => (levelOut e N threshold src T L).map (fun o => (L.key, o)))) with
    | error er =>
      rw [hsq] at hseq
      unfold generate
      rw [hnb]
      dsimp only
      rw [if_neg (by exact_mod_cast total_pos L hL hLne), ht]
      dsimp only
      rw [htb]
      dsimp only
      rw [hsq]
      exact hseq
    | ok ys =>
      rw [hsq] at hseq
      have split : ∀ {Ls : List (Level ρ)} {ys : List (List Val × List BlkOut)},
          List.Forall₂ (fun (L : Level ρ) (p : List Val × List BlkOut) => levelOut e N threshold src T L = .ok p.2 ∧ (p.2.flatMap BlkOut.trips).length ≤ (tripsSpec a L.key).length) Ls ys →
          List.Forall₂ (fun L os => levelOut e N threshold src T L = .ok os) Ls (ys.map (·.2)) ∧
          ((ys.map (·.2)).map (fun os => (os.flatMap BlkOut.trips).length)).sum ≤ (Ls.map (fun L => (tripsSpec a L.key).length)).sum := by
        intro Ls ys h
        induction h with
        | nil => exact ⟨.nil, by simp⟩
        | cons h _ ih =>
          refine ⟨.cons h.1 ih.1, ?_⟩
          simp only [List.map_cons, List.sum_cons]
          have := ih.2
          have := h.2
          omega
      obtain ⟨s1, s2⟩ := split hseq.ok
      obtain ⟨F, hF⟩ := generate_total h1 h2 hnb (total_pos L hL hLne) (total_lt he ha h) (blocks_lt he ha h) s1 s2
      rw [hF]
      exact ⟨F, rfl⟩

end

/-- C85, with any threshold, whatever the random numbers: nothing when no level has triplets; when a regressor of the user reads two of A, B and X an error, unless a sampling does not end; otherwise the file is written, unless a
sampling does not end.  Missing: filters without suffix that remove other items than the last ones of the levels, and regressors of A alone in a task without filter that reads two of A, B and X, for which the claim is false (`C85_violated`). -/
theorem C85_outcome_partial {e : Env} (he : e.Lawful) {a : Args ρ} (ha : a.OK) (hf : Spec'.KeptFirst a) {T : Task ρ} (h : init e a = .ok T)
    {N : Num} (hN : ArgsortLaw N.argsort) {threshold : Nat} {src : List Val → List Val → Nat → Src} (hl : ∀ k k' j, (src k k' j).Lawful) {bl1 bl2 : Nat} (h1 : 0 < bl1) (h2 : 0 < bl2) :
    ((∀ p ∈ a.db, tripsSpec a (levelKey a p.2) = []) → generate e N threshold src bl1 bl2 T = .ok none) ∧
    ((∃ p ∈ a.db, tripsSpec a (levelKey a p.2) ≠ []) → (∃ f ∈ a.regressors, Spec.mixed a.cols f = true) →
      generate e N threshold src bl1 bl2 T = .error .valueError ∨ generate e N threshold src bl1 bl2 T = .error .diverge) ∧
    ((∃ p ∈ a.db, tripsSpec a (levelKey a p.2) ≠ []) → (∀ f ∈ a.regressors, Spec.mixed a.cols f = false) →
      ((∀ f ∈ a.regressors, Spec.readsA a.cols f = false) ∨ ∃ f ∈ a.filters, Spec.mixed a.cols f = true) →
      (∃ F, generate e N threshold src bl1 bl2 T = .ok (some F)) ∨ generate e N threshold src bl1 bl2 T = .error .diverge) := by
  obtain ⟨g1, g2, -⟩ := generate_okOr he ha hf h hN (threshold := threshold) (src := src) (Q := (· = .diverge)) (fun L _ fr0 _ => sampleOr_diverge hl) h1 h2
  refine ⟨?_, fun a1 a2 => ?_, fun a1 a2 a3 => ?_⟩
  · intro h0
    have hz : (T.levels.map (fun L => (tripsSpec a L.key).length)).sum = 0 := by
      rw [List.sum_eq_zero_iff]
      intro n hn
      obtain ⟨L, hL, rfl⟩ := List.mem_map.mp hn
      obtain ⟨p, hp, hk⟩ := level_of_db he ha h hL
      rw [← hk, h0 p hp]
      rfl
    unfold generate
    rw [(C03_spec he ha hf h).1, hz]
    rfl
  · have := g1 a1 a2
    cases hg : generate e N threshold src bl1 bl2 T with
    | error er => rw [hg] at this; rcases this with rfl | rfl; exacts [.inl rfl, .inr rfl]
    | ok r => rw [hg] at this; exact this.elim
  · have := g2 a1 a2 a3
    cases hg : generate e N threshold src bl1 bl2 T with
    | error er => rw [hg] at this; exact .inr (congrArg _ this)
    | ok r => rw [hg] at this; obtain ⟨F, rfl⟩ := this; exact .inl ⟨F, rfl⟩

/-- C85, with a threshold: when every sampling ends, and the types fitted to the numbers of combinations of regressors hold the sizes of the blocks (`GroupFit`, see C08), the file is written.  Missing as above. -/
theorem C85_file_partial {e : Env} (he : e.Lawful) {a : Args ρ} (ha : a.OK) (hf : Spec'.KeptFirst a) {T : Task ρ} (h : init e a = .ok T)
    {N : Num} (hN : ArgsortLaw N.argsort) {threshold : Nat} (ht : 0 < threshold) (hG : ∀ L ∈ T.levels, GroupFit threshold a.cols a.on a.across (allRegs e a) (tripsSpec a L.key))
    {src : List Val → List Val → Nat → Src} (hl : ∀ k k' j, (src k k' j).Lawful)
    (hend : ∀ L ∈ T.levels, ∀ t ∈ tripsSpec a L.key, ∀ k j n, threshold < n → n ≤ ((tripsSpec a L.key).filter (Spec.sameBlock a.on a.across t)).length → ∃ s, sampleWithoutReplacement threshold n (src L.key k j) = .ok s) {bl1 bl2 : Nat} (h1 : 0 < bl1) (h2 : 0 < bl2)
    (hne : ∃ p ∈ a.db, tripsSpec a (levelKey a p.2) ≠ []) (hmix : ∀ f ∈ a.regressors, Spec.mixed a.cols f = false)
    (hA : (∀ f ∈ a.regressors, Spec.readsA a.cols f = false) ∨ ∃ f ∈ a.filters, Spec.mixed a.cols f = true) : ∃ F, generate e N threshold src bl1 bl2 T = .ok (some F) := by
  have := (generate_okOr he ha hf h hN (threshold := threshold) (src := src) (Q := fun _ => False)
    (fun L hL fr0 I => sampleOr_ends he ha h I ((abx_iff h).mpr hmix) ht (hG L hL) hl (hend L hL)) h1 h2).2.1 hne hmix hA
  cases hg : generate e N threshold src bl1 bl2 T with
  | error er => rw [hg] at this; exact this.elim
  | ok r => rw [hg] at this; obtain ⟨F, rfl⟩ := this; exact ⟨F, rfl⟩

/-- C85, with a threshold is false for a regressor that reads A alone, without filter that reads two of A, B and X: as soon as a group has more triplets than the threshold no file is written: either a sampling does not end, or
`ValueError` is raised, as the column of the regressor is not sampled (lines 1139-1141) and cannot be put beside the others. -/
theorem C85_violated {e : Env} (he : e.Lawful) {a : Args ρ} (ha : a.OK) (hfb : Spec'.KeptFirst a) (hf : ∀ f ∈ a.filters, Spec.mixed a.cols f = false) {T : Task ρ} (h : init e a = .ok T)
    {N : Num} (hN : ArgsortLaw N.argsort) (hE : N.Exact) {threshold : Nat} (ht : 0 < threshold) {src : List Val → List Val → Nat → Src} (hl : ∀ k k' j, (src k k' j).Lawful)
    {bl1 bl2 : Nat} (h1 : 0 < bl1) (h2 : 0 < bl2) {f : DBFun Nat} (hfr : f ∈ a.regressors) (hA : Spec.readsA a.cols f = true) (hm : Spec.mixed a.cols f = false)
    {L : Level ρ} (hL : L ∈ T.levels) (hG : GroupFit threshold a.cols a.on a.across (allRegs e a) (tripsSpec a L.key)) {t : Tri} (htt : t ∈ tripsSpec a L.key)
    (hbig : threshold < ((tripsSpec a L.key).filter (Spec.sameGroup a.cols a.on a.across (allRegs e a) t)).length) :
    generate e N threshold src bl1 bl2 T = .error .valueError ∨ generate e N threshold src bl1 bl2 T = .error .diverge := by
  have hLne : tripsSpec a L.key ≠ [] := List.ne_nil_of_mem htt
  have := (generate_okOr he ha hfb h hN (threshold := threshold) (src := src) (Q := (· = .diverge)) (fun L _ fr0 _ => sampleOr_diverge hl) h1 h2).2.2 ⟨L, hL, hLne, fun os hos => by
    obtain ⟨fr0, I⟩ := init_level he ha h hL
    have hlen := (levelOut_okOr I.hyp I.reg (positional he ha hfb h hL) I.nonempty hN (threshold := threshold) (src := src) (Q := (· = .diverge)) (sampleOr_diverge hl)).2.2.2
      ((abx_filters h).mpr hf) (ops_A_ne h hfr hA hm) (fun row => sort_some he ha h hL hLne row) os hos
    rw [level_length he ha h I] at hlen
    obtain ⟨S, s1, s2, s3, s4⟩ := C08_threshold_partial he ha hfb h hL hN hE ht hl hG hos
    rw [s1, List.length_map] at hlen
    rw [s1] at s2
    have hp := (List.subperm_of_subset (List.Nodup.of_map _ s2) s3).perm_of_length_le (by omega)
    have := s4 t htt
    rw [(hp.filter _).length_eq] at this
    omega⟩
  cases hg : generate e N threshold src bl1 bl2 T with
  | error er => rw [hg] at this; rcases this with rfl | rfl; exacts [.inl rfl, .inr rfl]
  | ok r => rw [hg] at this; exact this.elim

/-! ### examples -/

/-- a random source with which samplings of at most 100 triplets end: the first are taken -/
def srcE : Src := ⟨fun _ => (0, true), 0, fun _ => 0, fun _ _ k => List.replicate k 0, 100⟩

theorem srcE_lawful : srcE.Lawful :=
  ⟨fun _ => by show (0 : Nat) < 2 ^ 53; norm_num, fun _ _ _ => List.length_replicate .., fun N _ _ hN x hx => by rw [(List.mem_replicate.mp hx).2]; exact hN⟩

theorem srcE_ends {threshold n : Nat} (h : threshold < n) (hn : n ≤ 100) : ∃ s, sampleWithoutReplacement threshold n srcE = .ok s := by
  unfold sampleWithoutReplacement
  rw [if_neg (by omega)]
  obtain ⟨s, hs, -⟩ := C39_knuth_sample threshold n (by omega) srcE.u srcE_lawful.u 100 hn
  exact ⟨s, hs⟩

/-- the file of the task `ex2` is written for every threshold, every sort and all lengths of the buffers -/
example (threshold : Nat) (ht : 0 < threshold) : ∃ T, init E0 ex2 = .ok T ∧ ∀ (N : Num), ArgsortLaw N.argsort → ∀ bl1 bl2, 0 < bl1 → 0 < bl2 →
    ∃ F, generate E0 N threshold (fun _ _ _ => srcE) bl1 bl2 T = .ok (some F) := by
  obtain ⟨T, hT⟩ := init_exists (a := ex2) (by decide +kernel)
  have h5 : (match init E0 ex2 with
      | .ok T => decide (∀ L ∈ T.levels, (tripsSpec ex2 L.key).length ≤ 100)
      | _ => true) = true := by decide +kernel
  rw [hT] at h5
  simp only [decide_eq_true_eq] at h5
  refine ⟨T, hT, fun N hN bl1 bl2 h1 h2 => C85_file_partial E0_lawful ex2_ok (.of_not_bare (by intro f hf; cases hf)) hT hN ht (ABX.Pipeline.ex2_fit hT threshold) (fun _ _ _ => srcE_lawful)
    (fun L hL _ _ _ _ n hn hn' => srcE_ends hn (hn'.trans ((List.length_filter_le _ _).trans (h5 L hL)))) h1 h2 ?_ (by intro f hf; cases hf) (.inl (by intro f hf; cases hf))⟩
  exact ⟨(1, mk "a" 1), by simp [ex2, args0], by decide +kernel⟩

/-- the task `ex1` with the speaker of A as a regressor: one group of four triplets -/
def exA : Args Nat := args0 [mk "a" 1, mk "a" 1, mk "b" 1, mk "b" 1, mk "a" 2] [] [spA]

theorem exA_ok : exA.OK := Args.OK.flat rfl (by decide +kernel) (by intro f hf; cases hf) (by
    intro f hf
    rw [List.mem_singleton.mp hf]
    constructor
    · intro v hv h
      simp only [spA, List.mem_cons, List.not_mem_nil, or_false] at hv
      subst hv; cases h
    · rintro ⟨v, hv, -, h⟩
      simp only [spA, List.mem_cons, List.not_mem_nil, or_false] at hv
      subst hv; cases h)
  (by intro f hf; cases hf) (by decide +kernel) (by decide +kernel)

/-- C85, example: without threshold the file of this task is written; with a threshold of 1, 2 or 3 it is not, for any sort, random numbers and lengths of the buffers; with 4 it is again -/
example : ∃ T, init E0 exA = .ok T ∧ (∃ F, run 0 exA = .ok (some F) ∧ F.data.length = 4) ∧ (∃ F, run 4 exA = .ok (some F) ∧ F.data.length = 4) ∧
    (∀ threshold, 0 < threshold → threshold < 4 → ∀ (N : Num), ArgsortLaw N.argsort → N.Exact → ∀ src : List Val → List Val → Nat → Src, (∀ k k' j, (src k k' j).Lawful) → ∀ bl1 bl2, 0 < bl1 → 0 < bl2 →
      generate E0 N threshold src bl1 bl2 T = .error .valueError ∨ generate E0 N threshold src bl1 bl2 T = .error .diverge) ∧
    (match run 2 exA with | .error .valueError => true | _ => false) = true := by
  obtain ⟨T, hT⟩ := init_exists (a := exA) (by decide +kernel)
  have run_len : ∀ thr, (match run thr exA with | .ok (some F) => F.data.length | _ => 0) = 4 → ∃ F, run thr exA = .ok (some F) ∧ F.data.length = 4 := by
    intro thr h
    split at h
    · exact ⟨_, ‹_›, h⟩
    · cases h
  refine ⟨T, hT, run_len 0 (by decide +kernel), run_len 4 (by decide +kernel), ?_, by decide +kernel⟩
  intro threshold h0 h4 N hN hE src hl bl1 bl2 h1 h2
  have h5 : (match init E0 exA with
      | .ok T => T.levels.any (fun L => (tripsSpec exA L.key).any (fun t => ((tripsSpec exA L.key).filter (Spec.sameGroup exA.cols exA.on exA.across (allRegs E0 exA) t)).length == 4)) &&
        T.levels.all (fun L => (tripsSpec exA L.key).all (fun t =>
        decide (Spec.combinations exA.cols (allRegs E0 exA) ((tripsSpec exA L.key).filter (Spec.sameBlock exA.on exA.across t)) ≤ 2 ^ 53) &&
        decide (((tripsSpec exA L.key).filter (Spec.sameBlock exA.on exA.across t)).length ≤ 256)))
      | _ => true) = true := by decide +kernel
  rw [hT] at h5
  simp only [Bool.and_eq_true, List.any_eq_true, List.all_eq_true, decide_eq_true_eq, beq_iff_eq] at h5
  obtain ⟨⟨L, hL, t, ht, hb⟩, hfit⟩ := h5
  exact C85_violated E0_lawful exA_ok (.of_not_bare (by intro f hf; cases hf)) (by intro f hf; cases hf) hT hN hE h0 hl h1 h2 (f := spA) (by simp [exA, args0]) (by decide +kernel) (by decide +kernel) hL (GroupFit.small (hfit L hL)) ht (by omega)

#print axioms C85_outcome_partial
#print axioms C85_file_partial
#print axioms C85_violated

end ABX.Task

namespace ABX.Pipeline
open ExtSort ABX.Task Pairs SideOps Sampler Distances Score EndToEnd Analyze F64
variable {ρ φ δ : Type}

/-- the experiment ends when the file is written, is small enough and has a level -/
theorem ran_of_file {e : Env} (he : e.Lawful) {a : Args ρ} (ha : a.OK) {T : Task.Task ρ} (h : init e a = .ok T) (hz : Sizes a T) {threshold : Nat} {c : Choices} (hl : c.Lawful) (hc : 0 < c.nCpu) {F : File}
    (hF : generate e c.num threshold c.src c.bl1 c.bl2 T = .ok (some F)) (hS : Small e T F) (hbne : F.bys ≠ []) (hp : F.data.length ≤ 6250000 ∨ ∀ L ∈ T.levels, (itemsOf a L.key).length ≤ 3535)
    {getFeat : ρ → Except Err φ} {distance : φ → φ → Except Err δ} (hg : ∀ r ∈ a.feat, ∃ f, getFeat r = .ok f) (hd : ∀ r ∈ a.feat, ∀ r' ∈ a.feat, ∀ f g, getFeat r = .ok f → getFeat r' = .ok g → ∃ d, distance f g = .ok d) (zero : δ)
    {lt : δ → δ → Bool} (hlt : ∀ x y, lt x y = true → lt y x = false) : ∃ S, RanT threshold c e T getFeat distance lt F S := by
  obtain ⟨P, hP, -⟩ := C12_pairs_partial he ha h hl.bl1 hl.bl2 hF hS hl.sortPairs hl.bufs
  obtain ⟨total, t, tb, outs, K⟩ := generate_ok hl.bl1 hl.bl2 hF
  have hsz : ∀ b ∈ F.bys, Spec.pairsOfLevel P b ≤ 12500000 := by
    intro b _
    rcases hp with hp | hp
    · have := pairs_at_most he ha h hl.bl1 hl.bl2 hF hS hl.sortPairs hl.bufs hP b
      omega
    · obtain ⟨hfit, hbys⟩ := file_fits he ha h K hS
      obtain ⟨us, g1, g2⟩ := generatePairs_ok hl.sortPairs hl.bufs K.index hfit
      rw [hP] at g2
      injection g2 with g2
      rw [g2]
      obtain h0 | ⟨L, hL, hle⟩ := size_le_sq g1 b
      · omega
      · have h3 := hp L (List.mem_filter.mp hL).1
        obtain ⟨fr0, I⟩ := init_level he ha h (List.mem_filter.mp hL).1
        obtain ⟨q, hq, hb⟩ := baseOf_mem I.nonempty
        have h4 := frame_lt he ha h (List.mem_filter.mp hL).1 hq
        have h5 : baseOf L ≤ 3535 := by omega
        have := Nat.mul_le_mul h5 h5
        omega
  obtain ⟨jobs, hj, -, n, s, hs, hr⟩ := C18_completes_partial he ha h hl.bl1 hl.bl2 hF hS hl.sortPairs hl.bufs hP (getFeat := getFeat) (distance := distance)
    (by
      intro L hL r hr
      obtain ⟨fr0, I⟩ := init_level he ha h hL
      exact hg r (mem_of_gather I.feat r hr))
    (by
      intro L hL r hr r' hr'
      obtain ⟨fr0, I⟩ := init_level he ha h hL
      exact hd r (mem_of_gather I.feat r hr) r' (mem_of_gather I.feat r' hr')) hl.sortJobs hc hbne hsz zero
  have hsq : ∀ L ∈ T.levels, ∀ p ∈ L.frame, p.1 < 94906265 := by
    intro L hL p hp
    have := frame_lt he ha h hL hp
    have := hz.items L hL
    omega
  obtain ⟨S, s1, -⟩ := C18_scores_partial he ha h hl.bl1 hl.bl2 hF hS hsq hl.sortPairs hl.bufs hP hl.sortJobs hj hs.steps hr hlt hl.bufLen
  exact ⟨S, hF, P, jobs, _, zero, s, hP, hj, hs.steps, hr, s1⟩

/-- C79, the experiment ends: with a threshold, when the samplings end and under the conditions of C77.  Missing as in C78 and C24. -/
theorem C79_completes_partial {e : Env} (he : e.Lawful) {a : Args ρ} (ha : a.OK) (hf : Spec'.KeptFirst a) {T : Task.Task ρ} (h : init e a = .ok T)
    (hne : ∃ p ∈ a.db, tripsSpec a (levelKey a p.2) ≠ []) (hmix : ∀ f ∈ a.regressors, Spec.mixed a.cols f = false) (hA : (∀ f ∈ a.regressors, Spec.readsA a.cols f = false) ∨ ∃ f ∈ a.filters, Spec.mixed a.cols f = true)
    (hz : Sizes a T) {threshold : Nat} (hthr : 0 < threshold) (hG : ∀ L ∈ T.levels, GroupFit threshold a.cols a.on a.across (allRegs e a) (tripsSpec a L.key))
    (hp : (T.levels.map (fun L => (tripsSpec a L.key).length)).sum ≤ 6250000 ∨ ∀ L ∈ T.levels, (itemsOf a L.key).length ≤ 3535) {c : Choices} (hl : c.Lawful) (hE : c.num.Exact) (hc : 0 < c.nCpu)
    (hend : ∀ L ∈ T.levels, ∀ t ∈ tripsSpec a L.key, ∀ k j n, threshold < n → n ≤ ((tripsSpec a L.key).filter (Spec.sameBlock a.on a.across t)).length → ∃ s, sampleWithoutReplacement threshold n (c.src L.key k j) = .ok s)
    {getFeat : ρ → Except Err φ} {distance : φ → φ → Except Err δ} (hg : ∀ r ∈ a.feat, ∃ f, getFeat r = .ok f) (hd : ∀ r ∈ a.feat, ∀ r' ∈ a.feat, ∀ f g, getFeat r = .ok f → getFeat r' = .ok g → ∃ d, distance f g = .ok d) (zero : δ)
    {lt : δ → δ → Bool} (hlt : ∀ x y, lt x y = true → lt y x = false) : ∃ F S, RanT threshold c e T getFeat distance lt F S := by
  obtain ⟨F, hF⟩ := C85_file_partial he ha hf h hl.num hthr hG hl.src hend hl.bl1 hl.bl2 hne hmix hA
  have hS := small_ofT he ha hf h hz hl.num hE hG hl.src hl.bl1 hl.bl2 hF
  obtain ⟨total, t, tb, outs, K⟩ := generate_ok hl.bl1 hl.bl2 hF
  have hbne : F.bys ≠ [] := by
    obtain ⟨p, hp', hne⟩ := hne
    intro h0
    have := (mem_bysT he ha hf h hl.num hE hG hl.src K (levelKey a p.2)).mpr ⟨⟨p, hp', rfl⟩, hne⟩
    rw [h0] at this
    cases this
  obtain ⟨S, hS'⟩ := ran_of_file he ha h hz hl hc hF hS hbne (hp.imp (fun h0 => (data_le he ha hf h hl.num hE hG hl.src K).trans h0) id) hg hd zero hlt
  exact ⟨F, S, hS'⟩

/-- C79, example: the experiment of `ex2` with any threshold, any number of cpus and any length of the buffer of the scores ends -/
example (threshold n m : Nat) (ht : 0 < threshold) : ∃ T F S, init E0 ex2 = .ok T ∧
    RanT threshold { choices0 (n + 1) (m + 1) with src := fun _ _ _ => srcE } E0 T (fun r => .ok (r * r)) (fun f g => .ok (f % (g + 2) : Nat)) (fun x y => decide (x < y)) F S := by
  obtain ⟨T, hT⟩ := init_exists (a := ex2) (by decide +kernel)
  have hlt : ∀ x y : Nat, decide (x < y) = true → decide (y < x) = false := by intro x y h; simp at h ⊢; omega
  have h5 : (match init E0 ex2 with
      | .ok T => decide (∀ L ∈ T.levels, (itemsOf ex2 L.key).length ≤ 128 ∧ (tripsSpec ex2 L.key).length ≤ 100)
      | _ => true) = true := by decide +kernel
  rw [hT] at h5
  simp only [decide_eq_true_eq] at h5
  have h0 := choices0_lawful (n := n + 1) (m := m + 1) (Nat.zero_lt_succ _)
  have hl : Choices.Lawful { choices0 (n + 1) (m + 1) with src := fun _ _ _ => srcE } := { h0 with src := fun _ _ _ => srcE_lawful }
  obtain ⟨F, S, h⟩ := C79_completes_partial E0_lawful ex2_ok (.of_not_bare (by intro f hf; cases hf)) hT ⟨(1, mk "a" 1), by simp [ex2, args0], by decide +kernel⟩ (by intro f hf; cases hf) (.inl (by intro f hf; cases hf)) (ex2_sizes hT)
    ht (ex2_fit hT threshold) (.inr (fun L hL => (h5 L hL).1.trans (by norm_num))) hl N0_exact (Nat.zero_lt_succ _) (fun L hL _ _ _ _ k hk hk' => srcE_ends hk (hk'.trans ((List.length_filter_le _ _).trans (h5 L hL).2))) (getFeat := fun r => .ok (r * r))
    (distance := fun f g => .ok (f % (g + 2) : Nat)) (fun _ _ => ⟨_, rfl⟩) (fun _ _ _ _ _ _ _ _ => ⟨_, rfl⟩) 0 hlt
  exact ⟨T, F, S, hT, h⟩

#print axioms C79_completes_partial

end ABX.Pipeline
