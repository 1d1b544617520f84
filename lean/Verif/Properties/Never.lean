import Verif.Proofs.Lost
import Verif.Properties.LinesThreshold
import Verif.Properties.Lost
/-!
C96: samplings that never end.
-/
namespace ABX.Task
open ExtSort SideOps Sampler
variable {ρ : Type}

/-- a rejection sample of numbers below `M` has at most `M` elements -/
theorem rejectionLoop_le {n M : Nat} {draw : Nat → Nat → List Nat} (hd : ∀ i k, ∀ x ∈ draw i k, x < M) : ∀ {fuel i : Nat} {s s' : List Nat}, StrictInc s → (∀ x ∈ s, x < M) →
    rejectionLoop n draw fuel i s = .ok s' → n ≤ M := by
  intro fuel
  induction fuel with
  | zero =>
    intro i s s' h1 h2 h
    unfold rejectionLoop at h
    split at h
    · cases h
    · have := (List.subperm_of_subset (h1.imp (fun h => Nat.ne_of_lt h)) (fun x hx => List.mem_range.mpr (h2 x hx))).length_le
      rw [List.length_range] at this
      omega
  | succ fuel ih =>
    intro i s s' h1 h2 h
    unfold rejectionLoop at h
    split at h
    · obtain ⟨u1, u2, -, -⟩ := union1d_spec (draw i (n - s.length)) s h1
      refine ih u1 ?_ h
      intro x hx
      rcases (u2 x).mp hx with hx | hx
      · exact h2 x hx
      · exact hd _ _ x hx
    · have := (List.subperm_of_subset (h1.imp (fun h => Nat.ne_of_lt h)) (fun x hx => List.mem_range.mpr (h2 x hx))).length_le
      rw [List.length_range] at this
      omega

/-- C96: `rejection_sampling` puts the numbers that it draws into the type of the sample before it counts the different ones, so a sample of more numbers than the type has is never complete: whatever the random source, and however
long it is waited for. -/
theorem C96_sample {ty : IntType} (hu : ty.signed = false) {n N : Nat} (hN : 100 < N) (h6 : 10 * n < 6 * N) (hn : ty.hi.toNat < n) (src : Src) : sampleT ty n N src = .error .diverge := by
  unfold sampleT
  rw [if_pos ⟨hN, h6⟩]
  unfold rejection
  rw [if_neg (by omega), if_neg (by omega)]
  have key : ∀ fuel i s, rejectionLoop n (fun i k => (src.draw N i k).map (castNat ty)) fuel i s = .error .diverge ∨ ∃ s', rejectionLoop n (fun i k => (src.draw N i k).map (castNat ty)) fuel i s = .ok s' := by
    intro fuel
    induction fuel with
    | zero => intro i s; unfold rejectionLoop; split; exacts [.inl rfl, .inr ⟨_, rfl⟩]
    | succ fuel ih => intro i s; unfold rejectionLoop; split; exacts [ih _ _, .inr ⟨_, rfl⟩]
  rcases key src.fuel 0 [] with h | ⟨s', h⟩
  · exact h
  · have := rejectionLoop_le (M := ty.hi.toNat) (by
      intro i k x hx
      obtain ⟨y, -, rfl⟩ := List.mem_map.mp hx
      exact castNat_hi hu y) List.Pairwise.nil (by simp) h
    omega

/-- C96: a task file is never written when, in one of the levels, a group of `n` triplets with `n > 100` and `10 threshold < 6 n` is to be sampled and the threshold is larger than the number of values of the type of the positions,
which is chosen from the number of combinations of the regressors in the block of the group.  For every random source, and however long it is waited for. -/
theorem C96_never {e : Env} (he : e.Lawful) {a : Args ρ} (ha : a.OK) (hf : Spec'.KeptFirst a) {T : Task ρ} (h : init e a = .ok T)
    (hmix : ∀ f ∈ a.regressors, Spec.mixed a.cols f = false) (hA : (∀ f ∈ a.regressors, Spec.readsA a.cols f = false) ∨ ∃ f ∈ a.filters, Spec.mixed a.cols f = true)
    {threshold : Nat} {p : Nat × Row} (hp : p ∈ a.db) {t : Tri} (ht : t ∈ tripsSpec a (levelKey a p.2))
    (hG : Spec.combinations a.cols (allRegs e a) ((tripsSpec a (levelKey a p.2)).filter (Spec.sameBlock a.on a.across t)) ≤ 2 ^ 53) {ty : IntType}
    (hty : fitIntegerType (Spec.combinations a.cols (allRegs e a) ((tripsSpec a (levelKey a p.2)).filter (Spec.sameBlock a.on a.across t)) : Nat) false = .ok ty) (hthr : ty.hi.toNat < threshold)
    (hn : 100 < ((tripsSpec a (levelKey a p.2)).filter (Spec.sameGroup a.cols a.on a.across (allRegs e a) t)).length)
    (h6 : 10 * threshold < 6 * ((tripsSpec a (levelKey a p.2)).filter (Spec.sameGroup a.cols a.on a.across (allRegs e a) t)).length)
    {N : Num} (hN : ArgsortLaw N.argsort) (hE : N.Exact) {src : List Val → List Val → Nat → Src} (hl : ∀ k k' j, (src k k' j).Lawful) {bl1 bl2 : Nat} (h1 : 0 < bl1) (h2 : 0 < bl2) :
    generate e N threshold src bl1 bl2 T = .error .diverge := by
  rcases (C85_outcome_partial he ha hf h hN (threshold := threshold) hl h1 h2).2.2 ⟨p, hp, List.ne_nil_of_mem ht⟩ hmix hA with ⟨F, hF⟩ | h0
  · exfalso
    obtain ⟨total, t0, tb, outs, K⟩ := generate_ok h1 h2 hF
    rcases C04_levels he ha h hp with ⟨L, hL, hk⟩ | hz
    · obtain ⟨o, -, -, ho⟩ := forall₂_mem_left K.outs_ok L hL
      obtain ⟨S, M, -⟩ := level_main he ha h hL (positional he ha hf h hL) hN hl ho
      rw [← hk] at ht hG hty hn h6
      have hs : Spec.sameBlock a.on a.across t t = true := by unfold Spec.sameBlock; simp
      obtain ⟨src', sm, hsm⟩ := (M.cut hE (by omega) t ht hG ty hty).1.2 t ht hs (by omega)
      rw [C96_sample (fit_signed hty) hn h6 hthr src'] at hsm
      cases hsm
    · exact absurd (List.map_eq_nil_iff.mp hz) (List.ne_nil_of_mem ht)
  · exact h0


#print axioms C96_sample
#print axioms C96_never

end ABX.Task

namespace ABX.ResultFile
open ABX.Task SideOps Analyze ExtSort Database ABX.Database.Spec ABX.Spec
variable {fs : Text → Option (Raw Val)} {file : Text} {r : Raw Val} {loc : List Text} {x : Text} {lab : List Text} {on : String} {across by_ : List String}

/-- C96, from the lines of the item file: with across columns, at most 255 combinations of labels and a threshold of more than 256, no task file is written for a plain task as soon as, for some labels, there are more than 100 triplets
of lines and the threshold is less than 0.6 times their number. -/
theorem C96_lines {e : Env} (he : e.Lawful) (hI : ItemFile fs file r loc x lab) (hs : r.rows.length ^ 3 < 2 ^ 64) {T : Task.Task (Nat × List (Option Val))}
    (h : fromFile e fs file on across by_ [] [] = .ok T) (hac : across ≠ []) (hb : labelCombos r loc x lab on across < 256) {threshold : Nat} (hthr : 256 < threshold)
    {p : Line} (hp : p ∈ complete r (3 + loc.length)) {key : List Val} (hk : lineLevel loc x lab by_ p key) {l : Labels} (hl : l.Possible across)
    (hn : 100 < (lineGroup (lineLabel loc x lab) on across (levelLines r (3 + loc.length) (x :: lab) by_ key) l).length)
    (h6 : 10 * threshold < 6 * (lineGroup (lineLabel loc x lab) on across (levelLines r (3 + loc.length) (x :: lab) by_ key) l).length)
    {N : Num} (hN : ArgsortLaw N.argsort) (hE : N.Exact) {src : List Val → List Val → Nat → Sampler.Src} (hsrc : ∀ k k' j, (src k k' j).Lawful) {bl1 bl2 : Nat} (h1 : 0 < bl1) (h2 : 0 < bl2) :
    generate e N threshold src bl1 bl2 T = .error .diverge := by
  have hO : Ops (x :: lab) on across by_ [] [] := ⟨by simp, by simp, by simp, by simp⟩
  obtain ⟨hC, -, hg⟩ := (C61_file_created_iff he hI hO hs).mp ⟨T, h⟩
  rw [fromFile_args hI hC] at h
  have ha := argsOf_ok (r := r) (3 + loc.length) hC hO hs
  have hpl : Pipeline.Plain (plainArgs r (3 + loc.length) (x :: lab) on across by_) := ⟨rfl, rfl, rfl⟩
  have hf : Spec'.KeptFirst (plainArgs r (3 + loc.length) (x :: lab) on across by_) := .of_not_bare (by intro g hg; cases hg)
  obtain ⟨q, hq, hqk⟩ := (level_lines hI hC key).mpr ⟨p, hp, hk⟩
  rw [group_in_lines hI hC, List.length_map] at hn h6
  obtain ⟨t, htg⟩ := List.exists_mem_of_length_pos (lt_trans (by norm_num) hn)
  have ht := Pipeline.group_trips hpl hl htg
  obtain ⟨-, -, -, g1, g2, g3, g4, g5, g6, -⟩ := Pipeline.mem_group.mp htg
  have hag : (Pipeline.labelsOfTrip on t).on1 = l.on1 ∧ (Pipeline.labelsOfTrip on t).on2 = l.on2 ∧ (∀ c ∈ across, (Pipeline.labelsOfTrip on t).across1 c = l.across1 c) ∧
      ∀ c ∈ across, (Pipeline.labelsOfTrip on t).across2 c = l.across2 c := ⟨g1, g3, g2, g6⟩
  have hcl := combos_lines he hI hC ht (sameBlock on across t)
  obtain ⟨L, hL, hLk⟩ : ∃ L ∈ T.levels, L.key = key := by
    rcases C04_levels he ha h hq with ⟨L, hL, hLk⟩ | h0
    · exact ⟨L, hL, hLk.trans hqk⟩
    · rw [← hqk] at ht
      exact absurd (List.map_eq_nil_iff.mp h0) (List.ne_nil_of_mem ht)
  have hcnt : ((tripsSpec (plainArgs r (3 + loc.length) (x :: lab) on across by_) key).filter (sameGroup (plainArgs r (3 + loc.length) (x :: lab) on across by_).cols on across
      (allRegs e (plainArgs r (3 + loc.length) (x :: lab) on across by_)) t)).length = (group on across (itemsOf (plainArgs r (3 + loc.length) (x :: lab) on across by_) key) l).length := by
    rw [← Pipeline.group_congr _ hag]
    refine congrArg List.length (Eq.trans ?_ (Pipeline.filter_group hpl he (.refl _) ht))
    refine List.filter_congr fun u hu => ?_
    rw [Bool.eq_iff_iff, beq_iff_eq]
    rw [← hLk] at ht hu
    exact Pipeline.sameGroup_iff he ha h hL (by intro g hg; cases hg) hac (fun _ h => h) (.refl _) ht hu
  have hty : fitIntegerType (combinations (plainArgs r (3 + loc.length) (x :: lab) on across by_).cols (allRegs e (plainArgs r (3 + loc.length) (x :: lab) on across by_))
      ((tripsSpec (plainArgs r (3 + loc.length) (x :: lab) on across by_) key).filter (sameBlock on across t)) : Nat) false = .ok ⟨8, false⟩ := by
    have := lt_of_le_of_lt hcl hb
    unfold fitIntegerType
    simp only [Bool.false_eq_true, if_false]
    rw [if_pos (by norm_num; exact_mod_cast this)]
  subst hqk
  exact C96_never he ha hf h (by intro g hg; cases hg) (.inl (by intro g hg; cases hg)) hq ht (hcl.trans (hb.le.trans (by norm_num))) hty (by exact hthr) (lt_of_lt_of_eq hn hcnt.symm) (lt_of_lt_of_eq h6 (by rw [← hcnt]; rfl)) hN hE hsrc h1 h2

#print axioms C96_lines

end ABX.ResultFile

namespace ABX.Items
open Database Database.Spec ABX.Spec SideOps Analyze ABX.Task ExtSort
section
variable {parse : Text → Val} (hparse : ∀ t, parse ('c' :: t) = .str (String.ofList ('c' :: t))) {base n repeats : Nat}
include hparse

/-- C96, generated files: `base` values, at most 15, in each of `n` label columns, every line repeated `repeats` times: a task on 'c0' across 'c1' by 'c2' is created, but with a threshold of more than 256 which is less than 0.6 times
the (base^(n-3) (repeats+1))^3 triplets of each group its file is never written. -/
theorem C96_generated (name : Text) (hb : 2 ≤ base) (hb15 : base ≤ 15) (hn : 3 ≤ n) (hN : base ^ n * (repeats + 1) ≤ 3535)
    {threshold : Nat} (hthr : 256 < threshold) (h6 : 10 * threshold < 6 * (base ^ (n - 3) * (repeats + 1)) ^ 3) {e : Env} (he : e.Lawful) :
    ∃ T, fromFile e (oneFile (addExt name) (rawOf parse (namedTestitems base n repeats))) name "c0" ["c1"] ["c2"] [] [] = .ok T ∧
      ∀ (N : Num), ArgsortLaw N.argsort → N.Exact → ∀ src : List Val → List Val → Nat → Sampler.Src, (∀ k k' j, (src k k' j).Lawful) → ∀ bl1 bl2, 0 < bl1 → 0 < bl2 → generate e N threshold src bl1 bl2 T = .error .diverge := by
  obtain ⟨hI, hC, hg⟩ := named_file (parse := parse) name (base := base) (repeats := repeats) hn
  have hrl := named_length (parse := parse) base n repeats
  have hM0 : 0 < base ^ n * (repeats + 1) := by positivity
  have hgl := named_group hparse (repeats := repeats) hb hn (Nat.mod_lt (0 / base ^ 2) (by omega : base > 0))
  have hs : (rawOf parse (namedTestitems base n repeats)).rows.length ^ 3 < 2 ^ 64 := by
    rw [← hrl] at hN; exact lt_of_le_of_lt (Nat.pow_le_pow_left hN 3) (by norm_num)
  have hO : Ops ("item".toList :: colNames n) "c0" ["c1"] ["c2"] [] [] := ⟨by simp, by simp, by simp, by simp⟩
  obtain ⟨T, hT⟩ := (C61_file_created_iff he hI hO hs).mpr ⟨hC, by simp, hg⟩
  refine ⟨T, hT, fun Nm hNm hE src hsrc bl1 bl2 h1 h2 => ?_⟩
  refine ResultFile.C96_lines he hI hs hT (by simp) (named_combos hparse hn hb15) hthr (named_line hM0) (named_level hparse hn 0) (combo_possible.mpr ⟨by omega, by omega⟩) (l := combo 0 1 0 1) ?_ ?_ hNm hE hsrc h1 h2
  · refine lt_of_lt_of_eq ?_ hgl.1.symm
    omega
  · refine lt_of_lt_of_eq h6 ?_
    exact congrArg (6 * ·) hgl.1.symm

end

/-- C96, example: 2 values in each of 3 columns and every line 8 times (64 lines), with a threshold of 300: the task is created and its file is never written -/
example (parse : Text → Val) (hparse : ∀ t, parse ('c' :: t) = .str (String.ofList ('c' :: t))) :
    ∃ T, fromFile E0 (oneFile (addExt "data.item".toList) (rawOf parse (namedTestitems 2 3 7))) "data.item".toList "c0" ["c1"] ["c2"] [] [] = .ok T ∧
      ∀ fuel, generate E0 N0 300 (fun _ _ _ => { srcE with fuel := fuel }) 5 7 T = .error .diverge := by
  obtain ⟨T, hT, h⟩ := C96_generated hparse (base := 2) (n := 3) (repeats := 7) "data.item".toList (by omega) (by omega) (by omega) (by norm_num) (threshold := 300) (by norm_num) (by norm_num) E0_lawful
  refine ⟨T, hT, fun fuel => ?_⟩
  have hl : ({ srcE with fuel := fuel } : Sampler.Src).Lawful := ⟨srcE_lawful.u, srcE_lawful.drawLen, srcE_lawful.drawLt⟩
  exact h N0 insArgsort_law N0_exact (fun _ _ _ => { srcE with fuel := fuel }) (fun _ _ _ => hl) 5 7 (by norm_num) (by norm_num)

#print axioms C96_generated

end ABX.Items
