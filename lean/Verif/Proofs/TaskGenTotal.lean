import Verif.Properties.Task
import Verif.Proofs.TaskFile
import Verif.Proofs.TaskTotal
/-! When `generate` succeeds. -/
namespace ABX.Task
open ExtSort SideOps Sampler
variable {α β γ ρ : Type}

theorem fit_cast64 (n : Nat) : ∃ t, fitIntegerType ((⟨64, true⟩ : IntType).cast (n : Int)) false = .ok t := by
  have h : (⟨64, true⟩ : IntType).cast (n : Int) < 2 ^ 63 := by
    simp only [IntType.cast, IntType.lo, if_true]
    norm_num
    omega
  generalize (⟨64, true⟩ : IntType).cast (n : Int) = v at h
  unfold fitIntegerType
  simp only [Bool.false_eq_true, if_false]
  split_ifs
  · exact ⟨_, rfl⟩
  · exact ⟨_, rfl⟩
  · exact ⟨_, rfl⟩
  · exact ⟨_, rfl⟩
  · exfalso; norm_num at *; omega

theorem fit_total63 {n : Nat} (h : n < 2 ^ 63) : ∃ t, fitIntegerType (n : Int) = .ok t := by
  unfold fitIntegerType
  simp only [if_true]
  split_ifs
  · exact ⟨_, rfl⟩
  · exact ⟨_, rfl⟩
  · exact ⟨_, rfl⟩
  · exact ⟨_, rfl⟩
  · exfalso; norm_num at *; omega

theorem sortBlock_total {N : Num} (ha : ArgsortLaw N.argsort) (src : Nat → Src) (S : List Tri) (K : List (Tri → Nat)) :
    ∃ trips p ix, sortBlock N 0 src (S.map lab) (K.map (fun k => S.map k)) = .ok (trips, p, ix) := by
  unfold sortBlock
  by_cases he : (rowsOf (K.map (fun k => S.map k))).isEmpty = true
  · rw [if_pos he]; exact ⟨_, _, _, rfl⟩
  · rw [if_neg he]
    have hne := (not_congr (rowsOf_isEmpty K S)).mp he
    push Not at hne
    rw [rowsOf_map K S hne.1, List.map_map]
    obtain ⟨t, ht⟩ := fit_cast64 (nRegs (K.map (fun k => S.map k))).prod
    split
    · rename_i er her
      rw [her] at ht
      cases ht
    · rename_i t' _
      dsimp only
      generalize N.index (nRegs (K.map (fun k => S.map k))) ∘ (fun t => K.map (fun k => k t)) = g
      obtain ⟨s, h1, h2⟩ := sortAndThreshold_zero ha (S.map g) t' src
      rw [h2]
      dsimp only
      have hp := ha.perm (S.map g)
      obtain ⟨r, h3, -⟩ := gather_perm (S.map lab) (N.argsort (S.map g)) (by rw [List.length_map] at hp ⊢; exact hp)
      rw [h3]
      exact ⟨_, _, _, rfl⟩

/-- a block with a sorting regressor: refused when a regressor mixes items, otherwise written -/
theorem finishBlock_total {N : Num} (ha : ArgsortLaw N.argsort) {src : Nat → Src} {c : Cols} {mf : Mgr Bool} {m : Mgr Nat} {g : Bool} (hm : MgrOK g c m)
    (hav : ∀ p ∈ m, Avail c p.op) {fr : Frame} (hd : Distinct fr) {row : Row} {A B X : Frame} (hA : ∀ p ∈ A, p ∈ fr)
    (hB : ∀ p ∈ B, p ∈ fr) (hX : ∀ p ∈ X, p ∈ fr) {scalars : List Nat} :
    (m.ops .ABX ≠ [] → finishBlock N 0 src m scalars fr row (blkOf c mf row A B X) = .error .valueError) ∧
    (m.ops .ABX = [] → sortFns c m row ≠ [] → ∃ o, finishBlock N 0 src m scalars fr row (blkOf c mf row A B X) = .ok o) := by
  have i1 := itemRegsA_ok hm hav hd row hA
  have i2 := itemRegsB_ok hm hav hd row hB
  have i3 := itemRegsX_ok hm hav hd row hX
  have e1 : (blkOf c mf row A B X).A = A.map (·.1) := rfl
  have e2 : (blkOf c mf row A B X).B = B.map (·.1) := rfl
  have e3 : (blkOf c mf row A B X).X = X.map (·.1) := rfl
  have e4 : (blkOf c mf row A B X).trips = (blkTri c mf row A B X).map lab := rfl
  obtain ⟨trips, p, ix, hs⟩ := sortBlock_total ha src (blkTri c mf row A B X) (sortFns c m row)
  unfold finishBlock
  rw [e1, e2, e3, e4]
  simp only [i1, i2, i3, sortCols_ok, hs]
  constructor
  · intro h
    rw [if_pos (by simpa using h)]
  · intro h hK
    rw [if_neg (by simp [h])]
    obtain ⟨S', s1, s2⟩ := sortBlock_sub hs
    have hl : S'.length = (blkTri c mf row A B X).length := by
      obtain ⟨S'', t1, t2, -⟩ := sortBlock_zero ha hs
      have := congrArg List.length (s1.symm.trans t2)
      simp only [List.length_map] at this
      rw [this, t1.length_eq]
    obtain ⟨rA, r1, r2, r3, r4⟩ := computeRegressors_ok c mf m row A B X scalars s2
    have hlen : trips.length = S'.length := by rw [s1, List.length_map]
    rw [hlen, r1]
    dsimp only
    have hrA : ∀ x ∈ rA, x.length = S'.length := by
      intro x hx
      by_cases hf : mf.ops .ABX = []
      · rw [r3 hf] at hx
        obtain ⟨f, -, rfl⟩ := List.mem_map.mp hx
        rw [List.length_map, hl]
      · rw [r2 (.inr (.inl ⟨hf, hK⟩))] at hx
        obtain ⟨f, -, rfl⟩ := List.mem_map.mp hx
        rw [List.length_map]
    have hall : ∀ x ∈ scalars.map (fun v => S'.map (fun _ => v)) ++ rA ++ (m.ops .B).map (fun f => S'.map (valB c row f)) ++
          (m.ops .X).map (fun f => S'.map (valX c row f)), x.length = S'.length := by
      intro x hx
      simp only [List.mem_append, List.mem_map] at hx
      rcases hx with ((⟨v, -, rfl⟩ | hx) | ⟨f, -, rfl⟩) | ⟨f, -, rfl⟩
      · simp
      · exact hrA x hx
      · simp
      · simp
    split
    · exact ⟨_, rfl⟩
    · rename_i d ds hdd
      rw [hdd] at hall
      rw [if_pos (by
        rw [List.all_eq_true]
        intro x hx
        rw [beq_iff_eq, hall x (by simp [hx]), hall d (by simp)])]
      exact ⟨_, rfl⟩

section
variable {e : Env} {T : Task ρ} {L : Level ρ} {fs : List (DBFun Bool)} {fr0 : Frame} (H : LevelHyp e T L fs fr0)
include H

theorem blockOut_total {rs : List (DBFun Nat)} (R : RegHyp T rs) (hpos : Positional L.frame) {N : Num} (ha : ArgsortLaw N.argsort)
    {src : List Val → List Val → Nat → Src} {byR : List Nat} {key : List Val} (hk : ∃ p ∈ L.frame, keyOf (T.on :: T.across) p.2 = key) :
    ((T.regressors.ops .ABX ≠ [] ∧ (blockOut e N 0 src T L byR key = .error .valueError ∨ blockOut e N 0 src T L byR key = .ok none)) ∨
     (T.regressors.ops .ABX = [] ∧ ((∀ row, sortFns T.cols T.regressors row ≠ []) → ∃ o, blockOut e N 0 src T L byR key = .ok o))) := by
  obtain ⟨ob, hbt, p, hp, IB, IX, hB, hX, hob⟩ := blockTriplets_ok H hpos hk
  unfold blockOut
  rw [hbt]
  cases hpb : pBlock T.cols T.filters p.2
  · rw [hpb] at hob
    simp only [Bool.false_eq_true, if_false] at hob
    subst hob
    by_cases h : T.regressors.ops .ABX = []
    · exact .inr ⟨h, fun _ => ⟨_, rfl⟩⟩
    · exact .inl ⟨h, .inr rfl⟩
  · rw [hpb] at hob
    simp only [if_true] at hob
    subst hob
    dsimp only
    rw [onAcrossByRegs_ok R.mgrOK R.availM]
    dsimp only
    have sub : ∀ (P Q : Nat × Row → Bool) q, q ∈ (L.frame.filter P).filter Q → q ∈ L.frame := fun P Q q hq =>
      (List.mem_filter.mp (List.mem_filter.mp hq).1).1
    obtain ⟨f1, f2⟩ := finishBlock_total (mf := T.filters) (row := p.2) (A := (aItems T.on T.across L.frame key).filter (pA T.cols T.filters p.2)) (src := src L.key key)
      (scalars := byR ++ (T.regressors.ops .onAcrossBy).map (fun f => f.fn (stageEnv T.cols p.2 p.2 p.2 p.2)))
      ha R.mgrOK R.availM H.distinctL (sub _ _)
      (fun q hq => (List.mem_filter.mp (hB.mem_iff.mp (List.mem_filter.mp hq).1)).1)
      (fun q hq => (List.mem_filter.mp (hX.mem_iff.mp (List.mem_filter.mp hq).1)).1)
    by_cases h : T.regressors.ops .ABX = []
    · refine .inr ⟨h, fun hK => ?_⟩
      obtain ⟨o, ho⟩ := f2 h (hK p.2)
      rw [ho]
      exact ⟨_, rfl⟩
    · refine .inl ⟨h, .inl ?_⟩
      rw [f1 h]

end

theorem sequence_err_or_ok {l : List (Except Err α)} {er : Err} (h : ∀ x ∈ l, x = .error er ∨ ∃ y, x = .ok y) : sequence l = .error er ∨ ∃ ys, sequence l = .ok ys := by
  induction l with
  | nil => exact .inr ⟨[], rfl⟩
  | cons x l ih =>
    rcases h x (by simp) with rfl | ⟨y, rfl⟩
    · exact .inl rfl
    · rcases ih (fun z hz => h z (by simp [hz])) with h' | ⟨ys, h'⟩
      · left; simp only [sequence, h']
      · right; exact ⟨y :: ys, by simp only [sequence, h']⟩

theorem sequence_cons_ok {l : List (Except Err α)} {x : α} {ys : List α} (h : sequence l = .ok ys) : sequence (.ok x :: l) = .ok (x :: ys) := by
  simp only [sequence, h]

theorem iloc_zero {fr : Frame} (h : fr ≠ []) : ∃ row, iloc fr 0 = .ok row := by
  cases fr with
  | nil => exact absurd rfl h
  | cons p fr => exact ⟨p.2, rfl⟩

section
variable {e : Env} {T : Task ρ} {L : Level ρ} {fs : List (DBFun Bool)} {fr0 : Frame} (H : LevelHyp e T L fs fr0)
include H

theorem levelOut_total {rs : List (DBFun Nat)} (R : RegHyp T rs) (hpos : Positional L.frame) (hne : L.frame ≠ []) {N : Num} (ha : ArgsortLaw N.argsort)
    {src : List Val → List Val → Nat → Src} :
    (T.regressors.ops .ABX ≠ [] → levelOut e N 0 src T L = .error .valueError ∨ levelOut e N 0 src T L = .ok []) ∧
    (T.regressors.ops .ABX = [] → (∀ row, sortFns T.cols T.regressors row ≠ []) → ∃ os, levelOut e N 0 src T L = .ok os) := by
  obtain ⟨row0, hrow⟩ := iloc_zero hne
  unfold levelOut
  rw [hrow]
  dsimp only
  rw [byRegs_ok R.mgrOK]
  dsimp only
  constructor
  · intro h
    have hb : ∀ x ∈ (groupKeys e "gen" (T.on :: T.across) L.frame).map (blockOut e N 0 src T L ((T.regressors.ops .by).map (fun f => f.fn (fun v => row0 v.1)))),
        x = .error .valueError ∨ x = .ok none := by
      intro x hx
      obtain ⟨k, hk, rfl⟩ := List.mem_map.mp hx
      rcases blockOut_total (src := src) (byR := (T.regressors.ops .by).map (fun f => f.fn (fun v => row0 v.1))) H R hpos ha ((mem_groupKeys H.lawful).mp hk) with ⟨_, h'⟩ | ⟨h', _⟩
      · exact h'
      · exact absurd h' h
    rcases sequence_err_or_ok (er := .valueError) (fun x hx => (hb x hx).imp id (fun h => ⟨_, h⟩)) with h' | ⟨ys, h'⟩
    · left; rw [h']
    · right
      rw [h']
      have : ys.filterMap id = [] := by
        rw [List.filterMap_eq_nil_iff]
        intro y hy
        obtain ⟨k, hk, hky⟩ := forall₂_mem_right (sequence_inv h') y hy
        rcases hb _ (List.mem_map_of_mem hk) with h2 | h2
        · rw [hky] at h2; cases h2
        · rw [hky] at h2; cases h2; rfl
      dsimp only
      rw [this]
  · intro h hK
    obtain ⟨ys, hy, -⟩ := sequence_exists (f := blockOut e N 0 src T L ((T.regressors.ops .by).map (fun f => f.fn (fun v => row0 v.1)))) (Q := fun _ _ => True)
        (l := groupKeys e "gen" (T.on :: T.across) L.frame) (by
      intro k hk
      rcases blockOut_total (src := src) (byR := (T.regressors.ops .by).map (fun f => f.fn (fun v => row0 v.1))) H R hpos ha ((mem_groupKeys H.lawful).mp hk) with ⟨h', _⟩ | ⟨_, h'⟩
      · exact absurd h h'
      · obtain ⟨o, ho⟩ := h' hK
        exact ⟨o, ho, trivial⟩)
    rw [hy]
    exact ⟨_, rfl⟩

end

/-- the rest of `generate`: the sizes fit and every level is written -/
theorem generate_total {e : Env} {N : Num} {threshold : Nat} {src : List Val → List Val → Nat → Src} {bl1 bl2 : Nat} (h1 : 0 < bl1) (h2 : 0 < bl2) {T : Task ρ} {total : Nat}
    (ht : nbTriplets e T = .ok (total : Int)) (h0 : total ≠ 0) (hlt : total < 2 ^ 63)
    (hb : (T.levels.map (fun L => (groupKeys e "stats" (T.on :: T.across) L.frame).length)).sum < 2 ^ 63)
    {outs : List (List BlkOut)} (ho : List.Forall₂ (fun L os => levelOut e N threshold src T L = .ok os) T.levels outs)
    (hsum : (outs.map (fun os => (os.flatMap BlkOut.trips).length)).sum ≤ total) : ∃ F, generate e N threshold src bl1 bl2 T = .ok (some F) := by
  unfold generate
  rw [ht]
  dsimp only
  rw [if_neg (by exact_mod_cast h0)]
  obtain ⟨t, ht⟩ := fit_total63 hlt
  rw [ht]
  dsimp only
  obtain ⟨tb, htb⟩ := fit_total63 hb
  rw [htb]
  dsimp only
  have hseq : ∀ {Ls : List (Level ρ)} {outs : List (List BlkOut)}, List.Forall₂ (fun L os => levelOut e N threshold src T L = .ok os) Ls outs →
      ∃ ps : List (List Val × List BlkOut), sequence (Ls.map (fun L => (levelOut e N threshold src T L).map (fun o => (L.key, o)))) = .ok ps ∧ ps.map (·.2) = outs := by
    intro Ls outs h
    induction h with
    | nil => exact ⟨[], rfl, rfl⟩
    | @cons L os Ls outs h _ ih =>
      obtain ⟨ps, i1, i2⟩ := ih
      refine ⟨(L.key, os) :: ps, ?_, by simp [i2]⟩
      rw [List.map_cons, h]
      exact sequence_cons_ok i1
  obtain ⟨ps, p1, p2⟩ := hseq ho
  rw [p1]
  dsimp only
  have hloop := byLoop_ok (ps.map (fun p => (p.1, (p.2.map (fun o => o.trips.length)).sum))) 0 [0] [] (by decide)
  rw [kept_map, List.map_map, List.map_map] at hloop
  generalize byLoop (ps.map (fun p => (p.1, (p.2.map (fun o => o.trips.length)).sum))) 0 [0] [] = r at hloop
  have eb := congrArg Prod.fst hloop
  dsimp only at eb
  have hbnd : ∀ (l : List Nat), [0] ++ cuts 0 l = 0 :: cuts 0 l := fun _ => rfl
  rw [hbnd] at eb
  have el := cuts_last 0 (List.map ((fun p : List Val × Nat => p.2) ∘ fun p : List Val × List BlkOut => (p.1, (levelTrips p).length)) (kept ps))
  rw [← eb] at el
  have hk : (List.map ((fun p : List Val × Nat => p.2) ∘ fun p : List Val × List BlkOut => (p.1, (levelTrips p).length)) (kept ps)).sum ≤ total := by
    refine le_trans (le_of_eq ?_) hsum
    have : (List.map ((fun p : List Val × Nat => p.2) ∘ fun p : List Val × List BlkOut => (p.1, (levelTrips p).length)) (kept ps)).sum = ((kept ps).flatMap levelTrips).length := by
      rw [List.length_flatMap]; rfl
    rw [this, kept_flatMap, List.length_flatMap, ← p2, List.map_map]
    rfl
  obtain ⟨ti, hti⟩ := fit_total63 (n := r.1.getLastD 0) (by omega)
  rw [hti]
  dsimp only
  have hlen : r.1.getLastD 0 = ((ps.flatMap (·.2)).map (fun o => o.trips.map (castTrip t))).flatten.length := by
    rw [el, data_eq, ← kept_flatMap, List.length_map, List.length_flatMap, Nat.zero_add]
    rfl
  rw [hlen, writeDataset_resize _ _ _ h1]
  dsimp only
  rw [writeDataset_plain _ _ _ h2]
  exact ⟨_, rfl⟩

end ABX.Task
