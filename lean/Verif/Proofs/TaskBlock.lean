import Verif.Proofs.TaskCut
/-! Output of a block: triplets and regressors. -/
namespace ABX.Task
open ExtSort SideOps Sampler
variable {α β γ ρ : Type}

theorem computeRegressors_ok (c : Cols) (mf : Mgr Bool) (m : Mgr Nat) (row : Row) (A B X : Frame) (scalars : List Nat) {p : List Nat} {S' : List Tri}
    (hp : (p = [] ∧ S' = blkTri c mf row A B X ∧ (sortFns c m row = [] ∨ blkTri c mf row A B X = [])) ∨
      (sortFns c m row ≠ [] ∧ gather (blkTri c mf row A B X) p = .ok S')) :
    ∃ rA, computeRegressors scalars ((m.ops .A).map (fun f => A.map (fun p => f.fn (stageEnv c row p.2 row row))))
      ((m.ops .B).map (fun f => B.map (fun p => f.fn (stageEnv c row row p.2 row))))
      ((m.ops .X).map (fun f => X.map (fun p => f.fn (stageEnv c row row row p.2)))) (blkOf c mf row A B X) S'.length p =
        .ok (scalars.map (fun v => S'.map (fun _ => v)) ++ rA ++ (m.ops .B).map (fun f => S'.map (valB c row f)) ++
          (m.ops .X).map (fun f => S'.map (valX c row f))) ∧
      ((m.ops .A = [] ∨ (mf.ops .ABX ≠ [] ∧ sortFns c m row ≠ []) ∨ (mf.ops .ABX = [] ∧ sortFns c m row = [])) →
        rA = (m.ops .A).map (fun f => S'.map (valA c row f))) ∧
      (mf.ops .ABX = [] → rA = (m.ops .A).map (fun f => (blkTri c mf row A B X).map (valA c row f))) ∧
      (mf.ops .ABX ≠ [] → p = [] → rA = (m.ops .A).map (fun _ => [])) := by
  have gA : gatherAll ((m.ops .A).map (fun f => A.map (fun p => f.fn (stageEnv c row p.2 row row)))) (blkOf c mf row A B X).iA =
      .ok ((m.ops .A).map (fun f => (prod3 A B X).map (valA c row f))) :=
    gatherAll_ok _ _ _ _ (fun f _ => gather_facA A B X (fun p => f.fn (stageEnv c row p.2 row row)))
  have gB : gatherAll ((m.ops .B).map (fun f => B.map (fun p => f.fn (stageEnv c row row p.2 row)))) (blkOf c mf row A B X).iB =
      .ok ((m.ops .B).map (fun f => (prod3 A B X).map (valB c row f))) :=
    gatherAll_ok _ _ _ _ (fun f _ => gather_facB A B X (fun p => f.fn (stageEnv c row row p.2 row)))
  have gX : gatherAll ((m.ops .X).map (fun f => X.map (fun p => f.fn (stageEnv c row row row p.2)))) (blkOf c mf row A B X).iX =
      .ok ((m.ops .X).map (fun f => (prod3 A B X).map (valX c row f))) :=
    gatherAll_ok _ _ _ _ (fun f _ => gather_facX A B X (fun p => f.fn (stageEnv c row row row p.2)))
  have fl : ∀ (F : List (DBFun Nat)) (v : DBFun Nat → Tri → Nat), filt (blkOf c mf row A B X).abx (F.map (fun f => (prod3 A B X).map (v f))) =
      .ok (F.map (fun f => (blkTri c mf row A B X).map (v f))) := by
    intro F v
    have := blkOf_abx_gather c mf row A B X (F.map v)
    simpa [List.map_map, Function.comp_def] using this
  -- gathering the columns at `p`
  have gp : ∀ (F : List (DBFun Nat)) (v : DBFun Nat → Tri → Nat), (sortFns c m row = [] → F = []) →
      gatherAll (F.map (fun f => (blkTri c mf row A B X).map (v f))) p = .ok (F.map (fun f => S'.map (v f))) := by
    intro F v hF
    apply gatherAll_ok
    intro f hf
    rcases hp with ⟨h1, h2, h3 | h3⟩ | ⟨_, h2⟩
    · rw [hF h3] at hf; simp at hf
    · rw [h2, h3, h1]; rfl
    · rw [gather_map, h2]; rfl
  have emB : sortFns c m row = [] → m.ops .B = [] := by intro h; simp [sortFns] at h; exact h.1
  have emX : sortFns c m row = [] → m.ops .X = [] := by intro h; simp [sortFns] at h; exact h.2
  have hrep : scalars.map (fun v => List.replicate S'.length v) = scalars.map (fun v => S'.map (fun _ => v)) := by
    apply List.map_congr_left; intro v _; simp
  by_cases ha : mf.ops .ABX = []
  · have hb : (blkOf c mf row A B X).abx = none := by simp [blkOf, ha]
    have hS : blkTri c mf row A B X = prod3 A B X := by
      unfold blkTri; apply List.filter_eq_self.mpr; intro t _; simp [pABX, ha]
    refine ⟨(m.ops .A).map (fun f => (blkTri c mf row A B X).map (valA c row f)), ?_, ?_, fun _ => rfl, fun h => absurd ha h⟩
    · unfold computeRegressors
      simp only [gA, gB, gX, fl]
      simp only [gp _ _ emB, gp _ _ emX, hb, hrep]
      rw [hS]
    · rintro (h | h | h)
      · simp [h]
      · exact absurd ha h.1
      · rcases hp with ⟨_, h2, _⟩ | ⟨h1, _⟩
        · rw [h2]
        · exact absurd h.2 h1
  · have hb : (blkOf c mf row A B X).abx = some (positions (pABX c mf row) (prod3 A B X)) := by simp [blkOf, ha]
    have fA := fl (m.ops .A) (valA c row)
    rw [hb] at fA
    simp only [filt] at fA
    rcases hp with ⟨h1, h2, h3⟩ | ⟨h1, h2⟩
    · refine ⟨(m.ops .A).map (fun _ => []), ?_, ?_, fun h => absurd h ha, fun _ _ => rfl⟩
      · have gAp : gatherAll ((m.ops .A).map (fun f => (blkTri c mf row A B X).map (valA c row f))) p = .ok ((m.ops .A).map (fun _ => [])) := by
          apply gatherAll_ok; intro f _; rw [h1]; rfl
        unfold computeRegressors
        simp only [gA, gB, gX, fl]
        simp only [gp _ _ emB, gp _ _ emX, hb, hrep, fA, gAp]
      · rintro (h | h | h)
        · simp [h]
        · rcases h3 with h3 | h3
          · exact absurd h3 h.2
          · rw [h2, h3]; simp
        · exact absurd h.1 ha
    · have gAp : gatherAll ((m.ops .A).map (fun f => (blkTri c mf row A B X).map (valA c row f))) p =
          .ok ((m.ops .A).map (fun f => S'.map (valA c row f))) := by
        apply gatherAll_ok; intro f _; rw [gather_map, h2]; rfl
      refine ⟨(m.ops .A).map (fun f => S'.map (valA c row f)), ?_, fun _ => rfl, fun h => absurd h ha, ?_⟩
      · unfold computeRegressors
        simp only [gA, gB, gX, fl]
        simp only [gp _ _ emB, gp _ _ emX, hb, hrep, fA, gAp]
      · intro _ hp0
        rw [hp0] at h2
        have h2' : (Except.ok [] : Except Err (List Tri)) = .ok S' := h2
        injection h2' with h2'
        rw [← h2']; simp

/-- the rest of a block, after the factorial combination -/
theorem finishBlock_ok {N : Num} {threshold : Nat} {src : Nat → Src} {c : Cols} {mf : Mgr Bool} {m : Mgr Nat} {g : Bool} (hm : MgrOK g c m)
    (hav : ∀ p ∈ m, Avail c p.op) {fr : Frame} (hd : Distinct fr) {row : Row} {A B X : Frame} (hA : ∀ p ∈ A, p ∈ fr)
    (hB : ∀ p ∈ B, p ∈ fr) (hX : ∀ p ∈ X, p ∈ fr) {scalars : List Nat} {o : BlkOut}
    (h : finishBlock N threshold src m scalars fr row (blkOf c mf row A B X) = .ok o) :
    m.ops .ABX = [] ∧ ∃ p, sortBlock N threshold src ((blkTri c mf row A B X).map lab)
        ((sortFns c m row).map (fun k => (blkTri c mf row A B X).map k)) = .ok (o.trips, p, o.index) ∧
      computeRegressors scalars ((m.ops .A).map (fun f => A.map (fun p => f.fn (stageEnv c row p.2 row row))))
        ((m.ops .B).map (fun f => B.map (fun p => f.fn (stageEnv c row row p.2 row))))
        ((m.ops .X).map (fun f => X.map (fun p => f.fn (stageEnv c row row row p.2)))) (blkOf c mf row A B X) o.trips.length p = .ok o.regs ∧
      (∀ d1 ∈ o.regs, ∀ d2 ∈ o.regs, d1.length = d2.length) := by
  have i1 := itemRegsA_ok hm hav hd row hA
  have i2 := itemRegsB_ok hm hav hd row hB
  have i3 := itemRegsX_ok hm hav hd row hX
  have e1 : (blkOf c mf row A B X).A = A.map (·.1) := rfl
  have e2 : (blkOf c mf row A B X).B = B.map (·.1) := rfl
  have e3 : (blkOf c mf row A B X).X = X.map (·.1) := rfl
  have e4 : (blkOf c mf row A B X).trips = (blkTri c mf row A B X).map lab := rfl
  unfold finishBlock at h
  rw [e1, e2, e3, e4] at h
  simp only [i1, i2, i3, sortCols_ok] at h
  split at h
  · cases h
  rename_i trips p ix hs
  split at h
  · cases h
  rename_i hABX
  split at h
  · cases h
  rename_i regs hr
  refine ⟨by simpa using hABX, p, ?_⟩
  split at h
  · injection h with h
    rw [← h]
    exact ⟨hs, hr, by simp⟩
  · rename_i d ds
    split at h
    · rename_i hall
      injection h with h
      rw [← h]
      refine ⟨hs, hr, ?_⟩
      have : ∀ x ∈ d :: ds, x.length = d.length := by
        intro x hx
        rcases List.mem_cons.mp hx with rfl | hx
        · rfl
        · have := List.all_eq_true.mp hall x hx; simpa using this
      intro d1 h1 d2 h2
      rw [this d1 h1, this d2 h2]
    · cases h

/-- value of a placed regressor -/
theorem reg_value {c : Cols} {m : Mgr Nat} {g : Bool} (hm : MgrOK g c m) (hav : ∀ p ∈ m, Avail c p.op) {row : Row} {t : Tri}
    (hby : ∀ r ∈ c.by_, row r = t.1.2 r ∧ row r = t.2.1.2 r ∧ row r = t.2.2.2 r)
    (hon : ∀ r ∈ c.on, row r = t.1.2 r ∧ row r = t.2.2.2 r) (hac : ∀ r ∈ c.across, row r = t.1.2 r) :
    (∀ f ∈ m.ops .by, f.fn (fun v => row v.1) = Spec.regValue c f t) ∧
    (∀ f ∈ m.ops .onAcrossBy, f.fn (stageEnv c row row row row) = Spec.regValue c f t) ∧
    (∀ f ∈ m.ops .A, valA c row f t = Spec.regValue c f t) ∧
    (∀ f ∈ m.ops .B, valB c row f t = Spec.regValue c f t) ∧
    (∀ f ∈ m.ops .X, valX c row f t = Spec.regValue c f t) := by
  have sem : ∀ p ∈ m, p.stage ≠ .by → p.stage ≠ .generic → p.op.fn (stageEnv c row t.1.2 t.2.1.2 t.2.2.2) = Spec.regValue c p.op t :=
    fun p hp h1 h2 => p.op.ext _ _ (stageEnv_sem (hm p hp) h1 h2 (hav p hp) hby hon hac)
  refine ⟨?_, ?_, ?_, ?_, ?_⟩ <;> intro f hf <;> obtain ⟨p, hp, hs, rfl⟩ := mem_ops.mp hf
  · apply p.op.ext
    intro v hv
    have hb := (hm p hp).hby' hs v hv
    obtain ⟨h1, h2, h3⟩ := hby v.1 hb
    obtain ⟨r, e⟩ := v
    cases e <;> simp only [Spec.sem] <;> try assumption
    split <;> assumption
  · rw [← sem p hp (by simp [hs]) (by simp [hs])]; exact stageEnv_congr_block hm hp hs ..
  · rw [← sem p hp (by simp [hs]) (by simp [hs])]; exact stageEnv_congr_A hm hp hs ..
  · rw [← sem p hp (by simp [hs]) (by simp [hs])]; exact stageEnv_congr_B hm hp hs ..
  · rw [← sem p hp (by simp [hs]) (by simp [hs])]; exact stageEnv_congr_X hm hp hs ..

/-- the triples of items of a block -/
structure BlockTri (c : Cols) (on : String) (across : List String) (fs : List (DBFun Bool)) (fr : Frame) (key : List Val) (S : List Tri) : Prop where
  nodup : S.Nodup
  mem : ∀ t, t ∈ S ↔ Good c on across fs fr t.1 t.2.1 t.2.2 ∧ keyOf (on :: across) t.1.2 = key

structure RegHyp (T : Task ρ) (rs : List (DBFun Nat)) : Prop where
  mgr : mgr false T.cols rs = .ok T.regressors
  avail : ∀ f ∈ rs, Avail T.cols f

theorem RegHyp.mgrOK {T : Task ρ} {rs} (R : RegHyp T rs) : MgrOK false T.cols T.regressors := mgr_ok R.mgr
theorem RegHyp.availM {T : Task ρ} {rs} (R : RegHyp T rs) : ∀ p ∈ T.regressors, Avail T.cols p.op := fun p hp =>
  R.avail _ (by rw [← mgr_ops R.mgr]; exact List.mem_map_of_mem hp)

theorem mem_of_gather {l : List γ} {p : List Nat} {r : List γ} (h : gather l p = .ok r) : ∀ x ∈ r, x ∈ l := by
  intro x hx
  obtain ⟨h1, h2⟩ := gather_inv x h
  rw [h2] at hx
  obtain ⟨i, hi, hxi⟩ := List.mem_map.mp hx
  have := h1 i hi
  simp only [List.getD_eq_getElem?_getD, List.getElem?_eq_getElem this, Option.getD_some] at hxi
  rw [← hxi]; exact List.getElem_mem this

/-- positions selected by `sort_and_threshold` are always in range -/
theorem sortBlock_sub {N : Num} {threshold : Nat} {src : Nat → Src} {S : List Tri} {K : List (Tri → Nat)} {trips : List (Nat × Nat × Nat)} {p ix : List Nat}
    (h : sortBlock N threshold src (S.map lab) (K.map (fun k => S.map k)) = .ok (trips, p, ix)) :
    ∃ S' : List Tri, trips = S'.map lab ∧ ((p = [] ∧ S' = S ∧ (K = [] ∨ S = [])) ∨ (K ≠ [] ∧ gather S p = .ok S')) := by
  rcases sortBlock_cases h with ⟨h1, h2, h3⟩ | ⟨h1, h2, t, ht, hf, hst, hg⟩
  · exact ⟨S, h2, Or.inl ⟨h3, rfl, h1⟩⟩
  · obtain ⟨S', e1, e2⟩ := gather_map_lab hg
    exact ⟨S', e2, Or.inr ⟨h1, e1⟩⟩

/-- the regressors in the order of the columns -/
def colRegs (m : Mgr Nat) : List (DBFun Nat) := m.ops .by ++ m.ops .onAcrossBy ++ m.ops .A ++ m.ops .B ++ m.ops .X

/-- what is known of the output of a block -/
structure OutSpec (N : Num) (threshold : Nat) (c : Cols) (mf : Mgr Bool) (m : Mgr Nat) (S S' : List Tri) (row : Row) (o : BlkOut) : Prop where
  trips : o.trips = S'.map lab
  sub : ∀ t ∈ S', t ∈ S
  perm : threshold = 0 → S'.Perm S
  sel : N.Exact → (sortFns c m row) ≠ [] → (nRegs ((sortFns c m row).map (fun k => S.map k))).prod ≤ 2 ^ 53 →
    (threshold = 0 ∨ ∀ t, fitIntegerType ((nRegs ((sortFns c m row).map (fun k => S.map k))).prod : Nat) false = .ok t → (S.length : Int) ≤ t.hi) →
    Sel threshold (sortFns c m row) S S'
  regs : (m.ops .A = [] ∨ (mf.ops .ABX ≠ [] ∧ sortFns c m row ≠ []) ∨ (mf.ops .ABX = [] ∧ sortFns c m row = [])) →
    o.regs = (colRegs m).map (fun f => S'.map (Spec.regValue c f))
  noABX : m.ops .ABX = []
  index : threshold = 0 → N.Exact → (nRegs ((sortFns c m row).map (fun k => S.map k))).prod ≤ 2 ^ 53 → (sortFns c m row = [] → S = []) →
    o.index = Spec.runBounds (fun t u => keyRow (sortFns c m row) t == keyRow (sortFns c m row) u) S'
  cut : N.Exact → threshold ≠ 0 → (sortFns c m row) ≠ [] → (nRegs ((sortFns c m row).map (fun k => S.map k))).prod ≤ 2 ^ 53 →
    ∀ ty, fitIntegerType ((nRegs ((sortFns c m row).map (fun k => S.map k))).prod : Nat) false = .ok ty → Cut ty threshold (sortFns c m row) S S'

section
variable {e : Env} {T : Task ρ} {L : Level ρ} {fs : List (DBFun Bool)} {fr0 : Frame} (H : LevelHyp e T L fs fr0)
include H

theorem block_tri {key : List Val} {p : Nat × Row} (hp : p ∈ aItems T.on T.across L.frame key) {IB IX : Frame}
    (hB : IB.Perm (bItems T.on T.across L.frame key)) (hX : IX.Perm (xItems T.on T.across L.frame key)) :
    BlockTri T.cols T.on T.across fs fr0 key (if pBlock T.cols T.filters p.2 then
          blkTri T.cols T.filters p.2 ((aItems T.on T.across L.frame key).filter (pA T.cols T.filters p.2))
            (IB.filter (pB T.cols T.filters p.2)) (IX.filter (pX T.cols T.filters p.2)) else []) := by
  have nd := H.distinctL.nodup
  constructor
  · split
    · apply List.Nodup.filter
      apply prod3_nodup
      · exact List.Nodup.filter _ (List.Nodup.filter _ nd)
      · exact List.Nodup.filter _ (hB.nodup_iff.mpr (List.Nodup.filter _ nd))
      · exact List.Nodup.filter _ (hX.nodup_iff.mpr (List.Nodup.filter _ nd))
    · exact List.nodup_nil
  · rintro ⟨a, b, x⟩
    rw [← good_iff H hp]
    split
    · rename_i hb
      simp only [blkTri, List.mem_filter, mem_prod3, hB.mem_iff, hX.mem_iff, hb, true_and]
      tauto
    · rename_i hb
      simp [hb]

/-- the items of a triplet share with the block's row the values determined by by, on, across -/
theorem share {key : List Val} {p : Nat × Row} (hp : p ∈ aItems T.on T.across L.frame key) {t : Tri}
    (ht : Good T.cols T.on T.across fs fr0 t.1 t.2.1 t.2.2) (hk : keyOf (T.on :: T.across) t.1.2 = key) :
    (∀ r ∈ T.cols.by_, p.2 r = t.1.2 r ∧ p.2 r = t.2.1.2 r ∧ p.2 r = t.2.2.2 r) ∧
    (∀ r ∈ T.cols.on, p.2 r = t.1.2 r ∧ p.2 r = t.2.2.2 r) ∧ (∀ r ∈ T.cols.across, p.2 r = t.1.2 r) := by
  obtain ⟨hpL, hpk⟩ : p ∈ L.frame ∧ keyOf (T.on :: T.across) p.2 = key := by
    have := List.mem_filter.mp hp; simpa using this
  have hp0 := H.sub hpL
  obtain ⟨ha, hb, hx, hl, _⟩ := ht
  have hax : t.1.2 T.on = t.2.2.2 T.on := by simp [Spec.legal] at hl; exact hl.1.1.1
  have hpa : p.2 T.on = t.1.2 T.on ∧ keyOf T.across p.2 = keyOf T.across t.1.2 := by
    rw [← hk] at hpk; simpa [keyOf] using hpk
  exact ⟨fun r hr => ⟨H.fd.by_ p hp0 _ ha r hr, H.fd.by_ p hp0 _ hb r hr, H.fd.by_ p hp0 _ hx r hr⟩,
    fun r hr => ⟨H.fd.on p hp0 _ ha hpa.1 r hr, H.fd.on p hp0 _ hx (hpa.1.trans hax) r hr⟩,
    fun r hr => H.fd.across p hp0 _ ha hpa.2 r hr⟩

theorem blockOut_ok {rs : List (DBFun Nat)} (R : RegHyp T rs) (hpos : Positional L.frame) {N : Num} (ha : ArgsortLaw N.argsort) {threshold : Nat}
    {src : List Val → List Val → Nat → Src} (hl : ∀ k k' j, (src k k' j).Lawful)
    {row0 : Row} (hrow0 : iloc L.frame 0 = .ok row0) {key : List Val}
    (hk : ∃ p ∈ L.frame, keyOf (T.on :: T.across) p.2 = key) {o : Option BlkOut}
    (h : blockOut e N threshold src T L ((T.regressors.ops .by).map (fun f => f.fn (fun v => row0 v.1))) key = .ok o) :
    ∃ p ∈ aItems T.on T.across L.frame key, ∃ S : List Tri, BlockTri T.cols T.on T.across fs fr0 key S ∧
      ((o = none ∧ S = []) ∨ ∃ out S', o = some out ∧ OutSpec N threshold T.cols T.filters T.regressors S S' p.2 out) := by
  obtain ⟨ob, hbt, p, hp, IB, IX, hB, hX, hob⟩ := blockTriplets_ok H hpos hk
  have htri := block_tri H hp hB hX
  refine ⟨p, hp, _, htri, ?_⟩
  unfold blockOut at h
  rw [hbt] at h
  cases hpb : pBlock T.cols T.filters p.2
  · rw [hpb] at hob
    simp only [Bool.false_eq_true, if_false] at hob ⊢
    subst hob
    simp only [Except.ok.injEq] at h
    exact Or.inl ⟨h.symm, by simp⟩
  · right
    rw [hpb] at hob htri
    simp only [if_true] at hob htri ⊢
    subst hob
    simp only [] at h
    rw [onAcrossByRegs_ok R.mgrOK R.availM] at h
    simp only [] at h
    split at h
    · cases h
    rename_i out hout
    injection h with h
    have sub : ∀ (P Q : Nat × Row → Bool) q, q ∈ (L.frame.filter P).filter Q → q ∈ L.frame := fun P Q q hq =>
      (List.mem_filter.mp (List.mem_filter.mp hq).1).1
    obtain ⟨f1, q, f2, f3, f4⟩ := finishBlock_ok (A := (aItems T.on T.across L.frame key).filter (pA T.cols T.filters p.2)) R.mgrOK R.availM H.distinctL (sub _ _)
      (fun q hq => (List.mem_filter.mp (hB.mem_iff.mp (List.mem_filter.mp hq).1)).1)
      (fun q hq => (List.mem_filter.mp (hX.mem_iff.mp (List.mem_filter.mp hq).1)).1) hout
    obtain ⟨S', g1, g2⟩ := sortBlock_sub f2
    have gsub : ∀ t ∈ S', t ∈ blkTri T.cols T.filters p.2 ((aItems T.on T.across L.frame key).filter (pA T.cols T.filters p.2))
            (IB.filter (pB T.cols T.filters p.2)) (IX.filter (pX T.cols T.filters p.2)) := by
      rcases g2 with ⟨_, rfl, _⟩ | ⟨_, g2⟩
      · exact fun t ht => ht
      · exact mem_of_gather g2
    refine ⟨out, S', h.symm, ⟨g1, gsub, ?_, ?_, ?_, f1, ?_, ?cut⟩⟩
    case cut =>
      intro hN h0 hK hprod ty hty
      obtain ⟨S'', s1, s2, s3⟩ := sortBlock_cut ha hN h0 hK hprod hty f2
      have : S' = S'' := by
        rcases g2 with ⟨b1, b2, b3 | b3⟩ | ⟨b1, b2⟩
        · exact absurd b3 hK
        · rcases s3 with ⟨c1, c2, c3⟩ | c1
          · rw [b2, b3, c3]
          · rw [b2, b3]
            rw [b3] at c1
            have := mem_of_gather c1
            exact (List.eq_nil_iff_forall_not_mem.mpr (fun t ht => by simpa using this t ht)).symm
        · rcases s3 with ⟨c1, c2, c3⟩ | c1
          · rw [c3]
            rw [c1] at b2
            have := mem_of_gather b2
            exact List.eq_nil_iff_forall_not_mem.mpr (fun t ht => by simpa using this t ht)
          · rw [b2] at c1; injection c1
      rw [this]; exact s1
    · intro h0
      subst h0
      obtain ⟨S'', s1, s2, s3⟩ := sortBlock_zero ha f2
      have : S' = S'' := by
        rcases s3 with ⟨a1, a2, a3⟩ | ⟨a1, a2, _⟩
        · rcases g2 with ⟨b1, b2, b3⟩ | ⟨b1, b2⟩
          · rw [b2, a3]
          · rcases a1 with a1 | a1
            · exact absurd a1 b1
            · rw [a3, a1]
              have := gsub
              rw [a1] at this
              exact List.eq_nil_iff_forall_not_mem.mpr (fun t ht => by simpa using this t ht)
        · rcases g2 with ⟨b1, b2, b3 | b3⟩ | ⟨b1, b2⟩
          · exact absurd b3 a1
          · rw [b2, b3]
            rw [b3] at a2
            have := mem_of_gather a2
            exact (List.eq_nil_iff_forall_not_mem.mpr (fun t ht => by simpa using this t ht)).symm
          · rw [b2] at a2; injection a2
      rw [this]; exact s1
    · intro hN hK hprod hfit
      obtain ⟨S'', s1, s2, s3⟩ := sortBlock_sel ha hN (hl _ _) hK hprod hfit f2
      have : S' = S'' := by
        rcases g2 with ⟨b1, b2, b3 | b3⟩ | ⟨b1, b2⟩
        · exact absurd b3 hK
        · rcases s3 with ⟨c1, c2, c3⟩ | c1
          · rw [b2, b3, c3]
          · rw [b2, b3]
            rw [b3] at c1
            have := mem_of_gather c1
            exact (List.eq_nil_iff_forall_not_mem.mpr (fun t ht => by simpa using this t ht)).symm
        · rcases s3 with ⟨c1, c2, c3⟩ | c1
          · rw [c3]
            rw [c1] at b2
            have := mem_of_gather b2
            exact List.eq_nil_iff_forall_not_mem.mpr (fun t ht => by simpa using this t ht)
          · rw [b2] at c1; injection c1
      rw [this]; exact s1
    · intro hcond
      have hlen : out.trips.length = S'.length := by rw [g1]; simp
      rw [hlen] at f3
      obtain ⟨rA, r1, r2, _⟩ := computeRegressors_ok T.cols T.filters T.regressors p.2 _ _ _ _ g2
      rw [r1] at f3
      injection f3 with f3
      rw [← f3, r2 hcond]
      have val : ∀ t ∈ S', _ := fun t ht => by
        have hg := (htri.mem t).mp (gsub t ht)
        obtain ⟨s1, s2, s3⟩ := share H hp hg.1 hg.2
        exact reg_value R.mgrOK R.availM s1 s2 s3
      have hrow : ∀ f ∈ T.regressors.ops .by, f.fn (fun v => row0 v.1) = f.fn (fun v => p.2 v.1) := by
        intro f hf
        obtain ⟨q, hq, hs, rfl⟩ := mem_ops.mp hf
        apply q.op.ext
        intro v hv
        have hb := (R.mgrOK q hq).hby' hs v hv
        unfold iloc at hrow0
        split at hrow0
        · cases hrow0
        rename_i q0 hq0
        injection hrow0 with hrow0
        rw [← hrow0]
        exact H.fd.by_ _ (H.sub (List.mem_of_getElem? hq0)) _ (H.sub (List.mem_filter.mp hp).1) _ hb
      unfold colRegs
      simp only [List.map_append, List.map_map]
      have e1 : (T.regressors.ops .by).map ((fun v => S'.map (fun _ => v)) ∘ fun f => f.fn (fun v => row0 v.1)) =
          (T.regressors.ops .by).map (fun f => S'.map (Spec.regValue T.cols f)) := by
        apply List.map_congr_left
        intro f hf
        apply List.map_congr_left
        intro t ht
        exact (hrow f hf).trans ((val t ht).1 f hf)
      have e2 : (T.regressors.ops .onAcrossBy).map ((fun v => S'.map (fun _ => v)) ∘ fun f => f.fn (stageEnv T.cols p.2 p.2 p.2 p.2)) =
          (T.regressors.ops .onAcrossBy).map (fun f => S'.map (Spec.regValue T.cols f)) := by
        apply List.map_congr_left
        intro f hf
        apply List.map_congr_left
        intro t ht
        exact (val t ht).2.1 f hf
      have e3 : (T.regressors.ops .A).map (fun f => S'.map (valA T.cols p.2 f)) = (T.regressors.ops .A).map (fun f => S'.map (Spec.regValue T.cols f)) := by
        apply List.map_congr_left
        intro f hf
        apply List.map_congr_left
        intro t ht
        exact (val t ht).2.2.1 f hf
      have e4 : (T.regressors.ops .B).map (fun f => S'.map (valB T.cols p.2 f)) = (T.regressors.ops .B).map (fun f => S'.map (Spec.regValue T.cols f)) := by
        apply List.map_congr_left
        intro f hf
        apply List.map_congr_left
        intro t ht
        exact (val t ht).2.2.2.1 f hf
      have e5 : (T.regressors.ops .X).map (fun f => S'.map (valX T.cols p.2 f)) = (T.regressors.ops .X).map (fun f => S'.map (Spec.regValue T.cols f)) := by
        apply List.map_congr_left
        intro f hf
        apply List.map_congr_left
        intro t ht
        exact (val t ht).2.2.2.2 f hf
      rw [e1, e2, e3, e4, e5]
    · intro h0 hN hprod hK
      subst h0
      rcases sortBlock_index ha hN hprod hK f2 with ⟨hS, hix⟩ | ⟨S'', e1, hix⟩
      · rw [hS] at gsub
        have : S' = [] := List.eq_nil_iff_forall_not_mem.mpr (fun t ht => by simpa using gsub t ht)
        rw [hix, this, runBounds_nil]
      · rw [hix]
        congr 1
        rcases g2 with ⟨b1, b2, b3⟩ | ⟨b1, b2⟩
        · have hS : S' = [] := by
            rw [b2]
            rcases b3 with b3 | b3
            · exact hK b3
            · exact b3
          rw [b1] at e1
          injection e1 with e1
          rw [hS, ← e1]
        · rw [b2] at e1; injection e1 with e1; exact e1.symm

end
end ABX.Task
