import Verif.Proofs.TaskGenTotal2
import Verif.Properties.Sampler
/-! When `generate` succeeds with a threshold. -/
namespace ABX.Task
open ExtSort SideOps Sampler
variable {α β γ ρ : Type}

/-- the result satisfies `P`, or the error satisfies `Q` -/
def OkOr (Q : Err → Prop) (P : α → Prop) : Except Err α → Prop
  | .ok x => P x
  | .error er => Q er

theorem OkOr.imp {Q Q' : Err → Prop} {P P' : α → Prop} {r : Except Err α} (h : OkOr Q P r) (hQ : ∀ er, Q er → Q' er) (hP : ∀ x, P x → P' x) : OkOr Q' P' r := by
  cases r with
  | ok x => exact hP x h
  | error er => exact hQ er h

theorem OkOr.ok {Q : Err → Prop} {P : α → Prop} {x : α} (h : OkOr Q P (.ok x)) : P x := h

theorem knuthLoop_error (N n : Nat) (u : Nat → Nat) : ∀ (fuel t m : Nat) (er : Err), knuthLoop N n u fuel t m = .error er → er = .diverge := by
  intro fuel
  induction fuel with
  | zero =>
    intro t m er h
    unfold knuthLoop at h
    split at h
    · cases h; rfl
    · cases h
  | succ fuel ih =>
    intro t m er h
    unfold knuthLoop at h
    split at h
    · dsimp only at h
      split at h
      · split at h
        · rename_i e' he
          cases h
          exact ih _ _ _ he
        · cases h
      · exact ih _ _ _ h
    · cases h

theorem rejectionLoop_error (n : Nat) (d : Nat → Nat → List Nat) : ∀ (fuel i : Nat) (s : List Nat) (er : Err), rejectionLoop n d fuel i s = .error er → er = .diverge := by
  intro fuel
  induction fuel with
  | zero =>
    intro i s er h
    unfold rejectionLoop at h
    split at h
    · cases h; rfl
    · cases h
  | succ fuel ih =>
    intro i s er h
    unfold rejectionLoop at h
    split at h
    · exact ih _ _ _ h
    · cases h

theorem castNat_le {t : IntType} (hu : t.signed = false) (x : Nat) : castNat t x ≤ x := by
  unfold castNat IntType.cast IntType.lo
  simp only [hu, Bool.false_eq_true, if_false, Int.sub_zero, Int.add_zero]
  have h1 : ((x : Int) % 2 ^ t.bits) = ((x % 2 ^ t.bits : Nat) : Int) := by push_cast; rfl
  have h2 := Nat.mod_le x (2 ^ t.bits)
  rw [h1]
  exact_mod_cast h2

/-- the sampler, whatever the type of its result: a sample of the right size within the range, or the code does not end -/
theorem sampleT_okOr {t : IntType} (hu : t.signed = false) {n N : Nat} (hn : n < N) {src : Src} (hl : src.Lawful) :
    OkOr (· = .diverge) (fun s => s.length = n ∧ ∀ x ∈ s, x < N) (sampleT t n N src) := by
  unfold sampleT
  split
  · rename_i hc
    cases h : rejection n N (fun i k => (src.draw N i k).map (castNat t)) src.fuel with
    | ok s =>
      have := C40_rejection_sample n N _ (fun i k => ⟨by rw [List.length_map, hl.drawLen], by
        intro x hx
        obtain ⟨y, hy, rfl⟩ := List.mem_map.mp hx
        exact lt_of_le_of_lt (castNat_le hu y) (hl.drawLt N i k (by omega) y hy)⟩) src.fuel s h
      exact ⟨this.1, this.2.2⟩
    | error er =>
      unfold rejection at h
      split at h
      · cases h
      split at h
      · omega
      · exact rejectionLoop_error _ _ _ _ _ _ h
  · rename_i hc
    cases h : knuth n N src.u src.fuel with
    | ok s =>
      have := swr_ok n N src hl (by omega) s (by unfold sampleWithoutReplacement; rw [if_neg hc]; exact h)
      refine ⟨by rw [List.length_map]; exact this.1, ?_⟩
      intro x hx
      obtain ⟨y, hy, rfl⟩ := List.mem_map.mp hx
      exact lt_of_le_of_lt (castNat_le hu y) (this.2.2 y hy)
    | error er => exact knuthLoop_error _ _ _ _ _ _ _ h

theorem runCounts_sum {s : List Int} : ∀ (u : List Nat) (a : Nat), Bounds s u a → a ≤ s.length → a + (runCounts (a :: u)).sum = s.length
  | [], a, h, ha => by
    have := h.nil ha
    simp [runCounts]
    omega
  | b :: u, a, h, ha => by
    obtain ⟨h1, h2⟩ := h.le
    have := runCounts_sum u b h.tail h2
    rw [runCounts_cons, List.sum_cons]
    omega

theorem mem_npSlice {l : List α} {a b : Nat} {x : α} (h : x ∈ npSlice l a b) : x ∈ l := by
  unfold npSlice at h
  exact List.mem_of_mem_take (List.mem_of_mem_drop h)

theorem npSlice_length (l : List α) {a b : Nat} (h : b ≤ l.length) : (npSlice l a b).length = b - a := by
  unfold npSlice
  simp [Nat.min_eq_left h]

theorem thresholdLoop_okOr {Q : Err → Prop} (permut : List Nat) {t : IntType} (hu : t.signed = false) (threshold : Nat) {src : Nat → Src}
    (hs : ∀ j c, threshold < c → c ≤ permut.length → OkOr Q (fun s => s.length = threshold ∧ ∀ x ∈ s, x < c) (sampleT t threshold c (src j))) :
    ∀ (counts : List Nat) (i j : Nat), i + counts.sum ≤ permut.length →
    OkOr Q (fun ps => (∀ x ∈ ps.flatten, x ∈ permut) ∧ ps.flatten.length ≤ counts.sum) (thresholdLoop permut t threshold src counts i j)
  | [], i, j, h => by
    unfold thresholdLoop
    exact ⟨by simp, by simp⟩
  | c :: cs, i, j, h => by
    rw [List.sum_cons] at h
    have ih := thresholdLoop_okOr permut hu threshold hs cs (i + c) (j + 1) (by omega)
    unfold thresholdLoop
    dsimp only
    have part : OkOr Q (fun p => (∀ x ∈ p, x ∈ permut) ∧ p.length ≤ c) (if threshold ≠ 0 ∧ c > threshold then
        match sampleT t threshold c (src j) with
        | .error e => .error e
        | .ok s => gather permut (s.map (fun x => castNat t (x + i)))
      else .ok (npSlice permut i (i + c))) := by
      split
      · rename_i hc
        have h1 := hs j c hc.2 (by omega)
        cases hsm : sampleT t threshold c (src j) with
        | error er => rw [hsm] at h1; exact h1
        | ok s =>
          rw [hsm] at h1
          dsimp only
          have hr : ∀ y ∈ s.map (fun x => castNat t (x + i)), y < permut.length := by
            intro y hy
            obtain ⟨x, hx, rfl⟩ := List.mem_map.mp hy
            have := castNat_le hu (x + i)
            have := h1.2 x hx
            omega
          rw [gather_ok permut _ hr]
          refine ⟨fun x hx => ?_, ?_⟩
          · obtain ⟨y, -, hy⟩ := List.mem_filterMap.mp hx
            exact List.mem_of_getElem? hy
          · refine le_trans (List.length_filterMap_le _ _) ?_
            rw [List.length_map, h1.1]
            omega
      · exact ⟨fun x hx => mem_npSlice hx, by rw [npSlice_length _ (by omega)]; omega⟩
    revert part
    generalize (if threshold ≠ 0 ∧ c > threshold then
        match sampleT t threshold c (src j) with
        | .error e => Except.error e
        | .ok s => gather permut (s.map (fun x => castNat t (x + i)))
      else .ok (npSlice permut i (i + c))) = r
    intro part
    cases r with
    | error er => exact part
    | ok p =>
      dsimp only
      cases hl : thresholdLoop permut t threshold src cs (i + c) (j + 1) with
      | error er => rw [hl] at ih; exact ih
      | ok ps =>
        rw [hl] at ih
        refine ⟨fun x hx => ?_, ?_⟩
        · rw [List.flatten_cons, List.mem_append] at hx
          exact hx.elim (part.1 x) (ih.1 x)
        · rw [List.flatten_cons, List.length_append, List.sum_cons]
          have := part.2
          have := ih.2
          omega

theorem sortAndThreshold_okOr {Q : Err → Prop} {argsort : List Int → List Nat} (ha : ArgsortLaw argsort) (newIndex : List Int) {t : IntType} (hu : t.signed = false) (threshold : Nat) {src : Nat → Src}
    (hs : ∀ j c, threshold < c → c ≤ newIndex.length → OkOr Q (fun s => s.length = threshold ∧ ∀ x ∈ s, x < c) (sampleT t threshold c (src j))) :
    OkOr Q (fun r => (∀ x ∈ r.1, x < newIndex.length) ∧ r.1.length ≤ newIndex.length) (sortAndThreshold (argsort newIndex) newIndex t threshold src) := by
  have hperm := ha.perm newIndex
  have hlen : (argsort newIndex).length = newIndex.length := by rw [hperm.length_eq]; simp
  obtain ⟨s, hs1, hs2⟩ := gather_perm newIndex _ hperm
  obtain ⟨hs3, hs4⟩ := gather_inv 0 hs1
  obtain ⟨r, hr, hb⟩ := bounds_start s
  have hsl : s.length = (argsort newIndex).length := by rw [hs4]; simp
  unfold sortAndThreshold
  rw [hs1]
  dsimp only
  have hsum := runCounts_sum r 0 hb (by omega)
  have := thresholdLoop_okOr (argsort newIndex) hu threshold (src := src) (by rw [hlen]; exact hs) (runCounts (uniqueIdx s)) 0 0 (by rw [hr]; omega)
  cases hl : thresholdLoop (argsort newIndex) t threshold src (runCounts (uniqueIdx s)) 0 0 with
  | error er => rw [hl] at this; exact this
  | ok ps =>
    rw [hl] at this
    refine ⟨fun x hx => ?_, ?_⟩
    · have := hperm.mem_iff.mp (this.1 x hx)
      simpa using this
    · have := this.2
      rw [hr] at this
      dsimp only
      omega

theorem sortBlock_okOr {Q : Err → Prop} {N : Num} (ha : ArgsortLaw N.argsort) (threshold : Nat) {src : Nat → Src} (S : List Tri) (K : List (Tri → Nat))
    (hs : ∀ t, fitIntegerType ((⟨64, true⟩ : IntType).cast ((nRegs (K.map (fun k => S.map k))).prod : Nat)) false = .ok t → ∀ j c, threshold < c → c ≤ S.length →
      OkOr Q (fun s => s.length = threshold ∧ ∀ x ∈ s, x < c) (sampleT t threshold c (src j))) :
    OkOr Q (fun r => r.1.length ≤ S.length) (sortBlock N threshold src (S.map lab) (K.map (fun k => S.map k))) := by
  unfold sortBlock
  by_cases he : (rowsOf (K.map (fun k => S.map k))).isEmpty = true
  · rw [if_pos he]
    show (S.map lab).length ≤ S.length
    simp
  · rw [if_neg he]
    have hne := (not_congr (rowsOf_isEmpty K S)).mp he
    push Not at hne
    rw [rowsOf_map K S hne.1, List.map_map]
    split
    · rename_i er her
      exfalso
      clear hs
      obtain ⟨t, ht⟩ := fit_cast64 (nRegs (K.map (fun k => S.map k))).prod
      rw [her] at ht
      cases ht
    · rename_i t' ht'
      dsimp only
      have hs := hs t' ht'
      generalize N.index (nRegs (K.map (fun k => S.map k))) ∘ (fun t => K.map (fun k => k t)) = g
      have := sortAndThreshold_okOr ha (S.map g) (fit_signed ht') threshold (src := src) (by rw [List.length_map]; exact hs)
      cases hst : sortAndThreshold (N.argsort (S.map g)) (S.map g) t' threshold src with
      | error er => rw [hst] at this; exact this
      | ok r =>
        rw [hst] at this
        obtain ⟨p, ix⟩ := r
        dsimp only
        have h1 : ∀ x ∈ p, x < (S.map lab).length := by
          intro x hx
          have := this.1 x hx
          simpa using this
        rw [gather_ok _ _ h1]
        show (p.filterMap _).length ≤ S.length
        refine le_trans (List.length_filterMap_le _ _) ?_
        have := this.2
        simpa using this

/-- a block, with a threshold -/
theorem finishBlock_okOr {Q : Err → Prop} {N : Num} (ha : ArgsortLaw N.argsort) {threshold : Nat} {src : Nat → Src} {c : Cols} {mf : Mgr Bool} {m : Mgr Nat} {g : Bool} (hm : MgrOK g c m)
    (hav : ∀ p ∈ m, Avail c p.op) {fr : Frame} (hd : Distinct fr) {row : Row} {A B X : Frame} (hA : ∀ p ∈ A, p ∈ fr)
    (hB : ∀ p ∈ B, p ∈ fr) (hX : ∀ p ∈ X, p ∈ fr) {scalars : List Nat}
    (hs : ∀ t, fitIntegerType ((⟨64, true⟩ : IntType).cast ((nRegs ((sortFns c m row).map (fun k => (blkTri c mf row A B X).map k))).prod : Nat)) false = .ok t →
      ∀ j n, threshold < n → n ≤ (blkTri c mf row A B X).length → OkOr Q (fun s => s.length = threshold ∧ ∀ x ∈ s, x < n) (sampleT t threshold n (src j))) :
    (m.ops .ABX ≠ [] → OkOr (fun er => er = .valueError ∨ Q er) (fun _ => False) (finishBlock N threshold src m scalars fr row (blkOf c mf row A B X))) ∧
    (m.ops .ABX = [] → sortFns c m row ≠ [] → (m.ops .A = [] ∨ mf.ops .ABX ≠ []) →
      OkOr Q (fun o => o.trips.length ≤ (blkTri c mf row A B X).length) (finishBlock N threshold src m scalars fr row (blkOf c mf row A B X))) ∧
    OkOr (fun er => er = .valueError ∨ Q er) (fun _ => True) (finishBlock N threshold src m scalars fr row (blkOf c mf row A B X)) := by
  have i1 := itemRegsA_ok hm hav hd row hA
  have i2 := itemRegsB_ok hm hav hd row hB
  have i3 := itemRegsX_ok hm hav hd row hX
  have e1 : (blkOf c mf row A B X).A = A.map (·.1) := rfl
  have e2 : (blkOf c mf row A B X).B = B.map (·.1) := rfl
  have e3 : (blkOf c mf row A B X).X = X.map (·.1) := rfl
  have e4 : (blkOf c mf row A B X).trips = (blkTri c mf row A B X).map lab := rfl
  have hsb := sortBlock_okOr ha threshold (src := src) (blkTri c mf row A B X) (sortFns c m row) hs
  unfold finishBlock
  rw [e1, e2, e3, e4]
  simp only [i1, i2, i3, sortCols_ok]
  cases hsr : sortBlock N threshold src ((blkTri c mf row A B X).map lab) ((sortFns c m row).map (fun k => (blkTri c mf row A B X).map k)) with
  | error er =>
    rw [hsr] at hsb
    exact ⟨fun _ => .inr hsb, fun _ _ _ => hsb, .inr hsb⟩
  | ok r =>
    rw [hsr] at hsb
    obtain ⟨trips, p, ix⟩ := r
    dsimp only
    by_cases h : m.ops .ABX = []
    · rw [if_neg (by simp [h])]
      obtain ⟨S', s1, s2⟩ := sortBlock_sub hsr
      obtain ⟨rA, r1, r2, r3, r4⟩ := computeRegressors_ok c mf m row A B X scalars s2
      have hlen : trips.length = S'.length := by rw [s1, List.length_map]
      rw [hlen, r1]
      dsimp only
      refine ⟨fun h0 => absurd h h0, ?_, ?_⟩
      · intro _ hK hAf
        have hrA : rA = (m.ops .A).map (fun f => S'.map (valA c row f)) := r2 (hAf.imp id (fun h => .inl ⟨h, hK⟩))
        have hall : ∀ x ∈ scalars.map (fun v => S'.map (fun _ => v)) ++ rA ++ (m.ops .B).map (fun f => S'.map (valB c row f)) ++
              (m.ops .X).map (fun f => S'.map (valX c row f)), x.length = S'.length := by
          intro x hx
          rw [hrA] at hx
          simp only [List.mem_append, List.mem_map] at hx
          rcases hx with ((⟨v, -, rfl⟩ | ⟨f, -, rfl⟩) | ⟨f, -, rfl⟩) | ⟨f, -, rfl⟩ <;> simp
        split
        · exact hsb
        · rename_i d ds hdd
          rw [hdd] at hall
          rw [if_pos (by
            rw [List.all_eq_true]
            intro x hx
            rw [beq_iff_eq, hall x (by simp [hx]), hall d (by simp)])]
          exact hsb
      · split
        · trivial
        · split
          · trivial
          · exact .inl rfl
    · rw [if_pos (by simpa using h)]
      exact ⟨fun _ => .inl rfl, fun h0 => absurd h0 h, .inl rfl⟩

/-- a regressor of A and a threshold that drops triplets: the columns do not have the same length -/
theorem finishBlock_dropA {N : Num} {threshold : Nat} {src : Nat → Src} {c : Cols} {mf : Mgr Bool} {m : Mgr Nat} {g : Bool} (hm : MgrOK g c m)
    (hav : ∀ p ∈ m, Avail c p.op) {fr : Frame} (hd : Distinct fr) {row : Row} {A B X : Frame} (hA : ∀ p ∈ A, p ∈ fr)
    (hB : ∀ p ∈ B, p ∈ fr) (hX : ∀ p ∈ X, p ∈ fr) {scalars : List Nat} (hmf : mf.ops .ABX = []) (hmA : m.ops .A ≠ []) (hK : sortFns c m row ≠ []) {o : BlkOut}
    (h : finishBlock N threshold src m scalars fr row (blkOf c mf row A B X) = .ok o) : o.trips.length = (blkTri c mf row A B X).length := by
  have i1 := itemRegsA_ok hm hav hd row hA
  have i2 := itemRegsB_ok hm hav hd row hB
  have i3 := itemRegsX_ok hm hav hd row hX
  have e1 : (blkOf c mf row A B X).A = A.map (·.1) := rfl
  have e2 : (blkOf c mf row A B X).B = B.map (·.1) := rfl
  have e3 : (blkOf c mf row A B X).X = X.map (·.1) := rfl
  have e4 : (blkOf c mf row A B X).trips = (blkTri c mf row A B X).map lab := rfl
  unfold finishBlock at h
  rw [e1, e2, e3, e4] at h
  simp only [i1, i2, i3, sortCols_ok] at h
  split at h
  · cases h
  rename_i trips p ix hsr
  split at h
  · cases h
  obtain ⟨S', s1, s2⟩ := sortBlock_sub hsr
  obtain ⟨rA, r1, r2, r3, r4⟩ := computeRegressors_ok c mf m row A B X scalars s2
  have hlen : trips.length = S'.length := by rw [s1, List.length_map]
  rw [hlen, r1, r3 hmf] at h
  dsimp only at h
  obtain ⟨fA, hfA⟩ := List.exists_mem_of_ne_nil _ hmA
  have hbx : (∃ f, f ∈ m.ops .B) ∨ ∃ f, f ∈ m.ops .X := by
    by_contra hno
    push Not at hno
    apply hK
    unfold sortFns
    rw [List.eq_nil_iff_forall_not_mem.mpr hno.1, List.eq_nil_iff_forall_not_mem.mpr hno.2]
    rfl
  split at h
  · rename_i hnil
    have : (blkTri c mf row A B X).map (valA c row fA) ∈ ([] : List (List Nat)) := by
      rw [← hnil]
      simp only [List.mem_append, List.mem_map]
      exact .inl (.inl (.inr ⟨fA, hfA, rfl⟩))
    cases this
  · rename_i d ds hdd
    split at h
    · rename_i hall
      cases h
      dsimp only
      have hal : ∀ x ∈ d :: ds, x.length = d.length := by
        intro x hx
        rcases List.mem_cons.mp hx with rfl | hx
        · rfl
        · simpa using List.all_eq_true.mp hall x hx
      rw [← hdd] at hal
      have hA1 := hal ((blkTri c mf row A B X).map (valA c row fA)) (by
        simp only [List.mem_append, List.mem_map]
        exact .inl (.inl (.inr ⟨fA, hfA, rfl⟩)))
      rw [List.length_map] at hA1
      rcases hbx with ⟨f, hf⟩ | ⟨f, hf⟩
      · have := hal (S'.map (valB c row f)) (by
          simp only [List.mem_append, List.mem_map]
          exact .inl (.inr ⟨f, hf, rfl⟩))
        rw [List.length_map] at this
        omega
      · have := hal (S'.map (valX c row f)) (by
          simp only [List.mem_append, List.mem_map]
          exact .inr ⟨f, hf, rfl⟩)
        rw [List.length_map] at this
        omega
    · cases h

section
variable {e : Env} {T : Task ρ} {L : Level ρ} {fs : List (DBFun Bool)} {fr0 : Frame} (H : LevelHyp e T L fs fr0)
include H

/-- every sampling of a block succeeds or fails with an error of `Q` -/
def SampleOr (Q : Err → Prop) (threshold : Nat) (src : List Val → List Val → Nat → Src) (T : Task ρ) (L : Level ρ) (fs : List (DBFun Bool)) (fr0 : Frame) : Prop :=
  ∀ key S, BlockTri T.cols T.on T.across fs fr0 key S → ∀ p ∈ aItems T.on T.across L.frame key,
    ∀ t, fitIntegerType ((⟨64, true⟩ : IntType).cast ((nRegs ((sortFns T.cols T.regressors p.2).map (fun k => S.map k))).prod : Nat)) false = .ok t →
      ∀ j n, threshold < n → n ≤ S.length → OkOr Q (fun s => s.length = threshold ∧ ∀ x ∈ s, x < n) (sampleT t threshold n (src L.key key j))

omit H in
theorem sampleOr_diverge {threshold : Nat} {src : List Val → List Val → Nat → Src} (hl : ∀ k k' j, (src k k' j).Lawful) : SampleOr (· = .diverge) threshold src T L fs fr0 := by
  intro key S _ p _ t ht j n hn _
  exact sampleT_okOr (fit_signed ht) hn (hl _ _ _)

theorem blockOut_okOr {Q : Err → Prop} {rs : List (DBFun Nat)} (R : RegHyp T rs) (hpos : Positional L.frame) {N : Num} (ha : ArgsortLaw N.argsort) {threshold : Nat}
    {src : List Val → List Val → Nat → Src} (hs : SampleOr Q threshold src T L fs fr0) {byR : List Nat} {key : List Val} (hk : ∃ p ∈ L.frame, keyOf (T.on :: T.across) p.2 = key) :
    (T.regressors.ops .ABX ≠ [] → OkOr (fun er => er = .valueError ∨ Q er) (fun o => o = none ∧ blockTriplets e T L key = .ok none) (blockOut e N threshold src T L byR key)) ∧
    (T.regressors.ops .ABX = [] → (∀ row, sortFns T.cols T.regressors row ≠ []) → (T.regressors.ops .A = [] ∨ T.filters.ops .ABX ≠ []) →
      OkOr Q (fun o => ∃ S, BlockTri T.cols T.on T.across fs fr0 key S ∧ (tripsOf o).length ≤ S.length) (blockOut e N threshold src T L byR key)) ∧
    OkOr (fun er => er = .valueError ∨ Q er) (fun _ => True) (blockOut e N threshold src T L byR key) ∧
    (T.filters.ops .ABX = [] → T.regressors.ops .A ≠ [] → (∀ row, sortFns T.cols T.regressors row ≠ []) → ∀ o, blockOut e N threshold src T L byR key = .ok o →
      ∃ S, BlockTri T.cols T.on T.across fs fr0 key S ∧ (tripsOf o).length = S.length) := by
  obtain ⟨ob, hbt, p, hp, IB, IX, hB, hX, hob⟩ := blockTriplets_ok H hpos hk
  have htri := block_tri H hp hB hX
  unfold blockOut
  rw [hbt]
  cases hpb : pBlock T.cols T.filters p.2
  · rw [hpb] at hob htri
    simp only [Bool.false_eq_true, if_false] at hob htri
    subst hob
    refine ⟨fun _ => ⟨rfl, rfl⟩, fun _ _ _ => ⟨[], htri, by simp [tripsOf]⟩, trivial, fun _ _ _ o ho => ?_⟩
    cases ho
    exact ⟨[], htri, rfl⟩
  · rw [hpb] at hob htri
    simp only [if_true] at hob htri
    subst hob
    dsimp only
    rw [onAcrossByRegs_ok R.mgrOK R.availM]
    dsimp only
    have sub : ∀ (P Q : Nat × Row → Bool) q, q ∈ (L.frame.filter P).filter Q → q ∈ L.frame := fun P Q q hq =>
      (List.mem_filter.mp (List.mem_filter.mp hq).1).1
    have sB : ∀ q ∈ IB.filter (pB T.cols T.filters p.2), q ∈ L.frame := fun q hq => (List.mem_filter.mp (hB.mem_iff.mp (List.mem_filter.mp hq).1)).1
    have sX : ∀ q ∈ IX.filter (pX T.cols T.filters p.2), q ∈ L.frame := fun q hq => (List.mem_filter.mp (hX.mem_iff.mp (List.mem_filter.mp hq).1)).1
    obtain ⟨f1, f2, f3⟩ := finishBlock_okOr (Q := Q) (mf := T.filters) (row := p.2) (A := (aItems T.on T.across L.frame key).filter (pA T.cols T.filters p.2)) (src := src L.key key) (threshold := threshold)
      (scalars := byR ++ (T.regressors.ops .onAcrossBy).map (fun f => f.fn (stageEnv T.cols p.2 p.2 p.2 p.2)))
      ha R.mgrOK R.availM H.distinctL (sub _ _) sB sX (fun t ht j n => hs key _ htri p hp t ht j n)
    have f4 := fun (o : BlkOut) (h1 : T.filters.ops .ABX = []) (h2 : T.regressors.ops .A ≠ []) (h3 : sortFns T.cols T.regressors p.2 ≠ []) =>
      finishBlock_dropA (N := N) (threshold := threshold) (mf := T.filters) (row := p.2) (A := (aItems T.on T.across L.frame key).filter (pA T.cols T.filters p.2)) (src := src L.key key)
      (scalars := byR ++ (T.regressors.ops .onAcrossBy).map (fun f => f.fn (stageEnv T.cols p.2 p.2 p.2 p.2))) R.mgrOK R.availM H.distinctL (sub _ _) sB sX h1 h2 h3 (o := o)
    revert f1 f2 f3 f4
    generalize finishBlock N threshold (src L.key key) T.regressors (byR ++ (T.regressors.ops .onAcrossBy).map (fun f => f.fn (stageEnv T.cols p.2 p.2 p.2 p.2))) L.frame p.2
      (blkOf T.cols T.filters p.2 ((aItems T.on T.across L.frame key).filter (pA T.cols T.filters p.2)) (IB.filter (pB T.cols T.filters p.2)) (IX.filter (pX T.cols T.filters p.2))) = r
    intro f1 f2 f3 f4
    cases r with
    | error er => exact ⟨fun h => f1 h, fun h1 h2 h3 => f2 h1 (h2 p.2) h3, f3, fun _ _ _ o ho => by cases ho⟩
    | ok o =>
      refine ⟨fun h => (f1 h).elim, fun h1 h2 h3 => ⟨_, htri, f2 h1 (h2 p.2) h3⟩, trivial, fun h1 h2 h3 o' ho => ?_⟩
      cases ho
      exact ⟨_, htri, f4 o h1 h2 (h3 p.2) rfl⟩

end

theorem flatMap_trips (os : List (Option BlkOut)) : ((os.filterMap id).flatMap BlkOut.trips).length = (os.map (fun o => (tripsOf o).length)).sum := by
  induction os with
  | nil => rfl
  | cons o os ih =>
    cases o with
    | none => rw [List.filterMap_cons_none rfl, ih, List.map_cons, List.sum_cons]; simp [tripsOf]
    | some o => rw [List.filterMap_cons_some (f := id) (a := some o) (b := o) rfl, List.flatMap_cons, List.length_append, ih, List.map_cons, List.sum_cons]; rfl

theorem sequence_okOr {Q : Err → Prop} {P : β → γ → Prop} {f : β → Except Err γ} : ∀ {l : List β}, (∀ x ∈ l, OkOr Q (P x) (f x)) → OkOr Q (fun ys => List.Forall₂ P l ys) (sequence (l.map f))
  | [], _ => List.Forall₂.nil
  | x :: l, h => by
    have h1 := h x (by simp)
    have ih := sequence_okOr (Q := Q) (P := P) (f := f) (l := l) (fun y hy => h y (by simp [hy]))
    rw [List.map_cons]
    cases hx : f x with
    | error er => rw [hx] at h1; simp only [sequence]; exact h1
    | ok y =>
      rw [hx] at h1
      cases hl : sequence (l.map f) with
      | error er => rw [hl] at ih; simp only [sequence, hl]; exact ih
      | ok ys => rw [hl] at ih; simp only [sequence, hl]; exact .cons h1 ih

section
variable {e : Env} {T : Task ρ} {L : Level ρ} {fs : List (DBFun Bool)} {fr0 : Frame} (H : LevelHyp e T L fs fr0)
include H

theorem levelOut_okOr {Q : Err → Prop} {rs : List (DBFun Nat)} (R : RegHyp T rs) (hpos : Positional L.frame) (hne : L.frame ≠ []) {N : Num} (ha : ArgsortLaw N.argsort) {threshold : Nat}
    {src : List Val → List Val → Nat → Src} (hs : SampleOr Q threshold src T L fs fr0) :
    (T.regressors.ops .ABX ≠ [] → OkOr (fun er => er = .valueError ∨ Q er) (fun os => os = [] ∧ ∀ k ∈ groupKeys e "gen" (T.on :: T.across) L.frame, blockTriplets e T L k = .ok none)
      (levelOut e N threshold src T L)) ∧
    (T.regressors.ops .ABX = [] → (∀ row, sortFns T.cols T.regressors row ≠ []) → (T.regressors.ops .A = [] ∨ T.filters.ops .ABX ≠ []) →
      OkOr Q (fun os => (os.flatMap BlkOut.trips).length ≤ (Spec.itemTriplets T.cols T.on (userAcross T.across) fs fr0).length) (levelOut e N threshold src T L)) ∧
    OkOr (fun er => er = .valueError ∨ Q er) (fun _ => True) (levelOut e N threshold src T L) ∧
    (T.filters.ops .ABX = [] → T.regressors.ops .A ≠ [] → (∀ row, sortFns T.cols T.regressors row ≠ []) → ∀ os, levelOut e N threshold src T L = .ok os →
      (os.flatMap BlkOut.trips).length = (Spec.itemTriplets T.cols T.on (userAcross T.across) fs fr0).length) := by
  obtain ⟨row0, hrow⟩ := iloc_zero hne
  unfold levelOut
  rw [hrow]
  dsimp only
  rw [byRegs_ok R.mgrOK]
  dsimp only
  have hb := fun k (hk : k ∈ groupKeys e "gen" (T.on :: T.across) L.frame) =>
    blockOut_okOr (byR := (T.regressors.ops .by).map (fun f => f.fn (fun v => row0 v.1))) H R hpos ha hs ((mem_groupKeys H.lawful).mp hk)
  have tot : ∀ {keys : List (List Val)} {Ss : List (List Tri)}, keys = groupKeys e "gen" (T.on :: T.across) L.frame →
      List.Forall₂ (fun key S => BlockTri T.cols T.on T.across fs fr0 key S) keys Ss →
      (Ss.map List.length).sum = (Spec.itemTriplets T.cols T.on (userAcross T.across) fs fr0).length := by
    rintro keys Ss rfl h
    rw [← (tri_perm H.distinct.nodup (nodup_groupKeys H.lawful) (fun _ _ _ hg => good_key H "gen" hg) h).length_eq, List.length_flatten]
  refine ⟨?_, ?_, ?_, ?_⟩
  · intro h
    have := sequence_okOr (fun k hk => (hb k hk).1 h)
    cases hsq : sequence ((groupKeys e "gen" (T.on :: T.across) L.frame).map (blockOut e N threshold src T L ((T.regressors.ops .by).map (fun f => f.fn (fun v => row0 v.1))))) with
    | error er => rw [hsq] at this; exact this
    | ok ys =>
      rw [hsq] at this
      refine ⟨?_, fun k hk => ?_⟩
      · rw [List.filterMap_eq_nil_iff]
        intro y hy
        obtain ⟨k, hk, hky⟩ := forall₂_mem_right this y hy
        rw [hky.1]; rfl
      · obtain ⟨y, hy, hky⟩ := forall₂_mem_left this k hk
        exact hky.2
  · intro h hK hA
    have := sequence_okOr (fun k hk => (hb k hk).2.1 h hK hA)
    cases hsq : sequence ((groupKeys e "gen" (T.on :: T.across) L.frame).map (blockOut e N threshold src T L ((T.regressors.ops .by).map (fun f => f.fn (fun v => row0 v.1))))) with
    | error er => rw [hsq] at this; exact this
    | ok ys =>
      rw [hsq] at this
      have key : ∀ {keys : List (List Val)} {ys : List (Option BlkOut)}, List.Forall₂ (fun key o => ∃ S, BlockTri T.cols T.on T.across fs fr0 key S ∧ (tripsOf o).length ≤ S.length) keys ys →
          ∃ Ss : List (List Tri), List.Forall₂ (fun key S => BlockTri T.cols T.on T.across fs fr0 key S) keys Ss ∧ (ys.map (fun o => (tripsOf o).length)).sum ≤ (Ss.map List.length).sum := by
        intro keys ys h
        induction h with
        | nil => exact ⟨[], .nil, by simp⟩
        | cons h _ ih =>
          obtain ⟨Ss, i1, i2⟩ := ih
          obtain ⟨S, h1, h2⟩ := h
          refine ⟨S :: Ss, .cons h1 i1, ?_⟩
          simp only [List.map_cons, List.sum_cons]
          omega
      obtain ⟨Ss, k1, k2⟩ := key this
      show ((ys.filterMap id).flatMap BlkOut.trips).length ≤ _
      rw [flatMap_trips, ← tot rfl k1]
      exact k2
  · have := sequence_okOr (fun k hk => (hb k hk).2.2.1)
    cases hsq : sequence ((groupKeys e "gen" (T.on :: T.across) L.frame).map (blockOut e N threshold src T L ((T.regressors.ops .by).map (fun f => f.fn (fun v => row0 v.1))))) with
    | error er => rw [hsq] at this; exact this
    | ok ys => trivial
  · intro h1 h2 h3 os ho
    split at ho
    · cases ho
    rename_i ys hsq
    cases ho
    have hF := sequence_inv hsq
    have key : ∀ {keys : List (List Val)} {ys : List (Option BlkOut)}, (∀ k ∈ keys, k ∈ groupKeys e "gen" (T.on :: T.across) L.frame) →
        List.Forall₂ (fun k o => blockOut e N threshold src T L ((T.regressors.ops .by).map (fun f => f.fn (fun v => row0 v.1))) k = .ok o) keys ys →
        ∃ Ss : List (List Tri), List.Forall₂ (fun key S => BlockTri T.cols T.on T.across fs fr0 key S) keys Ss ∧ (ys.map (fun o => (tripsOf o).length)).sum = (Ss.map List.length).sum := by
      intro keys ys hk h
      induction h with
      | nil => exact ⟨[], .nil, by simp⟩
      | cons h _ ih =>
        obtain ⟨Ss, i1, i2⟩ := ih (fun k hk' => hk k (by simp [hk']))
        obtain ⟨S, s1, s2⟩ := (hb _ (hk _ (by simp))).2.2.2 h1 h2 h3 _ h
        refine ⟨S :: Ss, .cons s1 i1, ?_⟩
        simp only [List.map_cons, List.sum_cons]
        omega
    obtain ⟨Ss, k1, k2⟩ := key (fun _ hk => hk) hF
    rw [flatMap_trips, ← tot rfl k1]
    exact k2

end

end ABX.Task
