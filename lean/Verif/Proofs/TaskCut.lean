import Verif.Proofs.TaskReg
/-! What sampling gives whatever the type of the positions: the triplets of the groups that are sampled come from the first positions of
the sorted block, those that the type can number. -/
namespace ABX.Task
open ExtSort SideOps Sampler
variable {α β γ ρ : Type}

theorem Bounds.counts {s : List Int} (hsort : s.Pairwise (· ≤ ·)) {u : List Nat} {a b : Nat} (h : Bounds s (b :: u) a) :
    (∀ i, a ≤ i → i < b → s.getD i 0 = s.getD a 0) ∧
    (∀ v, (s.drop a).count v = (if s.getD a 0 = v then b - a else 0) + (s.drop b).count v) ∧ (s.drop b).count (s.getD a 0) = 0 := by
  obtain ⟨h1, h2⟩ := h.le
  have hrun : ∀ i, a ≤ i → i < b → s.getD i 0 = s.getD a 0 := by
    intro i hi1 hi2
    have := h.run (i - a) (by omega)
    rw [show a + (i - a) = i by omega] at this
    simp only [List.getD_eq_getElem?_getD, this]
  refine ⟨hrun, ?_, ?_⟩
  · intro v
    have hsp : s.drop a = npSlice s a b ++ s.drop b := by
      have := npSlice_append s (a := a) (b := b) (c := s.length) (by omega) h2
      simp only [npSlice, List.take_length] at this
      rw [← this]; rfl
    rw [hsp, List.count_append]
    obtain ⟨w, hw⟩ := h.slice
    have hwa : w = s.getD a 0 := by
      simp only [npSlice] at hw
      have h0 : (List.drop a (List.take b s))[0]? = some w := by rw [hw, List.getElem?_replicate, if_pos (by omega)]
      rw [List.getElem?_drop, List.getElem?_take] at h0
      simp only [Nat.add_zero] at h0
      rw [if_pos h1] at h0
      simp [List.getD_eq_getElem?_getD, h0]
    rw [hw, List.count_replicate, hwa]
    simp [beq_iff_eq]
  · rw [List.count_eq_zero]
    intro hm
    obtain ⟨i, hi, hiv⟩ := List.mem_iff_getElem.mp hm
    rw [List.length_drop] at hi
    rw [List.getElem_drop] at hiv
    have hb : b < s.length := by omega
    have h3 := sorted_lt hsort (i := b) (j := b + i) (by omega) (by omega)
    have h4 := sorted_lt hsort (i := b - 1) (j := b) (by omega) (by omega)
    have h5 := hrun (b - 1) (by omega) (by omega)
    have hne : s[b]? ≠ s[b - 1]? := by
      have := (mem_uniqueIdx.mp ((h.mem b).mp (by simp)).2).2
      rcases this with h | h | h
      · omega
      · omega
      · exact h
    have e1 : s.getD b 0 = s[b] := by simp [hb]
    have e2 : s.getD (b - 1) 0 = s[b - 1] := by
      have : b - 1 < s.length := by omega
      simp [this]
    have e3 : s.getD (b + i) 0 = s.getD a 0 := by
      have : b + i < s.length := by omega
      rw [← hiv]
      simp [this]
    rw [List.getElem?_eq_getElem hb, List.getElem?_eq_getElem (by omega : b - 1 < s.length)] at hne
    have hne' : s[b] ≠ s[b - 1] := fun h => hne (by rw [h])
    omega

theorem castNat_hi {t : IntType} (hu : t.signed = false) (x : Nat) : castNat t x < t.hi.toNat := by
  unfold castNat IntType.cast IntType.lo IntType.hi
  simp only [hu, Bool.false_eq_true, if_false, Int.sub_zero, Int.add_zero]
  have h1 : (x : Int) % 2 ^ t.bits < 2 ^ t.bits := Int.emod_lt_of_pos _ (by positivity)
  have h2 : 0 ≤ (x : Int) % 2 ^ t.bits := Int.emod_nonneg _ (by positivity)
  omega

/-- the loop, whatever the type -/
theorem thresholdLoop_cut (permut : List Nat) {t : IntType} (hu : t.signed = false) {threshold : Nat} (h0 : threshold ≠ 0) {src : Nat → Src}
    {s : List Int} (hs : s.length = permut.length) (hsort : s.Pairwise (· ≤ ·)) :
    ∀ (u : List Nat) (a j : Nat) (ps : List (List Nat)), Bounds s u a → a ≤ s.length →
    thresholdLoop permut t threshold src (runCounts (a :: u)) a j = .ok ps →
    (∀ x ∈ ps.flatten, (∃ i, i < t.hi.toNat ∧ permut[i]? = some x) ∨ ∃ i, a ≤ i ∧ permut[i]? = some x ∧ (s.drop a).count (s.getD i 0) ≤ threshold) ∧
    ∀ v, threshold < (s.drop a).count v → ∃ j sm, sampleT t threshold ((s.drop a).count v) (src j) = .ok sm
  | [], a, j, ps, h, ha, hr => by
    have he := h.nil ha
    simp [runCounts, thresholdLoop] at hr
    subst hr
    refine ⟨by simp, ?_⟩
    intro v hv
    rw [List.drop_eq_nil_of_le (by omega)] at hv
    simp at hv
  | b :: u, a, j, ps, h, ha, hr => by
    obtain ⟨h1, h2⟩ := h.le
    obtain ⟨c1, c2, c3⟩ := h.counts hsort
    rw [runCounts_cons] at hr
    unfold thresholdLoop at hr
    dsimp only at hr
    split at hr
    · cases hr
    rename_i p hp
    rw [show a + (b - a) = b by omega] at hr
    split at hr
    · cases hr
    rename_i ps' hps
    injection hr with hr
    subst hr
    obtain ⟨i1, i2⟩ := thresholdLoop_cut permut hu h0 hs hsort u b (j + 1) ps' h.tail h2 hps
    have hca : (s.drop a).count (s.getD a 0) = b - a := by rw [c2, if_pos rfl, c3]; rfl
    refine ⟨?_, ?_⟩
    · intro x hx
      rw [List.flatten_cons, List.mem_append] at hx
      rcases hx with hx | hx
      · split at hp
        · left
          split at hp
          · cases hp
          rename_i sm hsm
          obtain ⟨g1, g2⟩ := gather_inv 0 hp
          rw [g2] at hx
          obtain ⟨i, hi, rfl⟩ := List.mem_map.mp hx
          have hlt := g1 i hi
          have hget : permut[i]? = some (permut.getD i 0) := by
            rw [List.getD_eq_getElem?_getD, List.getElem?_eq_getElem hlt]; rfl
          obtain ⟨y, hy, rfl⟩ := List.mem_map.mp hi
          exact ⟨_, castNat_hi hu _, hget⟩
        · rename_i hc
          right
          injection hp with hp
          rw [← hp] at hx
          unfold npSlice at hx
          obtain ⟨k, hk, rfl⟩ := List.mem_iff_getElem.mp hx
          have hk' := hk
          rw [List.length_drop, List.length_take] at hk'
          refine ⟨a + k, by omega, ?_, ?_⟩
          · rw [List.getElem_drop, List.getElem_take, List.getElem?_eq_getElem (by omega)]
          · rw [c1 (a + k) (by omega) (by omega), hca]
            have : ¬ b - a > threshold := fun hgt => hc ⟨h0, hgt⟩
            omega
      · rcases i1 x hx with hx | ⟨i, k1, k2, k3⟩
        · exact .inl hx
        · refine .inr ⟨i, by omega, k2, ?_⟩
          obtain ⟨hlt, _⟩ := List.getElem?_eq_some_iff.mp k2
          have hne : s.getD a 0 ≠ s.getD i 0 := by
            intro heq
            rw [heq, List.count_eq_zero] at c3
            apply c3
            rw [List.mem_iff_getElem]
            refine ⟨i - b, by rw [List.length_drop]; omega, ?_⟩
            rw [List.getElem_drop]
            have : i < s.length := by omega
            simp only [List.getD_eq_getElem?_getD, show b + (i - b) = i by omega, List.getElem?_eq_getElem this, Option.getD_some]
          rw [c2, if_neg hne]
          omega
    · intro v hv
      by_cases hva : s.getD a 0 = v
      · subst hva
        rw [hca] at hv ⊢
        rw [if_pos ⟨h0, hv⟩] at hp
        split at hp
        · cases hp
        rename_i sm hsm
        exact ⟨j, sm, hsm⟩
      · rw [c2, if_neg hva, Nat.zero_add] at hv ⊢
        exact i2 v hv

/-- `sort_and_threshold`, whatever the type -/
theorem sortAndThreshold_cut {argsort : List Int → List Nat} (ha : ArgsortLaw argsort) {newIndex : List Int} {t : IntType} (hu : t.signed = false)
    {threshold : Nat} (h0 : threshold ≠ 0) {src : Nat → Src} {p u : List Nat}
    (h : sortAndThreshold (argsort newIndex) newIndex t threshold src = .ok (p, u)) :
    (∀ x ∈ p, (∃ i, i < t.hi.toNat ∧ (argsort newIndex)[i]? = some x) ∨ newIndex.count (newIndex.getD x 0) ≤ threshold) ∧
    ∀ v, threshold < newIndex.count v → ∃ j sm, sampleT t threshold (newIndex.count v) (src j) = .ok sm := by
  have hperm := ha.perm newIndex
  have hlen : (argsort newIndex).length = newIndex.length := by rw [hperm.length_eq]; simp
  obtain ⟨s, hs1, hs2⟩ := gather_perm newIndex _ hperm
  have hsort := ha.sorted _ _ hs1
  obtain ⟨hs3, hs4⟩ := gather_inv 0 hs1
  unfold sortAndThreshold at h
  rw [hs1] at h
  dsimp only at h
  split at h
  · cases h
  rename_i ps hps
  injection h with h
  rw [Prod.mk.injEq] at h
  obtain ⟨hp, hu'⟩ := h
  obtain ⟨r, hr, hb⟩ := bounds_start s
  have hsl : s.length = (argsort newIndex).length := by rw [hs4]; simp
  obtain ⟨e1, e2⟩ := thresholdLoop_cut (argsort newIndex) hu h0 hsl hsort r 0 0 ps hb (by omega) (by rw [← hr]; exact hps)
  rw [List.drop_zero] at e1 e2
  refine ⟨?_, fun v hv => ?_⟩
  · rw [← hp]
    intro x hx
    rcases e1 x hx with h | ⟨i, _, h1, h2⟩
    · exact .inl h
    · right
      obtain ⟨hlt, hx'⟩ := List.getElem?_eq_some_iff.mp h1
      have : s.getD i 0 = newIndex.getD x 0 := by
        rw [hs4, getD_map' (argsort newIndex) (fun j => newIndex.getD j 0) 0 0 hlt]
        simp only [List.getD_eq_getElem?_getD, h1, Option.getD_some]
      rw [← this, ← hs2.count_eq]
      exact h2
  · rw [← hs2.count_eq] at hv ⊢
    exact e2 v hv

theorem gather_length {l : List ρ} {ix : List Nat} {r : List ρ} (h : gather l ix = .ok r) : r.length = ix.length := by
  induction ix generalizing r with
  | nil => simp [gather] at h; subst h; rfl
  | cons i is ih =>
    unfold gather at h
    split at h
    · cases h
    split at h
    · cases h
    rename_i h1
    cases h
    simp [ih h1]

theorem rejectionLoop_ne {n : Nat} (hn : 0 < n) (draw : Nat → Nat → List Nat) : ∀ (fuel i : Nat) (s r : List Nat), rejectionLoop n draw fuel i s = .ok r → r ≠ [] := by
  intro fuel
  induction fuel with
  | zero =>
    intro i s r h
    unfold rejectionLoop at h
    by_cases c : n - s.length > 0
    · rw [if_pos c] at h; cases h
    · rw [if_neg c] at h; cases h; rintro rfl; simp at c; omega
  | succ k ih =>
    intro i s r h
    unfold rejectionLoop at h
    by_cases c : n - s.length > 0
    · rw [if_pos c] at h; exact ih _ _ _ h
    · rw [if_neg c] at h; cases h; rintro rfl; simp at c; omega

theorem knuthLoop_ne {N n : Nat} (u : Nat → Nat) : ∀ (fuel t m : Nat) (s : List Nat), m < n → knuthLoop N n u fuel t m = .ok s → s ≠ [] := by
  intro fuel
  induction fuel with
  | zero => intro t m s hm h; unfold knuthLoop at h; rw [if_pos hm] at h; cases h
  | succ k ih =>
    intro t m s hm h
    unfold knuthLoop at h
    rw [if_pos hm] at h
    dsimp only at h
    split at h
    · split at h
      · cases h
      · cases h; simp
    · exact ih _ _ _ hm h

theorem sampleT_ne {t : IntType} {n N : Nat} {src : Src} (hn : 0 < n) {s : List Nat} (h : sampleT t n N src = .ok s) : s ≠ [] := by
  unfold sampleT at h
  split at h
  · unfold rejection at h
    split at h
    · omega
    split at h
    · cases h
    · exact rejectionLoop_ne hn _ _ _ _ _ h
  · unfold knuth at h
    cases hk : knuthLoop N n src.u src.fuel 0 0 with
    | error er => rw [hk] at h; cases h
    | ok r =>
      rw [hk] at h
      cases h
      have := knuthLoop_ne _ _ _ _ _ hn hk
      simpa using this

theorem sortAndThreshold_ne {permut : List Nat} {newIndex : List Int} {t : IntType} {threshold : Nat} {src : Nat → Src} {p u : List Nat} (hp : permut ≠ [])
    (h : sortAndThreshold permut newIndex t threshold src = .ok (p, u)) : p ≠ [] := by
  unfold sortAndThreshold at h
  split at h
  · cases h
  rename_i s hs
  have hlen := gather_length hs
  dsimp only at h
  split at h
  · cases h
  rename_i ps hps
  simp only [Except.ok.injEq, Prod.mk.injEq] at h
  obtain ⟨rfl, rfl⟩ := h
  obtain ⟨r, hr, hb⟩ := bounds_start s
  rw [hr] at hps
  have hpos : 0 < s.length := by
    rw [hlen]; exact List.length_pos_iff.mpr hp
  have hne : s.length ∈ r := by
    rw [hb.mem]
    refine ⟨hpos, ?_⟩
    unfold uniqueIdx
    rw [List.mem_filter]
    simp
  cases r with
  | nil => cases hne
  | cons x r =>
    have hx : 0 < x := ((hb.mem x).mp (by simp)).1
    unfold runCounts at hps
    rw [List.tail_cons, List.zip_cons_cons, List.map_cons] at hps
    unfold thresholdLoop at hps
    dsimp only at hps
    split at hps
    · cases hps
    rename_i q hq
    have hqne : q ≠ [] := by
      split at hq
      · rename_i hc
        split at hq
        · cases hq
        · rename_i smp hsmp
          have hne := sampleT_ne (Nat.pos_of_ne_zero hc.1) hsmp
          have := gather_length hq
          rintro rfl
          simp only [List.length_nil, List.length_map] at this
          exact hne (List.length_eq_zero_iff.mp this.symm)
      · cases hq
        rw [Nat.zero_add]
        unfold npSlice
        cases hpm : permut with
        | nil => exact absurd hpm hp
        | cons a l =>
          obtain ⟨k, hk⟩ : ∃ k, x - 0 = k + 1 := ⟨x - 1, by omega⟩
          simp [hk]
    split at hps
    · cases hps
    · cases hps
      simp [hqne]

/-- what sampling does to the triplets of a block whatever the type of the positions: the triplets of the groups that have more than
`threshold` triplets are taken in the first positions of the sorted block, and the samplings of these groups end; something is taken of each block -/
structure Cut (ty : IntType) (threshold : Nat) (K : List (Tri → Nat)) (S S' : List Tri) : Prop where
  order : ∃ O : List Tri, O.Perm S ∧ Contig (O.map (keyRow K)) ∧
    ∀ t ∈ S', threshold < (S.filter (fun u => keyRow K u == keyRow K t)).length → t ∈ O.take ty.hi.toNat
  ends : ∀ t ∈ S, threshold < (S.filter (fun u => keyRow K u == keyRow K t)).length →
    ∃ src sm, sampleT ty threshold (S.filter (fun u => keyRow K u == keyRow K t)).length src = .ok sm
  keeps : S ≠ [] → S' ≠ []

theorem sortBlock_cut {N : Num} (ha : ArgsortLaw N.argsort) (hN : N.Exact) {threshold : Nat} (h0 : threshold ≠ 0) {src : Nat → Src}
    {S : List Tri} {K : List (Tri → Nat)} (hK : K ≠ []) (hprod : (nRegs (K.map (fun k => S.map k))).prod ≤ 2 ^ 53)
    {ty : IntType} (hty : fitIntegerType ((nRegs (K.map (fun k => S.map k))).prod : Nat) false = .ok ty)
    {trips : List (Nat × Nat × Nat)} {p ix : List Nat}
    (h : sortBlock N threshold src (S.map lab) (K.map (fun k => S.map k)) = .ok (trips, p, ix)) :
    ∃ S' : List Tri, Cut ty threshold K S S' ∧ trips = S'.map lab ∧ ((S = [] ∧ p = [] ∧ S' = []) ∨ gather S p = .ok S') := by
  have inj := fun {t u} => index_inj hN K hprod (t := t) (u := u)
  rcases sortBlock_cases h with ⟨h1, h2, h3⟩ | ⟨h1, h2, t, ht, hf, hst, hg⟩
  · have hS : S = [] := by rcases h1 with h1 | h1; exact absurd h1 hK; exact h1
    subst hS
    exact ⟨[], ⟨⟨[], .refl _, by intro i j k x y _ _ h; simp at h, by simp⟩, by simp, fun h => h⟩, h2, Or.inl ⟨rfl, h3, rfl⟩⟩
  have hcast : (⟨64, true⟩ : IntType).cast ((nRegs (K.map (fun k => S.map k))).prod : Nat) = ((nRegs (K.map (fun k => S.map k))).prod : Nat) := by
    generalize (nRegs (K.map (fun k => S.map k))).prod = n at hprod
    simp only [IntType.cast, IntType.lo, if_true]
    norm_num
    omega
  rw [hcast, hty] at hf
  injection hf with hf
  subst hf
  clear hcast hprod
  obtain ⟨S', e1, e2⟩ := gather_map_lab hg
  obtain ⟨q1, q2⟩ := sortAndThreshold_cut ha ht h0 hst
  have cnt : ∀ u ∈ S, (S.map (fun t => N.index (nRegs (K.map (fun k => S.map k))) (keyRow K t))).count (N.index (nRegs (K.map (fun k => S.map k))) (keyRow K u)) =
      (S.filter (fun w => keyRow K w == keyRow K u)).length := by
    intro u hu
    rw [List.count_eq_countP, List.countP_map, List.countP_eq_length_filter]
    refine congrArg List.length ?_
    apply List.filter_congr
    intro w hw
    rw [Bool.eq_iff_iff]
    simp only [Function.comp, beq_iff_eq]
    exact ⟨inj hw hu, fun h => by rw [h]⟩
  generalize hni : S.map (fun t => N.index (nRegs (K.map (fun k => S.map k))) (keyRow K t)) = newIndex at *
  have hperm := ha.perm newIndex
  have hnl : newIndex.length = S.length := by rw [← hni, List.length_map]
  obtain ⟨t0, hS0⟩ := List.exists_mem_of_ne_nil S h2
  obtain ⟨r1, r2⟩ := gather_inv t0 e1
  obtain ⟨O, o1, o2⟩ := gather_perm S (N.argsort newIndex) (by rw [← hnl]; exact hperm)
  obtain ⟨o3, o4⟩ := gather_inv t0 o1
  refine ⟨S', ⟨⟨O, o2, ?_, ?_⟩, ?_, fun _ h0 => ?_⟩, e2, .inr e1⟩
  · refine contig_of_sorted (ix := fun t => N.index (nRegs (K.map (fun k => S.map k))) (keyRow K t)) ?_
      (fun t ht u hu => inj (o2.mem_iff.mp ht) (o2.mem_iff.mp hu)) (fun t u h => by rw [h])
    obtain ⟨s, hs1, -⟩ := gather_perm newIndex _ hperm
    have hsort := ha.sorted _ _ hs1
    rw [← hni] at hs1
    obtain ⟨O', g1, g2⟩ := gather_map_lab hs1
    rw [hni, o1] at g1
    injection g1 with g1
    rw [g1, ← g2]
    exact hsort
  · intro u hu hbig
    rw [r2] at hu
    obtain ⟨x, hx, rfl⟩ := List.mem_map.mp hu
    have hxl := r1 x hx
    have hmem : S.getD x t0 ∈ S := by
      simp only [List.getD_eq_getElem?_getD, List.getElem?_eq_getElem hxl, Option.getD_some]
      exact List.getElem_mem hxl
    rcases q1 x hx with ⟨i, hi, hix⟩ | hle
    · obtain ⟨hil, rfl⟩ := List.getElem?_eq_some_iff.mp hix
      rw [List.mem_iff_getElem?]
      refine ⟨i, ?_⟩
      rw [List.getElem?_take, if_pos hi, o4, List.getElem?_map, hix]
      rfl
    · rw [show newIndex.getD x 0 = N.index (nRegs (K.map (fun k => S.map k))) (keyRow K (S.getD x t0)) by rw [← hni]; exact getD_map' _ _ _ _ hxl, cnt _ hmem] at hle
      omega
  · intro u hu hbig
    rw [← cnt u hu] at hbig ⊢
    obtain ⟨j, sm, hj⟩ := q2 _ hbig
    exact ⟨src j, sm, hj⟩
  · refine sortAndThreshold_ne ?_ hst (List.length_eq_zero_iff.mp ?_)
    · intro h1
      have := hperm.length_eq
      rw [h1, List.length_range, hnl] at this
      exact h2 (List.length_eq_zero_iff.mp this.symm)
    · have := gather_length e1
      rw [h0] at this
      exact this.symm

end ABX.Task
