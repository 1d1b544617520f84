import Verif.Spec.ChanceTask
import Verif.Proofs.Chance
import Verif.Proofs.ThresholdRun
/-!
Lemmas for C107.
-/
namespace ABX.Pipeline
open ABX.Task Pairs SideOps Sampler Distances Score EndToEnd Analyze F64 ABX.Spec
variable {ρ φ δ ι : Type}

theorem legal_positions {a : Args ρ} {key : List Val} {t : Tri} (ht : t ∈ tripsSpec a key) : t.1.1 ≠ t.2.1.1 ∧ t.2.2.1 ≠ t.1.1 ∧ t.2.2.1 ≠ t.2.1.1 := by
  have hd := items_distinct a key
  obtain ⟨A, B, X⟩ := t
  unfold tripsSpec Spec.itemTriplets at ht
  obtain ⟨h1, h2⟩ := List.mem_filter.mp ht
  unfold Spec.triples at h1
  simp only [List.mem_flatMap, List.mem_map, Prod.mk.injEq] at h1
  obtain ⟨A', hA, B', hB, X', hX, rfl, rfl, rfl⟩ := h1
  rw [Bool.and_eq_true] at h2
  have hl := h2.1
  unfold Spec.legal at hl
  simp only [Bool.and_eq_true, beq_iff_eq, bne_iff_ne] at hl
  obtain ⟨⟨⟨e1, e2⟩, -⟩, e4⟩ := hl
  have inj : ∀ p ∈ itemsOf a key, ∀ q ∈ itemsOf a key, p.1 = q.1 → p = q := fun p hp q hq h => List.inj_on_of_nodup_map hd hp hq h
  refine ⟨fun h => ?_, fun h => ?_, fun h => ?_⟩
  · have h := inj _ hA _ hB h
    subst h
    exact e2 rfl
  · have h' := inj _ hX _ hA h
    subst h'
    split at e4
    · simp at e4
    · rename_i hne
      obtain ⟨c, hc⟩ := List.exists_mem_of_ne_nil a.across (by simpa using hne)
      have := List.all_eq_true.mp e4 c hc
      simp at this
  · have h := inj _ hX _ hB h
    subst h
    exact e2 e1.symm

/-- the labels are determined by the indices -/
theorem isLabels_unique {rs : List (DBFun Nat)} {idx : DBFun Nat → List Val} {v : List Nat} (hv : v.length = rs.length) {l l' : List Val} (h : Spec.IsLabels (rs.map idx) v l) (h' : Spec.IsLabels (rs.map idx) v l') : l = l' := by
  apply List.ext_getElem?
  intro j
  by_cases hj : j < rs.length
  · have hj2 : j < v.length := by omega
    rw [h.2 j (idx rs[j]) v[j] (by simp [hj]) (by simp [hj2]), h'.2 j (idx rs[j]) v[j] (by simp [hj]) (by simp [hj2])]
  · rw [List.getElem?_eq_none (by rw [h.1, List.length_map]; omega), List.getElem?_eq_none (by rw [h'.1, List.length_map]; omega)]

theorem abx_nearerAt {lt : δ → δ → Bool} (ho : ∀ x y, lt x y = true → lt y x = false) {dist : ρ → ρ → Except Err δ} {recs : List ρ} {t : Tri} {q : ℚ} (h : Spec.IsAbx lt dist recs t q) [Decidable (nearerAt lt dist recs t.1.1 t.2.1.1 t.2.2.1)] [Decidable (nearerAt lt dist recs t.2.1.1 t.1.1 t.2.2.1)] :
    q = 1 / 2 + ((if nearerAt lt dist recs t.1.1 t.2.1.1 t.2.2.1 then 1 else 0) - (if nearerAt lt dist recs t.2.1.1 t.1.1 t.2.2.1 then 1 else 0)) / 2 := by
  obtain ⟨rA, rB, rX, d1, d2, e1, e2, e3, e4, e5, rfl⟩ := h
  have n1 : nearerAt lt dist recs t.1.1 t.2.1.1 t.2.2.1 ↔ lt d1 d2 = true := by
    constructor
    · rintro ⟨_, _, _, _, _, f1, f2, f3, f4, f5, f6⟩
      rw [e1] at f1; rw [e2] at f2; rw [e3] at f3
      cases f1; cases f2; cases f3
      rw [e4] at f4; rw [e5] at f5
      cases f4; cases f5
      exact f6
    · exact fun h => ⟨_, _, _, _, _, e1, e2, e3, e4, e5, h⟩
  have n2 : nearerAt lt dist recs t.2.1.1 t.1.1 t.2.2.1 ↔ lt d2 d1 = true := by
    constructor
    · rintro ⟨_, _, _, _, _, f1, f2, f3, f4, f5, f6⟩
      rw [e1] at f2; rw [e2] at f1; rw [e3] at f3
      cases f1; cases f2; cases f3
      rw [e4] at f5; rw [e5] at f4
      cases f4; cases f5
      exact f6
    · exact fun h => ⟨_, _, _, _, _, e2, e1, e3, e5, e4, h⟩
  rw [if_congr n1 rfl rfl, if_congr n2 rfl rfl]
  by_cases h1 : lt d1 d2 = true
  · have h2 : ¬ lt d2 d1 = true := by rw [ho _ _ h1]; exact Bool.false_ne_true
    rw [if_pos h1, if_pos h1, if_neg h2]
    norm_num
  · rw [if_neg h1, if_neg h1]
    by_cases h2 : lt d2 d1 = true
    · rw [if_pos h2, if_pos h2]; norm_num
    · rw [if_neg h2, if_neg h2]; norm_num

open Classical in
theorem _root_.ABX.Spec.NoInformation.triplet [Fintype ι] {w : ι → ℚ} {lt : δ → δ → Bool} {dist : ι → ρ → ρ → Except Err δ} {recs : List ρ} (U : NoInformation w lt dist recs) (ho : ∀ x y, lt x y = true → lt y x = false) {t : Tri}
    (h12 : t.1.1 ≠ t.2.1.1) (h31 : t.2.2.1 ≠ t.1.1) (h32 : t.2.2.1 ≠ t.2.1.1) {q : ι → ℚ} (hq : ∀ i, Spec.IsAbx lt (dist i) recs t (q i)) : ∑ i, w i * q i = 1 / 2 := by
  have e : ∀ i, w i * q i = w i * (1 / 2) + ((if nearerAt lt (dist i) recs t.1.1 t.2.1.1 t.2.2.1 then w i else 0) - (if nearerAt lt (dist i) recs t.2.1.1 t.1.1 t.2.2.1 then w i else 0)) * (1 / 2) := by
    intro i
    rw [abx_nearerAt ho (hq i)]
    split <;> split <;> ring
  rw [Finset.sum_congr rfl (fun i _ => e i), Finset.sum_add_distrib, ← Finset.sum_mul, ← Finset.sum_mul, Finset.sum_sub_distrib, U.total, U.even _ _ _ h12 h31 h32]
  ring

/-- the expected value of means that are 1/2 up to roundings -/
theorem expected_mean [Fintype ι] {w : ι → ℚ} (h0 : ∀ i, 0 ≤ w i) (h1 : ∑ i, w i = 1) {Q : List Tri} (hQ : Q ≠ []) {abx : ι → Tri → ℚ} (ha : ∀ t ∈ Q, ∑ i, w i * abx i t = 1 / 2) {s : ι → ℚ} {ε : ℚ}
    (hs : ∀ i, |s i - (Q.map (abx i)).sum / Q.length| ≤ ε) : |∑ i, w i * s i - 1 / 2| ≤ ε := by
  have hm : ∑ i, w i * ((Q.map (abx i)).sum / Q.length) = 1 / 2 := by
    have e : ∀ i, w i * ((Q.map (abx i)).sum / Q.length) = w i * (Q.map (abx i)).sum / Q.length := fun i => by rw [mul_div_assoc]
    rw [Finset.sum_congr rfl (fun i _ => e i), ← Finset.sum_div, sum_list_swap, List.map_congr_left ha, List.map_const', List.sum_replicate, nsmul_eq_mul, mul_comm, mul_div_assoc, div_self, mul_one]
    exact_mod_cast (List.length_pos_iff.mpr hQ).ne'
  rw [← hm, ← Finset.sum_sub_distrib]
  refine (Finset.abs_sum_le_sum_abs _ _).trans ?_
  have hb : ∀ i, |w i * s i - w i * ((Q.map (abx i)).sum / Q.length)| ≤ w i * ε := fun i => by
    rw [← mul_sub, abs_mul, abs_of_nonneg (h0 i)]
    exact mul_le_mul_of_nonneg_left (hs i) (h0 i)
  refine (Finset.sum_le_sum (fun i _ => hb i)).trans ?_
  rw [← Finset.sum_mul, h1, one_mul]

/-- the triplets written for a level are determined by their numbers -/
theorem written_unique {a : Args ρ} {key : List Val} {Q Q' : List Tri} (h : ∀ u ∈ Q, u ∈ tripsSpec a key) (h' : ∀ u ∈ Q', u ∈ tripsSpec a key) (e : Q.map lab = Q'.map lab) : Q = Q' := by
  induction Q generalizing Q' with
  | nil => cases Q' with
    | nil => rfl
    | cons => cases e
  | cons t Q ih => cases Q' with
    | nil => cases e
    | cons t' Q' =>
      rw [List.map_cons, List.map_cons, List.cons.injEq] at e
      rw [tripsSpec_lab (h t (List.mem_cons_self ..)) (h' t' (List.mem_cons_self ..)) e.1, ih (fun u hu => h u (List.mem_cons_of_mem _ hu)) (fun u hu => h' u (List.mem_cons_of_mem _ hu)) e.2]

/-- each combination of values of the triplets written for a level has a row -/
theorem row_exists {e : Env} (he : e.Lawful) {a : Args ρ} (ha : a.OK) (hf : Spec'.KeptFirst a) {T : Task.Task ρ} (h : init e a = .ok T)
    (hpos : ∀ (i : Nat) (p : Nat × Row), a.db[i]? = some p → p.1 = i) (hfeat : a.feat.length = a.db.length)
    (hA : ∀ f ∈ a.regressors, Spec.readsA a.cols f = false) {idx : DBFun Nat → List Val}
    (hidx : ∀ f ∈ allRegs e a, 0 < (idx f).length ∧ ∀ L ∈ T.levels, ∀ t ∈ tripsSpec a L.key, Spec.regValue a.cols f t < (idx f).length)
    (hc : ((allRegs e a).map (fun f => (idx f).length)).prod ≤ 2 ^ 53) (hz : Sizes a T) {threshold : Nat} {c : Choices} (hl : c.Lawful)
    {getFeat : ρ → Except Err φ} {distance : φ → φ → Except Err δ} {lt : δ → δ → Bool} (hlt : ∀ x y, lt x y = true → lt y x = false) {F : File} {S : List Int}
    (hr : RanT threshold c e T getFeat distance lt F S) (hS : Small e T F) {rows : List OutRow} (hrows : collapse c.sortRows ((colRegs T.regressors).map idx) F S = .ok rows)
    {L : Level ρ} (hL : L ∈ T.levels) {Q : List Tri} {os : List BlkOut} (hQ : ∀ u ∈ Q, u ∈ tripsSpec a L.key) (hos : levelOut e c.num threshold c.src T L = .ok os) (htr : os.flatMap BlkOut.trips = Q.map lab) {t : Tri} (ht : t ∈ Q) :
    ∃ o ∈ rows, o.by_ = L.key ∧ Spec.IsLabels ((colRegs T.regressors).map idx) ((colRegs T.regressors).map (fun f => Spec.regValue a.cols f t)) o.labels ∧
      o.n = (Q.filter (fun u => (colRegs T.regressors).map (fun f => Spec.regValue a.cols f u) == (colRegs T.regressors).map (fun f => Spec.regValue a.cols f t))).length := by
  obtain ⟨outs, h1, h2, h3, h4⟩ := level_scores he ha hf h hpos hfeat (.inl hA) hidx hc hz hl hlt hr hS
  rw [h1] at hrows
  cases hrows
  obtain ⟨total, t0, tb, bouts, K⟩ := generate_ok hl.bl1 hl.bl2 hr.file
  have hkey : L.key ∈ F.bys := by
    rw [K.bys]
    obtain ⟨q, hq, hqk, ho⟩ := forall₂_mem_left K.outs_ok L hL
    refine List.mem_map.mpr ⟨q, List.mem_filter.mpr ⟨hq, ?_⟩, hqk⟩
    rw [hos] at ho
    unfold levelTrips
    rw [← Except.ok.inj ho, htr]
    cases Q with
    | nil => cases ht
    | cons => rfl
  obtain ⟨out, hout, Q', abx, d1, -, -, -, d5, -, -, -, -, -, -, -, -, -, -, -, L', hL', hLk', os', hos', htr'⟩ := forall₂_mem_left h4 _ hkey
  have hLL : L' = L := List.inj_on_of_nodup_map (init_keys_nodup he ha h) hL' hL hLk'
  subst hLL
  rw [hos] at hos'
  cases hos'
  have hQQ : Q' = Q := written_unique d1 hQ (htr'.symm.trans htr)
  subst hQQ
  obtain ⟨combos, c1, c2, c3⟩ := d5 Q' (.refl _)
  obtain ⟨o, ho, r1, r2, r3, -⟩ := forall₂_mem_left c3 _ ((c2 _).mpr ⟨t, ht, rfl⟩)
  exact ⟨o, List.mem_flatten.mpr ⟨out, hout, ho⟩, r2, r1, r3⟩

open Classical in
/-- features shuffled between the items carry no information -/
theorem _root_.ABX.Spec.ShuffledItems.noInformation {n : Nat} {lt : δ → δ → Bool} {D : Fin n → Fin n → δ} {dist : Equiv.Perm (Fin n) → ρ → ρ → Except Err δ} {recs : List ρ} (S : ShuffledItems D dist recs) :
    NoInformation (fun _ => 1 / (Fintype.card (Equiv.Perm (Fin n)) : ℚ)) lt dist recs := by
  refine ⟨fun _ => by positivity, uniform_total, ?_⟩
  intro i j k hij hki hkj
  have key : ∀ π i j k, nearerAt lt (dist π) recs i j k ↔ ∃ (hi : i < n) (hj : j < n) (hk : k < n), lt (D (π ⟨i, hi⟩) (π ⟨k, hk⟩)) (D (π ⟨j, hj⟩) (π ⟨k, hk⟩)) = true := by
    intro π i j k
    constructor
    · rintro ⟨a, b, x, d, d', e1, e2, e3, e4, e5, e6⟩
      have hi : i < n := by rw [← S.1]; exact (List.getElem?_eq_some_iff.mp e1).1
      have hj : j < n := by rw [← S.1]; exact (List.getElem?_eq_some_iff.mp e2).1
      have hk : k < n := by rw [← S.1]; exact (List.getElem?_eq_some_iff.mp e3).1
      rw [S.2 π ⟨i, hi⟩ ⟨k, hk⟩ a x e1 e3] at e4
      rw [S.2 π ⟨j, hj⟩ ⟨k, hk⟩ b x e2 e3] at e5
      cases e4; cases e5
      exact ⟨hi, hj, hk, e6⟩
    · rintro ⟨hi, hj, hk, hlt⟩
      have g : ∀ m (hm : m < n), recs[m]? = some (recs[m]'(by rw [S.1]; exact hm)) := fun m hm => List.getElem?_eq_getElem _
      exact ⟨_, _, _, _, _, g i hi, g j hj, g k hk, S.2 π ⟨i, hi⟩ ⟨k, hk⟩ _ _ (g i hi) (g k hk), S.2 π ⟨j, hj⟩ ⟨k, hk⟩ _ _ (g j hj) (g k hk), hlt⟩
  by_cases hn : i < n ∧ j < n ∧ k < n
  · obtain ⟨hi, hj, hk⟩ := hn
    refine Fintype.sum_equiv (Equiv.mulRight (Equiv.swap ⟨i, hi⟩ ⟨j, hj⟩)) _ _ fun π => ?_
    refine if_congr ?_ rfl rfl
    rw [key, key]
    have hs : Equiv.swap (⟨i, hi⟩ : Fin n) ⟨j, hj⟩ ⟨k, hk⟩ = ⟨k, hk⟩ := Equiv.swap_apply_of_ne_of_ne (fun h => hki (Fin.mk.inj h)) (fun h => hkj (Fin.mk.inj h))
    simp only [Equiv.coe_mulRight, Equiv.Perm.mul_apply, Equiv.swap_apply_left, Equiv.swap_apply_right, hs, hi, hj, hk, exists_true_left]
  · have hz : ∀ π, ¬ nearerAt lt (dist π) recs i j k ∧ ¬ nearerAt lt (dist π) recs j i k := fun π => ⟨fun h => by obtain ⟨a, b, c, -⟩ := (key π i j k).mp h; exact hn ⟨a, b, c⟩, fun h => by obtain ⟨a, b, c, -⟩ := (key π j i k).mp h; exact hn ⟨b, a, c⟩⟩
    exact Finset.sum_congr rfl fun π _ => by rw [if_neg (hz π).1, if_neg (hz π).2]

end ABX.Pipeline
