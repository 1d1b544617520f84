import Verif.Spec.SamplerUniform
import Verif.Proofs.Hyper
/-!
Lemmas for C102.
-/
namespace ABX.Sampler
open ABX.Spec MeasureTheory Set

/-- the probability of a set of `k` of the next `n` items -/
noncomputable def setProb (N K n k : Nat) : ℝ := (N - n).choose (K - k) / N.choose K

theorem setProb_eq {N K n k : Nat} (hn : n ≤ N) (hK : K ≤ N) (h1 : k ≤ n) (h2 : k ≤ K) (h3 : K - k ≤ N - n) : hyperPmf N K n k / n.choose k = setProb N K n k := by
  have c1 : (0 : ℝ) < N.choose n := by exact_mod_cast Nat.choose_pos hn
  have c2 : (0 : ℝ) < N.choose K := by exact_mod_cast Nat.choose_pos hK
  have c3 : (0 : ℝ) < n.choose k := by exact_mod_cast Nat.choose_pos h1
  have e1 : (K.choose k : ℝ) * (N.choose K) = N.choose k * (N - k).choose (K - k) := by
    have := Nat.choose_mul (n := N) h2
    rw [mul_comm]
    exact_mod_cast this
  have e2 : (n.choose k : ℝ) * (N.choose n) = N.choose k * (N - k).choose (n - k) := by
    have := Nat.choose_mul (n := N) h1
    rw [mul_comm]
    exact_mod_cast this
  have e3 : ((N - k).choose (K - k) : ℝ) * (N - K).choose (n - k) = (N - k).choose (n - k) * (N - n).choose (K - k) := by
    have a1 : ((N - k).choose (K - k) : ℝ) = (N - k).factorial / ((K - k).factorial * (N - K).factorial) := by
      rw [Nat.cast_choose ℝ (by omega), show N - k - (K - k) = N - K by omega]
    have a2 : ((N - K).choose (n - k) : ℝ) = (N - K).factorial / ((n - k).factorial * (N - K - (n - k)).factorial) := Nat.cast_choose ℝ (by omega)
    have a3 : ((N - k).choose (n - k) : ℝ) = (N - k).factorial / ((n - k).factorial * (N - n).factorial) := by
      rw [Nat.cast_choose ℝ (by omega), show N - k - (n - k) = N - n by omega]
    have a4 : ((N - n).choose (K - k) : ℝ) = (N - n).factorial / ((K - k).factorial * (N - K - (n - k)).factorial) := by
      rw [Nat.cast_choose ℝ (by omega), show N - n - (K - k) = N - K - (n - k) by omega]
    rw [a1, a2, a3, a4]
    have f : ∀ m : Nat, (m.factorial : ℝ) ≠ 0 := fun m => by exact_mod_cast m.factorial_ne_zero
    have f1 := f (K - k); have f2 := f (N - K); have f3 := f (n - k); have f4 := f (N - K - (n - k)); have f5 := f (N - n)
    field_simp
  unfold hyperPmf setProb
  rw [if_pos h1, div_div, div_eq_div_iff (by positivity) c2.ne']
  calc (K.choose k : ℝ) * (N - K).choose (n - k) * N.choose K = (K.choose k * N.choose K) * (N - K).choose (n - k) := by ring
    _ = N.choose k * ((N - k).choose (K - k) * (N - K).choose (n - k)) := by rw [e1]; ring
    _ = (N.choose k * (N - k).choose (n - k)) * (N - n).choose (K - k) := by rw [e3]; ring
    _ = _ := by rw [← e2]; ring

theorem setProb_comp {N K n k n' k' : Nat} (h3 : K - k ≤ N - n) :
    setProb N K n k * setProb (N - n) (K - k) n' k' = setProb N K (n + n') (k + k') := by
  unfold setProb
  have c : (0 : ℝ) < (N - n).choose (K - k) := by exact_mod_cast Nat.choose_pos h3
  rw [show N - n - n' = N - (n + n') by omega, show K - k - k' = K - (k + k') by omega]
  field_simp

theorem setProb_nonneg (N K n k : Nat) : 0 ≤ setProb N K n k := by unfold setProb; positivity

theorem setProb_zero {N K : Nat} (h : K ≤ N) : setProb N K 0 0 = 1 := by
  unfold setProb
  have c : (0 : ℝ) < N.choose K := by exact_mod_cast Nat.choose_pos h
  simp [c.ne']

/-! ### products of chances -/

theorem extend_zero {α : Type} [Inhabited α] {R : Nat} (ω : Fin (R + 1) → α) : extend ω 0 = ω 0 := by simp [extend]

theorem extend_succ {α : Type} [Inhabited α] {R : Nat} (ω : Fin (R + 1) → α) : (fun j => extend ω (j + 1)) = extend (fun i : Fin R => ω i.succ) := by
  funext j
  unfold extend
  by_cases h : j < R
  · rw [dif_pos h, dif_pos (by omega)]
    rfl
  · rw [dif_neg h, dif_neg (by omega)]

theorem pi_split {α : Type} [MeasurableSpace α] (μ : Measure α) [IsProbabilityMeasure μ] {R : Nat} (A : Set α) (B : Set (Fin R → α)) (C : Set (Fin (R + 1) → α)) (h : ∀ ω, ω ∈ C ↔ ω 0 ∈ A ∧ (fun i : Fin R => ω i.succ) ∈ B) :
    (Measure.pi (fun _ : Fin (R + 1) => μ)).real C = μ.real A * (Measure.pi (fun _ : Fin R => μ)).real B := by
  have hset : C = (MeasurableEquiv.piFinSuccAbove (fun _ => α) 0) ⁻¹' (A ×ˢ B) := by
    ext ω
    have h1 : ((MeasurableEquiv.piFinSuccAbove (fun _ => α) 0) ω).2 = fun i => ω i.succ := by
      funext i
      simp [MeasurableEquiv.piFinSuccAbove, Fin.insertNthEquiv]
      rfl
    rw [h, mem_preimage, mem_prod, h1]
    rfl
  rw [measureReal_def, hset, (measurePreserving_piFinSuccAbove (fun _ : Fin (R + 1) => μ) 0).measure_preimage_equiv, Measure.prod_prod, ENNReal.toReal_mul]
  rfl

theorem pi_univ {α : Type} [MeasurableSpace α] (μ : Measure α) [IsProbabilityMeasure μ] {R : Nat} (C : Set (Fin R → α)) (h : ∀ ω, ω ∈ C) : (Measure.pi (fun _ : Fin R => μ)).real C = 1 := by
  rw [show C = univ from Set.eq_univ_of_forall h, probReal_univ]

/-! ### the parts of a sample -/

/-- the elements below `a` -/
def lower (a : Nat) (l : List Nat) : List Nat := l.filter (· < a)
/-- the others -/
def higher (a : Nat) (l : List Nat) : List Nat := l.filter (fun x => ¬ x < a)

theorem lower_higher {a : Nat} : ∀ {l : List Nat}, StrictInc l → l = lower a l ++ higher a l
  | [], _ => rfl
  | x :: xs, h => by
    have hx : ∀ y ∈ xs, x < y := fun y hy => List.rel_of_pairwise_cons h hy
    have ih : xs = _ := lower_higher (a := a) (l := xs) (List.Pairwise.of_cons h)
    unfold lower higher at ih ⊢
    by_cases hxa : x < a
    · rw [List.filter_cons_of_pos (by simpa using hxa), List.filter_cons_of_neg (by simpa using hxa), List.cons_append, ← ih]
    · rw [List.filter_cons_of_neg (by simpa using hxa), List.filter_cons_of_pos (by simpa using hxa)]
      have e : xs.filter (fun x => decide (x < a)) = [] := by
        rw [List.filter_eq_nil_iff]
        intro y hy
        have := hx y hy
        simp
        omega
      rw [e, List.nil_append] at ih ⊢
      rw [← ih]

theorem append_parts {a : Nat} {l r : List Nat} (hl : ∀ x ∈ l, x < a) (hr : ∀ x ∈ r, a ≤ x) : lower a (l ++ r) = l ∧ higher a (l ++ r) = r := by
  unfold lower higher
  rw [List.filter_append, List.filter_append]
  have e1 : l.filter (fun x => decide (x < a)) = l := List.filter_eq_self.mpr fun x hx => by simpa using hl x hx
  have e2 : r.filter (fun x => decide (x < a)) = [] := List.filter_eq_nil_iff.mpr fun x hx => by have := hr x hx; simp; omega
  have e3 : l.filter (fun x => decide (¬ x < a)) = [] := List.filter_eq_nil_iff.mpr fun x hx => by have := hl x hx; simp; omega
  have e4 : r.filter (fun x => decide (¬ x < a)) = r := List.filter_eq_self.mpr fun x hx => by have := hr x hx; simp; omega
  rw [e1, e2, e3, e4]
  simp

theorem length_le_below {n : Nat} {l : List Nat} (hi : StrictInc l) (hl : ∀ x ∈ l, x < n) : l.length ≤ n := by
  have := length_le_of_inc n l 0 hi fun x hx => ⟨by omega, hl x hx⟩
  omega

theorem simpleSample_step {s s' : IS} {n : Nat} {src : Src} {l : List Nat} (h : s.simpleSample n src = .ok (s', l)) : s'.step = s.step := by
  unfold IS.simpleSample at h
  split at h
  · cases h
  · split at h
    · cases h
    · cases h
      rfl

/-- the state after the next `n` items, `k` of which were sampled -/
def IS.after (s : IS) (n k : Nat) : IS := { s with N := s.N - n, K := s.K - k }

theorem drawn_after {s s' : IS} {n : Nat} {l : List Nat} (d : Drawn s s' n l) (h : s'.step = s.step) : s' = s.after n l.length := by
  have h1 := d.N; have h2 := d.K; have h3 := d.init; have h4 := d.rel
  obtain ⟨N, K, i, r, st⟩ := s
  obtain ⟨N', K', i', r', st'⟩ := s'
  simp only [IS.after, IS.mk.injEq] at *
  exact ⟨by omega, by omega, h3, h4, h⟩

theorem chunks_congr (c : Nat) {src src' : Nat → Src} : ∀ (fuel : Nat) (s : IS) (n i : Nat), (∀ j, i ≤ j → src j = src' j) → IS.chunks src c fuel s n i = IS.chunks src' c fuel s n i
  | 0, s, n, i, _ => by
    unfold IS.chunks
    rfl
  | f + 1, s, n, i, h => by
    unfold IS.chunks
    by_cases h0 : n > 0
    · rw [if_pos h0, if_pos h0]
      dsimp only
      rw [h i (by omega)]
      cases s.simpleSample (min c n) (src' i) with
      | error e => rfl
      | ok p =>
        obtain ⟨s1, l1⟩ := p
        dsimp only
        rw [chunks_congr c f s1 _ _ fun j hj => h j (by omega)]
    · rw [if_neg h0, if_neg h0]

section
variable {Ω : Type} [Inhabited Ω] [MeasurableSpace Ω] {μ : Measure Ω} [IsProbabilityMeasure μ] {S : Nat → Nat → Nat → Ω → Src} {lo hi : ℝ} {M M' : Nat}

omit [Inhabited Ω] [IsProbabilityMeasure μ] in
theorem chunkSrc_lawful (hF : Fair μ S lo hi M M') (c : Nat) : ∀ i s n (ω : Nat → Ω), (chunkSrc S c s n ω i).Lawful
  | 0, _, _, _ => hF.lawful _ _ _ _
  | i + 1, s, n, ω => by
    unfold chunkSrc
    split
    · exact chunkSrc_lawful hF c i _ _ _
    · exact hF.lawful _ _ _ _

theorem mul_bounds {a b x y : ℝ} {R : Nat} (hlo : 0 ≤ lo) (hhi : 1 ≤ hi) (ha : 0 ≤ a) (hb : 0 ≤ b) (hx : lo * a ≤ x ∧ x ≤ hi * a) (hy : lo ^ R * b ≤ y ∧ y ≤ hi ^ R * b) :
    lo ^ (R + 1) * (a * b) ≤ x * y ∧ x * y ≤ hi ^ (R + 1) * (a * b) := by
  have h1 : 0 ≤ lo * a := by positivity
  have h2 : 0 ≤ lo ^ R * b := by positivity
  have h3 : 0 ≤ hi * a := mul_nonneg (by linarith) ha
  constructor
  · calc lo ^ (R + 1) * (a * b) = (lo * a) * (lo ^ R * b) := by ring
      _ ≤ x * y := mul_le_mul hx.1 hy.1 h2 (h1.trans hx.1)
  · calc x * y ≤ (hi * a) * (hi ^ R * b) := mul_le_mul hx.2 hy.2 (h2.trans hy.1) h3
      _ = _ := by ring

theorem chunks_prob (hF : Fair μ S lo hi M M') {c : Nat} (hc : 0 < c) : ∀ (R f : Nat) (s : IS) (n i : Nat) (l : List Nat), s.N ≤ M → s.K ≤ M' → ISInv s → n ≤ s.N → n ≤ R → n ≤ f → StrictInc l → (∀ x ∈ l, x < n) → l.length ≤ s.K →
    s.K - l.length ≤ s.N - n →
    let p := (Measure.pi (fun _ : Fin R => μ)).real {ω | ∃ s', IS.chunks (fun j => chunkSrc S c s n (extend ω) (j - i)) c f s n i = .ok (s', l.map (· + i * c))}
    lo ^ R * setProb s.N s.K n l.length ≤ p ∧ p ≤ hi ^ R * setProb s.N s.K n l.length := by
  intro R
  induction R with
  | zero =>
    intro f s n i l hM hM' hs hn hR hf hl1 hl2 hl3 hl4
    obtain rfl : n = 0 := by omega
    have : l = [] := List.eq_nil_iff_forall_not_mem.mpr fun x hx => by have := hl2 x hx; omega
    subst this
    dsimp only
    rw [pi_univ μ _ (by intro ω; exact ⟨s, by unfold IS.chunks; rw [if_neg (by omega)]; rfl⟩)]
    simp [setProb_zero hs.kn]
  | succ R ih =>
    intro f s n i l hM hM' hs hn hR hf hl1 hl2 hl3 hl4
    rcases Nat.eq_zero_or_pos n with rfl | hn0
    · have : l = [] := List.eq_nil_iff_forall_not_mem.mpr fun x hx => by have := hl2 x hx; omega
      subst this
      dsimp only
      rw [pi_univ μ _ (by intro ω; exact ⟨s, by unfold IS.chunks; rw [if_neg (by omega)]; rfl⟩)]
      simp only [List.length_nil, setProb_zero hs.kn, mul_one]
      exact ⟨pow_le_one₀ hF.low.1 hF.low.2, one_le_pow₀ hF.high⟩
    · obtain ⟨f, rfl⟩ : ∃ f', f = f' + 1 := ⟨f - 1, by omega⟩
      set m := min c n with hm
      have hm0 : 0 < m := by omega
      have hmn : m ≤ n := by omega
      have hsplit := lower_higher (a := m) hl1
      set l1 := lower m l with e1
      set r := higher m l with e2
      have hl1m : ∀ x ∈ l1, x < m := fun x hx => by
        rw [e1] at hx
        simpa using (List.mem_filter.mp hx).2
      have hl1i : StrictInc l1 := List.Pairwise.filter _ hl1
      have hrm : ∀ x ∈ r, m ≤ x ∧ x < n := fun x hx => by
        rw [e2] at hx
        have h1 := (List.mem_filter.mp hx).2
        have h2 := hl2 x (List.mem_filter.mp hx).1
        simp at h1
        omega
      have hri : StrictInc r := List.Pairwise.filter _ hl1
      obtain ⟨l2, e3⟩ : ∃ l2, l2 = r.map (· - m) := ⟨_, rfl⟩
      have hr2 : r = l2.map (· + m) := by
        rw [e3, List.map_map]
        conv_lhs => rw [← List.map_id r]
        refine List.map_congr_left fun x hx => ?_
        have := hrm x hx
        simp
        omega
      have hl2i : StrictInc l2 := by
        rw [e3, StrictInc, List.pairwise_map]
        refine List.Pairwise.imp_of_mem (fun {x y} hx hy h => ?_) hri
        have := hrm x hx; have := hrm y hy
        omega
      have hl2m : ∀ x ∈ l2, x < n - m := fun x hx => by
        rw [e3] at hx
        obtain ⟨y, hy, rfl⟩ := List.mem_map.mp hx
        have := hrm y hy
        omega
      have hlen : l.length = l1.length + l2.length := by
        rw [hsplit, List.length_append, hr2, List.length_map]
      have b1 := length_le_below hl1i hl1m
      have b2 := length_le_below hl2i hl2m
      set s1 := s.after m l1.length with hs1
      have hs1N : s1.N = s.N - m := rfl
      have hs1K : s1.K = s.K - l1.length := rfl
      have hkn := hs.kn
      have hni := hs.ni
      have hs1i : s1.initialN = s.initialN := rfl
      have hA := hF.draw s m l1 hM hM' hs.kn hm0 (by omega) hl1i hl1m (by omega) (by omega)
      have hB := ih f s1 (n - m) (i + 1) l2 (by omega) (by omega) ⟨by omega, by omega⟩ (by omega) (by omega) (by omega) hl2i hl2m (by omega) (by omega)
      dsimp only at hA hB ⊢
      rw [setProb_eq (by omega) hs.kn b1 (by omega) (by omega)] at hA
      rw [pi_split μ {w | ∃ s', s.simpleSample m (S s.N s.K m w) = .ok (s', l1)}
        {ω | ∃ s', IS.chunks (fun j => chunkSrc S c s1 (n - m) (extend ω) (j - (i + 1))) c f s1 (n - m) (i + 1) = .ok (s', l2.map (· + (i + 1) * c))}]
      · rw [hlen, show n = m + (n - m) by omega, ← setProb_comp (by omega)]
        rw [show m + (n - m) - m = n - m by omega]
        exact mul_bounds hF.low.1 hF.high (setProb_nonneg _ _ _ _) (setProb_nonneg _ _ _ _) hA hB
      · intro ω
        simp only [Set.mem_ofPred_eq]
        have hsrc : ∀ s1' l1', s.simpleSample m (S s.N s.K m (ω 0)) = .ok (s1', l1') →
            IS.chunks (fun j => chunkSrc S c s n (extend ω) (j - i)) c f s1' (n - m) (i + 1) =
            IS.chunks (fun j => chunkSrc S c s1' (n - m) (extend fun i : Fin R => ω i.succ) (j - (i + 1))) c f s1' (n - m) (i + 1) := by
          intro s1' l1' h
          refine chunks_congr c f _ _ _ fun j hj => ?_
          rw [show j - i = (j - (i + 1)) + 1 by omega]
          conv_lhs => unfold chunkSrc
          rw [← hm, extend_zero, h, extend_succ]
        have hz : l2 ≠ [] → m = c := by
          intro h
          obtain ⟨x, xs, e⟩ := List.exists_cons_of_ne_nil h
          have := hl2m x (by rw [e]; simp)
          omega
        have hshift : l2.map (· + (i + 1) * c) = r.map (· + i * c) := by
          rw [hr2, List.map_map]
          by_cases h : l2 = []
          · rw [h]
            rfl
          · refine List.map_congr_left fun x _ => ?_
            have := hz h
            simp only [Function.comp]
            rw [this]
            ring
        have h0src : chunkSrc S c s n (extend ω) (i - i) = S s.N s.K m (ω 0) := by
          rw [Nat.sub_self]
          unfold chunkSrc
          rw [extend_zero]
        constructor
        · rintro ⟨s', h⟩
          unfold IS.chunks at h
          rw [if_pos hn0] at h
          dsimp only at h
          rw [h0src, ← hm] at h
          cases g1 : s.simpleSample m (S s.N s.K m (ω 0)) with
          | error e => rw [g1] at h; cases h
          | ok p =>
            obtain ⟨s1', l1'⟩ := p
            rw [g1] at h
            dsimp only at h
            rw [hsrc _ _ g1] at h
            cases g2 : IS.chunks (fun j => chunkSrc S c s1' (n - m) (extend fun i : Fin R => ω i.succ) (j - (i + 1))) c f s1' (n - m) (i + 1) with
            | error e => rw [g2] at h; cases h
            | ok q =>
              obtain ⟨s2', r'⟩ := q
              rw [g2] at h
              simp only [Except.ok.injEq, Prod.mk.injEq] at h
              have d1 := simpleSample_ok s hs m (by omega) (by omega) _ (hF.lawful _ _ _ _) s1' l1' g1
              obtain ⟨r0, f1, d2⟩ := chunks_ok c hc _ (fun j => chunkSrc_lawful hF c _ _ _ _) f s1' (n - m) (i + 1) d1.inv (by have := d1.N; omega) _ r' g2
              have hr0 : r' = (r0.map (· + m)).map (· + i * c) := by
                rw [f1, List.map_map]
                by_cases h : r0 = []
                · rw [h]
                  rfl
                · obtain ⟨x, xs, e⟩ := List.exists_cons_of_ne_nil h
                  have := d2.lt x (by rw [e]; simp)
                  have hmc : m = c := by omega
                  refine List.map_congr_left fun x _ => ?_
                  simp only [Function.comp]
                  rw [hmc]
                  ring
              have hl : l1' ++ r0.map (· + m) = l := by
                have h2 := h.2
                rw [hr0, ← List.map_append] at h2
                exact List.map_injective_iff.mpr (fun a b h => by simpa using h) h2
              obtain ⟨q1, q2⟩ := append_parts (a := m) (l := l1') (r := r0.map (· + m)) d1.lt (fun x hx => by
                obtain ⟨y, -, rfl⟩ := List.mem_map.mp hx
                omega)
              rw [hl] at q1 q2
              have ee : l1 = l1' := q1
              have er : r = r0.map (· + m) := q2
              have es : s1' = s1 := by
                rw [hs1, ee]
                exact drawn_after d1 (simpleSample_step g1)
              refine ⟨⟨s1', by rw [ee]⟩, s2', ?_⟩
              rw [es] at g2
              rw [g2, hshift, er, hr0]
        · rintro ⟨⟨s1', g1⟩, s', g2⟩
          have d1 := simpleSample_ok s hs m (by omega) (by omega) _ (hF.lawful _ _ _ _) s1' l1 g1
          have es : s1' = s1 := drawn_after d1 (simpleSample_step g1)
          refine ⟨s', ?_⟩
          unfold IS.chunks
          rw [if_pos hn0]
          dsimp only
          rw [h0src, ← hm, g1]
          dsimp only
          rw [hsrc _ _ g1, es, g2]
          dsimp only
          rw [hshift, ← List.map_append, ← hsplit]

omit [MeasurableSpace Ω] in
theorem callSrc_simple {s : IS} {n : Nat} (hk : ¬ min n s.N * s.K > 10 ^ 5 * s.N) (ω : Nat → Ω) : callSrc S s n ω 0 = S s.N s.K (min n s.N) (ω 0) := by
  unfold callSrc
  rw [if_neg hk]
  unfold chunkSrc
  rw [min_self]

theorem sample_prob (hF : Fair μ S lo hi M M') {R : Nat} {s : IS} {n : Nat} {l : List Nat} (hM : s.N ≤ M) (hM' : s.K ≤ M') (hs : ISInv s) (hr : s.relative = false) (hn : 0 < n) (hN : 0 < s.N) (hR : s.N ≤ R) (hl1 : StrictInc l)
    (hl2 : ∀ x ∈ l, x < min n s.N) (hl3 : l.length ≤ s.K) (hl4 : s.K - l.length ≤ s.N - min n s.N) :
    let p := (Measure.pi (fun _ : Fin R => μ)).real {ω | ∃ s', s.sample n (callSrc S s n (extend ω)) = .ok (s', l.map (· + (s.initialN - s.N)))}
    lo ^ R * setProb s.N s.K (min n s.N) l.length ≤ p ∧ p ≤ hi ^ R * setProb s.N s.K (min n s.N) l.length := by
  dsimp only
  have hmin : (if n > s.N then s.N else n) = min n s.N := by
    split <;> omega
  have hinj : Function.Injective (fun x : Nat => x + (s.initialN - s.N)) := fun a b h => by simpa using h
  by_cases hk : min n s.N * s.K > 10 ^ 5 * s.N
  · have hK : 0 < s.K := by
      rcases Nat.eq_zero_or_pos s.K with h | h
      · rw [h] at hk; omega
      · exact h
    have hkn := hs.kn
    have hc : 0 < 10 ^ 5 * s.N / s.K := Nat.div_pos (by omega) hK
    have := chunks_prob hF hc R (min n s.N) s (min n s.N) 0 l hM hM' hs (by omega) (by omega) (le_refl _) hl1 hl2 hl3 hl4
    dsimp only at this
    have hset : {ω : Fin R → Ω | ∃ s', s.sample n (callSrc S s n (extend ω)) = .ok (s', l.map (· + (s.initialN - s.N)))} =
        {ω | ∃ s', IS.chunks (fun j => chunkSrc S (10 ^ 5 * s.N / s.K) s (min n s.N) (extend ω) (j - 0)) (10 ^ 5 * s.N / s.K) (min n s.N) s (min n s.N) 0 = .ok (s', l.map (· + 0 * (10 ^ 5 * s.N / s.K)))} := by
      ext ω
      simp only [Set.mem_ofPred_eq]
      have hsrc : callSrc S s n (extend ω) = fun j => chunkSrc S (10 ^ 5 * s.N / s.K) s (min n s.N) (extend ω) (j - 0) := by
        funext j
        unfold callSrc
        rw [if_pos hk]
        rfl
      unfold IS.sample
      dsimp only
      rw [hmin, if_neg (by omega), if_pos hk, hsrc]
      cases IS.chunks (fun j => chunkSrc S (10 ^ 5 * s.N / s.K) s (min n s.N) (extend ω) (j - 0)) (10 ^ 5 * s.N / s.K) (min n s.N) s (min n s.N) 0 with
      | error e => simp
      | ok q =>
        obtain ⟨s', r⟩ := q
        simp [hr, List.map_inj_right (fun a b h => hinj h)]
    rw [hset]
    exact this
  · obtain ⟨R, rfl⟩ : ∃ R', R = R' + 1 := ⟨R - 1, by omega⟩
    have hA := hF.draw s (min n s.N) l hM hM' hs.kn (by omega) (by omega) hl1 hl2 hl3 hl4
    dsimp only at hA
    rw [setProb_eq (by omega) hs.kn (length_le_below hl1 hl2) hl3 hl4] at hA
    rw [pi_split μ {w | ∃ s', s.simpleSample (min n s.N) (S s.N s.K (min n s.N) w) = .ok (s', l)} univ]
    · rw [probReal_univ, mul_one]
      have hp := setProb_nonneg s.N s.K (min n s.N) l.length
      exact ⟨(mul_le_mul_of_nonneg_right (pow_le_of_le_one hF.low.1 hF.low.2 (by omega)) hp).trans hA.1, hA.2.trans (mul_le_mul_of_nonneg_right (le_self_pow₀ hF.high (by omega)) hp)⟩
    · intro ω
      simp only [Set.mem_ofPred_eq, mem_univ, and_true]
      unfold IS.sample
      dsimp only
      rw [hmin, if_neg (by omega), if_neg hk, callSrc_simple hk, extend_zero]
      cases s.simpleSample (min n s.N) (S s.N s.K (min n s.N) (ω 0)) with
      | error e => simp
      | ok q =>
        obtain ⟨s', r⟩ := q
        simp [hr, List.map_inj_right (fun a b h => hinj h)]

omit [Inhabited Ω] [IsProbabilityMeasure μ] in
theorem callSrc_lawful (hF : Fair μ S lo hi M M') (s : IS) (n : Nat) (ω : Nat → Ω) (i : Nat) : (callSrc S s n ω i).Lawful := chunkSrc_lawful hF _ _ _ _ _

theorem chunks_step (src : Nat → Src) (c : Nat) : ∀ (fuel : Nat) (s : IS) (n i : Nat) (s' : IS) (l : List Nat), IS.chunks src c fuel s n i = .ok (s', l) → s'.step = s.step
  | 0, s, n, i, s', l, h => by
    unfold IS.chunks at h
    split at h
    · cases h
    · cases h; rfl
  | f + 1, s, n, i, s', l, h => by
    unfold IS.chunks at h
    split at h
    · dsimp only at h
      cases h1 : s.simpleSample (min c n) (src i) with
      | error e => rw [h1] at h; cases h
      | ok p =>
        obtain ⟨s1, l1⟩ := p
        rw [h1] at h
        dsimp only at h
        cases h2 : IS.chunks src c f s1 (n - min c n) (i + 1) with
        | error e => rw [h2] at h; cases h
        | ok q =>
          obtain ⟨s2, l2⟩ := q
          rw [h2] at h
          cases h
          rw [chunks_step src c f _ _ _ _ _ h2, simpleSample_step h1]
    · cases h; rfl

theorem sample_step {s s' : IS} {n : Nat} {src : Nat → Src} {l : List Nat} (h : s.sample n src = .ok (s', l)) : s'.step = s.step := by
  unfold IS.sample at h
  dsimp only at h
  generalize (if n > s.N then s.N else n) = n' at h
  split at h
  · cases h
  · split at h
    · cases h
    · rename_i s1 l1 hr
      cases h
      split at hr
      · exact chunks_step _ _ _ _ _ _ _ _ hr
      · exact simpleSample_step hr

theorem Exhausts.pos : ∀ {N : Nat} {ns : List Nat}, Exhausts N ns → ∀ n ∈ ns, 0 < n
  | _, [], _, n, h => by cases h
  | _, k :: ns, ⟨h1, _, h3⟩, n, h => by
    rcases List.mem_cons.mp h with rfl | h
    · exact h1
    · exact Exhausts.pos h3 n h

omit [Inhabited Ω] [IsProbabilityMeasure μ] in
theorem callsOf_ok (hF : Fair μ S lo hi M M') : ∀ (ns : List Nat) (s : IS), (∀ n ∈ ns, 0 < n) → ∀ (ω : Nat → Nat → Ω), ∀ c ∈ callsOf S s ns ω, 0 < c.1 ∧ ∀ i, (c.2 i).Lawful
  | [], _, _, _, c, h => by cases h
  | n :: ns, s, hp, ω, c, h => by
    unfold callsOf at h
    rcases List.mem_cons.mp h with rfl | h
    · exact ⟨hp n (by simp), callSrc_lawful hF s n _⟩
    · split at h
      · exact callsOf_ok hF ns _ (fun m hm => hp m (by simp [hm])) _ c h
      · cases h

theorem samples_prob (hF : Fair μ S lo hi M M') {R : Nat} : ∀ (ns : List Nat) (s : IS) (t : List Nat), s.N ≤ M → s.K ≤ M' → ISInv s → s.relative = false → Exhausts s.N ns → s.N ≤ R → StrictInc t →
    (∀ x ∈ t, s.initialN - s.N ≤ x ∧ x < s.initialN) → t.length = s.K →
    let p := (Measure.pi (fun _ : Fin ns.length => Measure.pi (fun _ : Fin R => μ))).real {ω | ∃ s' ls, s.samples (callsOf S s ns (fun j => extend (extend ω j))) = .ok (s', ls) ∧ ls.flatten = t}
    (lo ^ R) ^ ns.length * (1 / s.N.choose s.K) ≤ p ∧ p ≤ (hi ^ R) ^ ns.length * (1 / s.N.choose s.K)
  | [], s, t, hM, hM', hs, hr, hN, hR, ht1, ht2, ht3 => by
    have h0 : s.N = 0 := hN
    have hk := hs.kn
    have ht : t = [] := List.eq_nil_of_length_eq_zero (by omega)
    subst ht
    dsimp only
    rw [show s.K = 0 by omega, h0, pi_univ _ _ (by intro ω; exact ⟨s, [], rfl, rfl⟩)]
    simp
  | n :: ns, s, t, hM, hM', hs, hr, ⟨hn, hN, hE⟩, hR, ht1, ht2, ht3 => by
    have hkn := hs.kn
    have hni := hs.ni
    set m := min n s.N with hm
    set a := s.initialN - s.N with ha
    have hsplit := lower_higher (a := a + m) ht1
    set t1 := lower (a + m) t with e1
    set t2 := higher (a + m) t with e2
    have h1m : ∀ x ∈ t1, a ≤ x ∧ x < a + m := fun x hx => by
      rw [e1] at hx
      have h1 := (List.mem_filter.mp hx).2
      have h2 := ht2 x (List.mem_filter.mp hx).1
      simp at h1
      omega
    have h2m : ∀ x ∈ t2, a + m ≤ x ∧ x < s.initialN := fun x hx => by
      rw [e2] at hx
      have h1 := (List.mem_filter.mp hx).2
      have h2 := ht2 x (List.mem_filter.mp hx).1
      simp at h1
      omega
    have h1i : StrictInc t1 := List.Pairwise.filter _ ht1
    have h2i : StrictInc t2 := List.Pairwise.filter _ ht1
    obtain ⟨l, el⟩ : ∃ l, l = t1.map (· - a) := ⟨_, rfl⟩
    have ht1l : t1 = l.map (· + a) := by
      rw [el, List.map_map]
      conv_lhs => rw [← List.map_id t1]
      refine List.map_congr_left fun x hx => ?_
      have := h1m x hx
      simp
      omega
    have hli : StrictInc l := by
      rw [el, StrictInc, List.pairwise_map]
      refine List.Pairwise.imp_of_mem (fun {x y} hx hy h => ?_) h1i
      have := h1m x hx; have := h1m y hy
      omega
    have hlm : ∀ x ∈ l, x < m := fun x hx => by
      rw [el] at hx
      obtain ⟨y, hy, rfl⟩ := List.mem_map.mp hx
      have := h1m y hy
      omega
    have hlen : s.K = l.length + t2.length := by
      rw [← ht3, hsplit, List.length_append, ht1l, List.length_map]
    have hb2 : t2.length ≤ s.N - m := by
      have := length_le_of_inc s.initialN t2 (a + m) h2i h2m
      omega
    set s1 := s.after m l.length with hs1
    have hs1N : s1.N = s.N - m := rfl
    have hs1K : s1.K = s.K - l.length := rfl
    have hs1i : s1.initialN = s.initialN := rfl
    have hE' : Exhausts s1.N ns := by
      rw [hs1N, show s.N - m = s.N - n by omega]
      exact hE
    have hA := sample_prob hF (R := R) (l := l) hM hM' hs hr hn hN hR hli hlm (by omega) (by omega)
    have hB := samples_prob hF (R := R) ns s1 t2 (by omega) (by omega) ⟨by omega, by omega⟩ hr hE' (by omega) h2i (fun x hx => by have := h2m x hx; omega) (by omega)
    dsimp only at hA hB ⊢
    have key := pi_split (Measure.pi (fun _ : Fin R => μ)) {v | ∃ s', s.sample n (callSrc S s n (extend v)) = .ok (s', l.map (· + a))}
      {ω | ∃ s' ls, s1.samples (callsOf S s1 ns (fun j => extend (extend ω j))) = .ok (s', ls) ∧ ls.flatten = t2}
      {ω : Fin (ns.length + 1) → Fin R → Ω | ∃ s' ls, s.samples (callsOf S s (n :: ns) (fun j => extend (extend ω j))) = .ok (s', ls) ∧ ls.flatten = t} ?_
    · have hp : (1 / s.N.choose s.K : ℝ) = setProb s.N s.K m l.length * (1 / s1.N.choose s1.K) := by
        unfold setProb
        rw [hs1N, hs1K]
        have c : (0 : ℝ) < (s.N - m).choose (s.K - l.length) := by exact_mod_cast Nat.choose_pos (by omega)
        field_simp
      rw [hp, List.length_cons]
      have := mul_bounds (pow_nonneg hF.low.1 R) (one_le_pow₀ hF.high) (setProb_nonneg _ _ _ _) (by positivity) hA hB
      rw [← key] at this
      exact this
    · intro ω
      simp only [Set.mem_ofPred_eq]
      have h0 : (fun j => extend (extend ω j)) 0 = extend (ω 0) := by
        dsimp only
        rw [extend_zero]
      have hsh : (fun j => (fun j => extend (extend ω j)) (j + 1)) = fun j => extend (extend (fun i : Fin ns.length => ω i.succ) j) := by
        funext j
        exact congrArg extend (congrFun (extend_succ ω) j)
      have hst : ∀ s' l', s.sample n (callSrc S s n (extend (ω 0))) = .ok (s', l') → ∃ l0, Drawn s s' m l0 ∧ l' = l0.map (· + a) ∧ s' = s.after m l0.length := by
        intro s' l' h
        obtain ⟨l0, d, e⟩ := sample_ok s hs n hn _ (callSrc_lawful hF s n _) s' l' h
        rw [hr] at e
        exact ⟨l0, d, by simpa using e, drawn_after d (sample_step h)⟩
      conv_lhs => unfold callsOf IS.samples IS.samplesBy
      rw [hsh]
      have h0' : extend (extend ω 0) = extend (ω 0) := h0
      simp only [h0']
      cases g1 : s.sample n (callSrc S s n (extend (ω 0))) with
      | error e => simp
      | ok q =>
        obtain ⟨s', l'⟩ := q
        obtain ⟨l0, d, el0, es⟩ := hst s' l' g1
        dsimp only
        constructor
        · rintro ⟨s2, ls, h, hfl⟩
          cases g2 : IS.samplesBy IS.sample s' (callsOf S s' ns fun j => extend (extend (fun i : Fin ns.length => ω i.succ) j)) with
          | error e => rw [g2] at h; cases h
          | ok q =>
            obtain ⟨s3, ls'⟩ := q
            rw [g2] at h
            cases h
            have hinv := d.inv
            have hsr : s'.relative = false := d.rel.trans hr
            have hpos := Exhausts.pos hE
            obtain ⟨-, -, -, -, q5, -⟩ := samples_ok _ s' hinv hsr (callsOf_ok hF ns s' hpos _) _ ls' g2
            have hd1 := d.N
            have hd2 := d.init
            obtain ⟨p1, p2⟩ := append_parts (a := a + m) (l := l') (r := ls'.flatten) (fun x hx => by
              rw [el0] at hx
              obtain ⟨y, hy, rfl⟩ := List.mem_map.mp hx
              have := d.lt y hy
              omega) (fun x hx => by
              have := q5 x hx
              omega)
            rw [← List.flatten_cons, hfl] at p1 p2
            have hl' : l' = l.map (· + a) := by rw [← ht1l]; exact p1.symm
            have : l0 = l := List.map_injective_iff.mpr (fun a b h => by simpa using h) (el0.symm.trans hl')
            have es1 : s' = s1 := by rw [es, this]
            refine ⟨⟨s', by rw [hl']⟩, s2, ls', ?_, p2.symm⟩
            rw [← es1]
            exact g2
        · rintro ⟨⟨s'', h1⟩, s2, ls, h2, hfl⟩
          simp only [Except.ok.injEq, Prod.mk.injEq] at h1
          have : l0 = l := List.map_injective_iff.mpr (fun a b h => by simpa using h) (el0.symm.trans h1.2)
          have es1 : s' = s1 := by rw [es, this]
          have h2' : IS.samplesBy IS.sample s1 (callsOf S s1 ns fun j => extend (extend (fun i : Fin ns.length => ω i.succ) j)) = .ok (s2, ls) := h2
          rw [es1, h2']
          exact ⟨s2, _, rfl, by rw [List.flatten_cons, hfl, h1.2, ← ht1l, ← hsplit]⟩

end

end ABX.Sampler
