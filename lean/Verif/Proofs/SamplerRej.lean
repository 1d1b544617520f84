import Verif.Proofs.SamplerProb
import Mathlib.Logic.Equiv.Fintype
import Mathlib.Data.Finset.Sort
import Mathlib.Logic.Equiv.Fin.Basic
/-! How many sequences of draws lead to a sample: rejection sampling. -/
namespace ABX.Sampler

/-- the calls to `np.random.randint` made of the rows of a table: a call for `k` numbers takes the first `k` numbers of a new row -/
def drawOf {R n N : Nat} (v : Fin R → Fin n → Fin N) (i k : Nat) : List Nat :=
  if h : i < R then ((List.ofFn (v ⟨i, h⟩)).take k).map Fin.val else []

/-- `s'` is the image of `s` -/
structure Rel {N : Nat} (σ : Equiv.Perm (Fin N)) (s s' : List Nat) : Prop where
  inc : StrictInc s
  inc' : StrictInc s'
  lt : ∀ x ∈ s, x < N
  lt' : ∀ x ∈ s', x < N
  mem : ∀ x : Fin N, x.val ∈ s ↔ (σ x).val ∈ s'

theorem inc_card {N : Nat} {s : List Nat} (hi : StrictInc s) (hl : ∀ x ∈ s, x < N) :
    s.length = (Finset.univ.filter (fun x : Fin N => x.val ∈ s)).card := by
  have hn : s.Nodup := hi.imp (fun h => Nat.ne_of_lt h)
  rw [← List.toFinset_card_of_nodup hn]
  have : s.toFinset = (Finset.univ.filter (fun x : Fin N => x.val ∈ s)).map Fin.valEmbedding := by
    ext x
    simp only [List.mem_toFinset, Finset.mem_map, Finset.mem_filter, Finset.mem_univ, true_and, Fin.valEmbedding_apply]
    constructor
    · intro hx; exact ⟨⟨x, hl x hx⟩, hx, rfl⟩
    · rintro ⟨y, hy, rfl⟩; exact hy
  rw [this, Finset.card_map]

theorem Rel.length {N : Nat} {σ : Equiv.Perm (Fin N)} {s s' : List Nat} (h : Rel σ s s') : s.length = s'.length := by
  rw [inc_card h.inc h.lt, inc_card h.inc' h.lt']
  have : (Finset.univ.filter (fun x : Fin N => x.val ∈ s')) = (Finset.univ.filter (fun x : Fin N => x.val ∈ s)).map σ.toEmbedding := by
    ext x
    simp only [Finset.mem_map, Finset.mem_filter, Finset.mem_univ, true_and, Equiv.coe_toEmbedding]
    constructor
    · intro hx; exact ⟨σ.symm x, (h.mem _).mpr (by simpa using hx), by simp⟩
    · rintro ⟨y, hy, rfl⟩; exact (h.mem _).mp hy
  rw [this, Finset.card_map]

theorem inc_ext {s s' : List Nat} (hi : StrictInc s) (hi' : StrictInc s') (h : ∀ x, x ∈ s ↔ x ∈ s') : s = s' := by
  have hn : s.Nodup := hi.imp (fun h => Nat.ne_of_lt h)
  have hn' : s'.Nodup := hi'.imp (fun h => Nat.ne_of_lt h)
  exact List.Perm.eq_of_pairwise (fun a b _ _ h1 h2 => by omega) hi hi' ((List.perm_ext_iff_of_nodup hn hn').mpr h)

theorem drawOf_lt {R n N : Nat} (v : Fin R → Fin n → Fin N) (i k : Nat) : ∀ x ∈ drawOf v i k, x < N := by
  intro x hx
  unfold drawOf at hx
  split at hx
  · obtain ⟨y, -, rfl⟩ := List.mem_map.mp hx
    exact y.isLt
  · simp at hx

/-- renaming the numbers drawn renames the numbers obtained -/
theorem Rel.union {R n N : Nat} {σ : Equiv.Perm (Fin N)} {s s' : List Nat} (h : Rel σ s s') (v : Fin R → Fin n → Fin N) (i k : Nat) :
    Rel σ (union1d s (drawOf v i k)) (union1d s' (drawOf (fun i j => σ (v i j)) i k)) := by
  obtain ⟨a1, a2, -, -⟩ := union1d_spec (drawOf v i k) s h.inc
  obtain ⟨b1, b2, -, -⟩ := union1d_spec (drawOf (fun i j => σ (v i j)) i k) s' h.inc'
  refine ⟨a1, b1, ?_, ?_, ?_⟩
  · intro x hx
    rcases (a2 x).mp hx with hx | hx
    · exact h.lt x hx
    · exact drawOf_lt _ _ _ x hx
  · intro x hx
    rcases (b2 x).mp hx with hx | hx
    · exact h.lt' x hx
    · exact drawOf_lt _ _ _ x hx
  · intro x
    rw [a2, b2, h.mem]
    have : x.val ∈ drawOf v i k ↔ (σ x).val ∈ drawOf (fun i j => σ (v i j)) i k := by
      unfold drawOf
      split
      · rename_i hi
        have e : List.ofFn (fun j => σ (v ⟨i, hi⟩ j)) = (List.ofFn (v ⟨i, hi⟩)).map σ := by
          rw [List.map_ofFn]; rfl
        rw [e, ← List.map_take, List.map_map]
        simp only [List.mem_map, Function.comp, Fin.val_inj]
        constructor
        · rintro ⟨y, hy, rfl⟩; exact ⟨y, hy, rfl⟩
        · rintro ⟨y, hy, e⟩; exact ⟨y, hy, σ.injective e⟩
      · simp
    rw [this]

theorem rejectionLoop_rel {R n N : Nat} {σ : Equiv.Perm (Fin N)} (v : Fin R → Fin n → Fin N) : ∀ fuel i s s' r, Rel σ s s' →
    rejectionLoop n (drawOf v) fuel i s = .ok r →
    ∃ r', rejectionLoop n (drawOf (fun i j => σ (v i j))) fuel i s' = .ok r' ∧ Rel σ r r' := by
  intro fuel
  induction fuel with
  | zero =>
    intro i s s' r h hr
    rw [rejectionLoop] at hr ⊢
    rw [← h.length]
    split at hr
    · cases hr
    · rename_i hc
      cases hr
      rw [if_neg hc]
      exact ⟨s', rfl, h⟩
  | succ fuel ih =>
    intro i s s' r h hr
    rw [rejectionLoop] at hr ⊢
    rw [← h.length]
    split at hr
    · rename_i hc
      rw [if_pos hc]
      exact ih _ _ _ _ (h.union v i _) hr
    · rename_i hc
      cases hr
      rw [if_neg hc]
      exact ⟨s', rfl, h⟩

theorem rejection_rel {R n N : Nat} {σ : Equiv.Perm (Fin N)} (v : Fin R → Fin n → Fin N) {fuel : Nat} {s s' : List Nat} (h : Rel σ s s')
    (hr : rejection n N (drawOf v) fuel = .ok s) : rejection n N (drawOf (fun i j => σ (v i j))) fuel = .ok s' := by
  unfold rejection at hr ⊢
  split at hr
  · rename_i h0
    rw [if_pos h0]
    cases hr
    have := h.length
    have : s' = [] := by rw [← List.length_eq_zero_iff]; simpa using this.symm
    rw [this]
  split at hr
  · cases hr
  rename_i h0 h1
  rw [if_neg h0, if_neg h1]
  obtain ⟨r', e, h'⟩ := rejectionLoop_rel v fuel 0 [] [] s ⟨.nil, .nil, by simp, by simp, by simp⟩ hr
  rw [e]
  congr 1
  apply inc_ext h'.inc' h.inc'
  intro x
  constructor
  · intro hx
    have := (h'.mem (σ.symm ⟨x, h'.lt' x hx⟩)).mpr (by simpa using hx)
    simpa using (h.mem _).mp this
  · intro hx
    have := (h.mem (σ.symm ⟨x, h.lt' x hx⟩)).mpr (by simpa using hx)
    simpa using (h'.mem _).mp this

theorem rejection_drawOf {R n N : Nat} (v : Fin R → Fin n → Fin N) (r : List Nat) (h : rejection n N (drawOf v) R = .ok r) : IsSample n N r := by
  have key : ∀ fuel i s r, i + fuel = R → StrictInc s → s.length ≤ n → (∀ x ∈ s, x < N) → rejectionLoop n (drawOf v) fuel i s = .ok r → IsSample n N r := by
    intro fuel
    induction fuel with
    | zero =>
      intro i s r hR h1 h2 h3 hr
      rw [rejectionLoop] at hr
      split at hr
      · cases hr
      · cases hr; exact ⟨by omega, h1, h3⟩
    | succ fuel ih =>
      intro i s r hR h1 h2 h3 hr
      rw [rejectionLoop] at hr
      split at hr
      · obtain ⟨u1, u2, u3, u4⟩ := union1d_spec (drawOf v i (n - s.length)) s h1
        have hl : (drawOf v i (n - s.length)).length ≤ n - s.length := by
          unfold drawOf
          split
          · simp
          · simp
        refine ih _ _ _ (by omega) u1 (by omega) ?_ hr
        intro x hx
        rcases (u2 x).mp hx with hx | hx
        · exact h3 x hx
        · exact drawOf_lt v _ _ x hx
      · cases hr; exact ⟨by omega, h1, h3⟩
  unfold rejection at h
  split at h
  · cases h; rename_i h0; subst h0; exact ⟨rfl, .nil, by simp⟩
  split at h
  · cases h
  exact key R 0 [] r (by omega) .nil (by simp) (by simp) h

/-- any two samples of the same size are images of each other -/
theorem rel_exists {n N : Nat} {s s' : List Nat} (h : IsSample n N s) (h' : IsSample n N s') : ∃ σ : Equiv.Perm (Fin N), Rel σ s s' := by
  obtain ⟨l1, i1, b1⟩ := h
  obtain ⟨l2, i2, b2⟩ := h'
  obtain ⟨σ, hσ⟩ := Equiv.Perm.exists_map_finset_eq (Finset.univ.filter (fun x : Fin N => x.val ∈ s)) (Finset.univ.filter (fun x : Fin N => x.val ∈ s'))
    (by rw [← inc_card i1 b1, ← inc_card i2 b2, l1, l2])
  refine ⟨σ, i1, i2, b1, b2, ?_⟩
  intro x
  have : σ x ∈ (Finset.univ.filter (fun x : Fin N => x.val ∈ s')) ↔ x ∈ (Finset.univ.filter (fun x : Fin N => x.val ∈ s)) := by
    rw [← hσ]
    simp
  simpa using this.symm

/-! ### the number of rounds -/

theorem rejectionLoop_shift (n : Nat) (draw : Nat → Nat → List Nat) : ∀ fuel i s,
    rejectionLoop n draw fuel (i + 1) s = rejectionLoop n (fun j => draw (j + 1)) fuel i s := by
  intro fuel
  induction fuel with
  | zero => intro i s; rw [rejectionLoop, rejectionLoop]
  | succ fuel ih => intro i s; rw [rejectionLoop, rejectionLoop, ih]

theorem drawOf_cons {R n N : Nat} (w : Fin n → Fin N) (v : Fin R → Fin n → Fin N) (i k : Nat) :
    drawOf (Fin.cons w v : Fin (R + 1) → Fin n → Fin N) (i + 1) k = drawOf v i k := by
  unfold drawOf
  by_cases h : i < R
  · rw [dif_pos h, dif_pos (by omega)]
    rfl
  · rw [dif_neg h, dif_neg (by omega)]

theorem drawOf_cons_zero {R n N : Nat} (w : Fin n → Fin N) (v : Fin R → Fin n → Fin N) (k : Nat) :
    drawOf (Fin.cons w v : Fin (R + 1) → Fin n → Fin N) 0 k = ((List.ofFn w).take k).map Fin.val := by
  unfold drawOf
  rw [dif_pos (by omega)]
  rfl

/-- number of tables of draws for which the sample is not complete after their `R` rounds -/
noncomputable def nbOpen (R n N : Nat) (s : List Nat) : Nat :=
  (Finset.univ.filter (fun v : Fin R → Fin n → Fin N => rejectionLoop n (drawOf v) R 0 s = .error .diverge)).card

theorem nbOpen_zero (n N : Nat) (s : List Nat) : nbOpen 0 n N s ≤ if s.length < n then 1 else 0 := by
  unfold nbOpen
  split
  · refine (Finset.card_filter_le _ _).trans ?_
    simp
  · rename_i h
    rw [Nat.le_zero, Finset.card_eq_zero, Finset.filter_eq_empty_iff]
    intro v _
    rw [rejectionLoop, if_neg (by omega)]
    simp

theorem nbOpen_succ (R n N : Nat) (s : List Nat) (h : s.length < n) :
    nbOpen (R + 1) n N s = ∑ w : Fin n → Fin N, nbOpen R n N (union1d s (((List.ofFn w).take (n - s.length)).map Fin.val)) := by
  unfold nbOpen
  rw [Finset.card_filter]
  rw [← Equiv.sum_comp (Fin.consEquiv (fun _ : Fin (R + 1) => Fin n → Fin N)), Fintype.sum_prod_type]
  apply Finset.sum_congr rfl
  intro w _
  rw [Finset.card_filter]
  apply Finset.sum_congr rfl
  intro v _
  have e : rejectionLoop n (drawOf ((Fin.consEquiv (fun _ : Fin (R + 1) => Fin n → Fin N)) (w, v))) (R + 1) 0 s =
      rejectionLoop n (drawOf v) R 0 (union1d s (((List.ofFn w).take (n - s.length)).map Fin.val)) := by
    rw [rejectionLoop, if_pos (by omega)]
    rw [rejectionLoop_shift]
    rw [show (Fin.consEquiv (fun _ : Fin (R + 1) => Fin n → Fin N)) (w, v) = (Fin.cons w v : Fin (R + 1) → Fin n → Fin N) from rfl]
    rw [drawOf_cons_zero]
    congr 1
    funext j k
    exact drawOf_cons w v j k
  rw [e]

theorem nbOpen_done (R n N : Nat) (s : List Nat) (h : n ≤ s.length) : nbOpen R n N s = 0 := by
  unfold nbOpen
  rw [Finset.card_eq_zero, Finset.filter_eq_empty_iff]
  intro v _
  rw [rejectionLoop.eq_def]
  dsimp only
  rw [if_neg (by omega)]
  simp

theorem nbOpen_bound (n N : Nat) (hN : n ≤ N) : ∀ R (s : List Nat), StrictInc s → (∀ x ∈ s, x < N) →
    (nbOpen R n N s : ℚ) ≤ 2 ^ (n - s.length) * ((1 - 1 / (2 * N)) * N ^ n) ^ R := by
  intro R
  induction R with
  | zero =>
    intro s _ _
    have := nbOpen_zero n N s
    have h : nbOpen 0 n N s ≤ 1 := this.trans (by split <;> omega)
    have h' : (nbOpen 0 n N s : ℚ) ≤ 1 := by exact_mod_cast h
    rw [pow_zero, mul_one]
    exact h'.trans (one_le_pow₀ (by norm_num))
  | succ R ih =>
    intro s hi hb
    by_cases hs : n ≤ s.length
    · rw [nbOpen_done _ _ _ _ hs]
      push_cast
      have hN0 : (0 : ℚ) ≤ 1 - 1 / (2 * N) := by
        rcases Nat.eq_zero_or_pos N with rfl | hp
        · simp
        · have : (1 : ℚ) ≤ N := by exact_mod_cast hp
          rw [sub_nonneg, div_le_one (by positivity)]
          linarith
      positivity
    have hs : s.length < n := by omega
    have hN1 : 0 < N := by omega
    have hNq : (1 : ℚ) ≤ N := by exact_mod_cast hN1
    rw [nbOpen_succ R n N s hs]
    push_cast
    obtain ⟨k, rfl⟩ : ∃ k, n = k + 1 := ⟨n - 1, by omega⟩
    set c : ℚ := ((1 - 1 / (2 * N)) * N ^ (k + 1)) ^ R with hc
    have hc0 : 0 ≤ c := by
      apply pow_nonneg
      apply mul_nonneg _ (by positivity)
      rw [sub_nonneg, div_le_one (by positivity)]
      linarith
    -- each row
    have row : ∀ w : Fin (k + 1) → Fin N, (nbOpen R (k + 1) N (union1d s (((List.ofFn w).take (k + 1 - s.length)).map Fin.val)) : ℚ) ≤
        2 ^ (k + 1 - s.length) * c * (if (w 0).val ∈ s then 1 else 1 / 2) := by
      intro w
      obtain ⟨a1, a2, a3, -⟩ := union1d_spec (((List.ofFn w).take (k + 1 - s.length)).map Fin.val) s hi
      have hlt : ∀ x ∈ union1d s (((List.ofFn w).take (k + 1 - s.length)).map Fin.val), x < N := by
        intro x hx
        rcases (a2 x).mp hx with hx | hx
        · exact hb x hx
        · obtain ⟨y, -, rfl⟩ := List.mem_map.mp hx
          exact y.isLt
      have hw0 : (w 0).val ∈ union1d s (((List.ofFn w).take (k + 1 - s.length)).map Fin.val) := by
        rw [a2]
        right
        rw [List.mem_map]
        refine ⟨w 0, ?_, rfl⟩
        rw [List.ofFn_succ, show k + 1 - s.length = (k - s.length) + 1 by omega, List.take_succ_cons]
        simp
      have := ih _ a1 hlt
      generalize hu : union1d s (((List.ofFn w).take (k + 1 - s.length)).map Fin.val) = u at this hw0 a1 a2 a3 hlt ⊢
      split
      · rw [mul_one]
        refine this.trans (mul_le_mul_of_nonneg_right ?_ hc0)
        exact pow_le_pow_right₀ (by norm_num) (by omega)
      · rename_i hn
        have hlen : s.length + 1 ≤ u.length := by
          have h1 : (w 0).val :: s ⊆ u := by
            intro x hx
            rcases List.mem_cons.mp hx with rfl | hx
            · exact hw0
            · exact (a2 x).mpr (.inl hx)
          have hnd : ((w 0).val :: s).Nodup := List.nodup_cons.mpr ⟨hn, hi.imp (fun h => Nat.ne_of_lt h)⟩
          have := (List.subperm_of_subset hnd h1).length_le
          simpa using this
        refine this.trans ?_
        rw [mul_right_comm]
        refine mul_le_mul_of_nonneg_right ?_ hc0
        rw [show k + 1 - s.length = (k - s.length) + 1 by omega, pow_succ]
        have : (2 : ℚ) ^ (k - s.length) * 2 * (1 / 2) = 2 ^ (k - s.length) := by ring
        rw [this]
        exact pow_le_pow_right₀ (by norm_num) (by omega)
    refine (Finset.sum_le_sum (fun w _ => row w)).trans ?_
    rw [← Finset.mul_sum]
    -- the sum over the rows
    have hsum : (∑ w : Fin (k + 1) → Fin N, if (w 0).val ∈ s then (1 : ℚ) else 1 / 2) ≤ (1 - 1 / (2 * N)) * N ^ (k + 1) := by
      rw [← Equiv.sum_comp (Fin.consEquiv (fun _ : Fin (k + 1) => Fin N)), Fintype.sum_prod_type]
      have e : ∀ x : Fin N, (∑ y : (Fin k → Fin N), if ((Fin.consEquiv (fun _ : Fin (k + 1) => Fin N)) (x, y) 0).val ∈ s then (1 : ℚ) else 1 / 2) =
          (if x.val ∈ s then (1 : ℚ) else 1 / 2) * N ^ k := by
        intro x
        rw [show (∑ y : (Fin k → Fin N), if ((Fin.consEquiv (fun _ : Fin (k + 1) => Fin N)) (x, y) 0).val ∈ s then (1 : ℚ) else 1 / 2) =
          ∑ y : (Fin k → Fin N), if x.val ∈ s then (1 : ℚ) else 1 / 2 from rfl]
        rw [Finset.sum_const, Finset.card_univ, Fintype.card_fun, Fintype.card_fin, Fintype.card_fin, nsmul_eq_mul, mul_comm]
        push_cast
        rfl
      rw [Finset.sum_congr rfl (fun x _ => e x), ← Finset.sum_mul]
      have e2 : (∑ x : Fin N, if x.val ∈ s then (1 : ℚ) else 1 / 2) = N / 2 + s.length / 2 := by
        have h1 : (∑ x : Fin N, if x.val ∈ s then (1 : ℚ) else 1 / 2) = ∑ x : Fin N, ((1 / 2 : ℚ) + (1 / 2) * (if x.val ∈ s then 1 else 0)) := by
          apply Finset.sum_congr rfl
          intro x _
          split <;> norm_num
        rw [h1, Finset.sum_add_distrib, ← Finset.mul_sum, Finset.sum_const, Finset.card_univ, Fintype.card_fin, nsmul_eq_mul, Finset.sum_boole,
          ← inc_card hi hb]
        ring
      rw [e2, pow_succ, ← mul_assoc, mul_right_comm]
      refine mul_le_mul_of_nonneg_right ?_ (by positivity)
      have hsN : (s.length : ℚ) ≤ N - 1 := by
        have : s.length + 1 ≤ N := by omega
        have : ((s.length : ℚ) + 1) ≤ N := by exact_mod_cast this
        linarith
      have : (1 - 1 / (2 * (N : ℚ))) * N = N - 1 / 2 := by field_simp
      rw [this]
      linarith
    refine (mul_le_mul_of_nonneg_left hsum (mul_nonneg (by positivity) hc0)).trans ?_
    exact le_of_eq (by rw [hc]; ring)

end ABX.Sampler
