import Verif.Model.Sampler
import Mathlib.Tactic.Linarith
import Mathlib.Tactic.ByContra
namespace ABX.Sampler

/-- strictly increasing -/
abbrev StrictInc (l : List Nat) : Prop := l.Pairwise (· < ·)

theorem knuthLoop_ok (N n : Nat) (u : Nat → Nat) (hu : ∀ i, u i < 2 ^ 53) (fuel : Nat) : ∀ t m, m ≤ n → t ≤ N →
    n - m ≤ N - t → N - t ≤ fuel →
    ∃ s, knuthLoop N n u fuel t m = .ok s ∧ s.length = n - m ∧ StrictInc s ∧ ∀ x ∈ s, t ≤ x ∧ x < N := by
  induction fuel with
  | zero =>
    intro t m h1 h2 h3 h4
    refine ⟨[], ?_, by simp; omega, List.Pairwise.nil, by simp⟩
    unfold knuthLoop
    rw [if_neg (by omega)]
  | succ k ih =>
    intro t m h1 h2 h3 h4
    unfold knuthLoop
    by_cases hm : m < n
    · rw [if_pos hm]
      dsimp only
      by_cases hit : ((N : Int) - t) * u t < ((n : Int) - m) * 2 ^ 53
      · rw [if_pos hit]
        obtain ⟨s, e1, e2, e3, e4⟩ := ih (t + 1) (m + 1) (by omega) (by omega) (by omega) (by omega)
        refine ⟨t :: s, by rw [e1], by simp [e2]; omega, ?_, ?_⟩
        · rw [StrictInc, List.pairwise_cons]
          exact ⟨fun x hx => by have := e4 x hx; omega, e3⟩
        · intro x hx
          rcases List.mem_cons.mp hx with rfl | hx
          · omega
          · have := e4 x hx; omega
      · rw [if_neg hit]
        have hlt : n - m < N - t := by
          by_contra hc
          apply hit
          have e : (N : Int) - t = n - m := by omega
          rw [e]
          have hp : (0 : Int) < (n : Int) - m := by omega
          have := hu t
          have hu' : (u t : Int) < 2 ^ 53 := by exact_mod_cast this
          exact Int.mul_lt_mul_of_pos_left hu' hp
        obtain ⟨s, e1, e2, e3, e4⟩ := ih (t + 1) m h1 (by omega) (by omega) (by omega)
        exact ⟨s, e1, e2, e3, fun x hx => by have := e4 x hx; omega⟩
    · rw [if_neg hm]
      exact ⟨[], rfl, by simp; omega, List.Pairwise.nil, by simp⟩

theorem length_le_of_inc (N : Nat) : ∀ (s : List Nat) (t : Nat), StrictInc s → (∀ x ∈ s, t ≤ x ∧ x < N) →
    s.length ≤ N - t
  | [], _, _, _ => by simp
  | y :: ys, t, h1, h2 => by
    rw [StrictInc, List.pairwise_cons] at h1
    have hy := h2 y (by simp)
    have := length_le_of_inc N ys (y + 1) h1.2 (fun x hx => ⟨h1.1 x hx, (h2 x (by simp [hx])).2⟩)
    simp; omega

theorem knuthLoop_surj (N n : Nat) (hN : N ≤ 2 ^ 53) (fuel : Nat) (s0 : List Nat) :
    ∀ t m (s : List Nat), m ≤ n → t ≤ N → s.length = n - m → StrictInc s → (∀ x ∈ s, t ≤ x ∧ x < N) →
    (∀ x, t ≤ x → (x ∈ s0 ↔ x ∈ s)) → N - t ≤ fuel →
    knuthLoop N n (fun i => if i ∈ s0 then 0 else 2 ^ 53 - 1) fuel t m = .ok s := by
  induction fuel with
  | zero =>
    intro t m s h1 h2 h3 h4 h5 h6 h7
    have := length_le_of_inc N s t h4 h5
    have hs : s = [] := List.length_eq_zero_iff.mp (by omega)
    subst hs
    simp at h3
    unfold knuthLoop
    rw [if_neg (by omega)]
  | succ k ih =>
    intro t m s h1 h2 h3 h4 h5 h6 h7
    unfold knuthLoop
    by_cases hm : m < n
    · rw [if_pos hm]
      have hlen := length_le_of_inc N s t h4 h5
      dsimp only
      by_cases ht : t ∈ s0
      · have hts : t ∈ s := (h6 t (by omega)).mp ht
        cases s with
        | nil => simp at hts
        | cons y ys =>
          have hy : y = t := by
            rw [StrictInc, List.pairwise_cons] at h4
            rcases List.mem_cons.mp hts with h | h
            · exact h.symm
            · have := h4.1 t h; have := (h5 y (by simp)).1; omega
          subst hy
          rw [StrictInc, List.pairwise_cons] at h4
          rw [if_pos (by simp only [ht, if_true]; simp; omega)]
          rw [ih (y + 1) (m + 1) ys (by omega) (by have := (h5 y (by simp)).2; omega) (by simp at h3; omega) h4.2
            (fun x hx => ⟨h4.1 x hx, (h5 x (by simp [hx])).2⟩) ?_ (by omega)]
          intro x hx
          rw [h6 x (by omega), List.mem_cons]
          constructor
          · rintro (h | h)
            · omega
            · exact h
          · exact Or.inr
      · have hts : t ∉ s := fun h => ht ((h6 t (by omega)).mpr h)
        have h5' : ∀ x ∈ s, t + 1 ≤ x ∧ x < N := by
          intro x hx
          have := h5 x hx
          have : x ≠ t := fun h => hts (h ▸ hx)
          omega
        have hlen' := length_le_of_inc N s (t + 1) h4 h5'
        rw [if_neg]
        · exact ih (t + 1) m s h1 (by omega) h3 h4 h5' (fun x hx => h6 x (by omega)) (by omega)
        · simp only [ht, if_false]
          have a1 : (n : Int) - m + 1 ≤ N - t := by omega
          have a2 : (N : Int) - t ≤ 2 ^ 53 := by
            have : (N : Int) ≤ 2 ^ 53 := by exact_mod_cast hN
            omega
          have a3 : ((2 ^ 53 - 1 : Nat) : Int) = 2 ^ 53 - 1 := by norm_num
          rw [a3]
          generalize (N : Int) - t = p at *
          generalize (n : Int) - m = q at *
          norm_num at a2 ⊢
          nlinarith
    · rw [if_neg hm]
      have : s = [] := List.length_eq_zero_iff.mp (by omega)
      rw [this]

/-! rejection sampling -/

theorem mem_insertSet (x y : Nat) (l : List Nat) : y ∈ insertSet x l ↔ y = x ∨ y ∈ l := by
  induction l with
  | nil => simp [insertSet]
  | cons z zs ih =>
    unfold insertSet
    split
    · simp
    · split
      · next h => subst h; simp
      · simp [ih]; tauto

theorem insertSet_inc (x : Nat) (l : List Nat) (h : StrictInc l) : StrictInc (insertSet x l) := by
  induction l with
  | nil => simp [insertSet]
  | cons z zs ih =>
    rw [StrictInc, List.pairwise_cons] at h
    unfold insertSet
    split
    · next hx =>
      rw [StrictInc, List.pairwise_cons, List.pairwise_cons]
      exact ⟨fun y hy => by
        rcases List.mem_cons.mp hy with rfl | hy
        · exact hx
        · have := h.1 y hy; omega, h.1, h.2⟩
    · split
      · rw [StrictInc, List.pairwise_cons]; exact h
      · rw [StrictInc, List.pairwise_cons]
        refine ⟨fun y hy => ?_, ih h.2⟩
        rcases (mem_insertSet x y zs).mp hy with rfl | hy
        · omega
        · exact h.1 y hy

theorem insertSet_length (x : Nat) (l : List Nat) : l.length ≤ (insertSet x l).length ∧
    (insertSet x l).length ≤ l.length + 1 := by
  induction l with
  | nil => simp [insertSet]
  | cons z zs ih =>
    unfold insertSet
    split
    · simp
    · split
      · simp
      · simp; omega

theorem union1d_spec (new : List Nat) : ∀ s, StrictInc s → StrictInc (union1d s new) ∧
    (∀ x, x ∈ union1d s new ↔ x ∈ s ∨ x ∈ new) ∧ s.length ≤ (union1d s new).length ∧
    (union1d s new).length ≤ s.length + new.length := by
  induction new with
  | nil => intro s h; simp [union1d, h]
  | cons y ys ih =>
    intro s h
    have hu : union1d s (y :: ys) = union1d (insertSet y s) ys := rfl
    obtain ⟨i1, i2, i3, i4⟩ := ih (insertSet y s) (insertSet_inc y s h)
    have hl := insertSet_length y s
    rw [hu]
    refine ⟨i1, fun x => ?_, by omega, by simp; omega⟩
    rw [i2, mem_insertSet]; simp; tauto

theorem rejectionLoop_inv (n N : Nat) (draw : Nat → Nat → List Nat) (hl : ∀ i k, (draw i k).length = k)
    (hd : ∀ i k, ∀ x ∈ draw i k, x < N) (fuel : Nat) : ∀ i s r, StrictInc s → s.length ≤ n → (∀ x ∈ s, x < N) →
    rejectionLoop n draw fuel i s = .ok r →
    StrictInc r ∧ r.length = n ∧ (∀ x ∈ r, x < N) ∧ ∀ x ∈ s, x ∈ r := by
  induction fuel with
  | zero =>
    intro i s r h1 h2 h3 h
    unfold rejectionLoop at h
    by_cases c : n - s.length > 0
    · rw [if_pos c] at h; cases h
    · rw [if_neg c] at h; cases h; exact ⟨h1, by omega, h3, fun _ hx => hx⟩
  | succ k ih =>
    intro i s r h1 h2 h3 h
    unfold rejectionLoop at h
    by_cases c : n - s.length > 0
    · rw [if_pos c] at h
      obtain ⟨u1, u2, u3, u4⟩ := union1d_spec (draw i (n - s.length)) s h1
      rw [hl] at u4
      obtain ⟨r1, r2, r3, r4⟩ := ih _ _ r u1 (by omega) (by
        intro x hx
        rcases (u2 x).mp hx with hx | hx
        · exact h3 x hx
        · exact hd _ _ x hx) h
      exact ⟨r1, r2, r3, fun x hx => r4 x ((u2 x).mpr (Or.inl hx))⟩
    · rw [if_neg c] at h; cases h; exact ⟨h1, by omega, h3, fun _ hx => hx⟩

/-! hypergeometric -/

theorem hyperLoop_range (prop : Nat → Int × Bool) (upper : Int) (fuel : Nat) : ∀ i k,
    hyperLoop prop upper fuel i = .ok k → 0 ≤ k ∧ k < upper := by
  induction fuel with
  | zero => intro i k h; simp [hyperLoop] at h
  | succ f ih =>
    intro i k h
    unfold hyperLoop at h
    by_cases c : (prop i).1 < 0 ∨ (prop i).1 ≥ upper
    · rw [if_pos c] at h; exact ih _ _ h
    · rw [if_neg c] at h
      by_cases d : (prop i).2
      · rw [if_pos d] at h; cases h; omega
      · rw [if_neg d] at h; exact ih _ _ h

theorem hypergeometric_range (N K n : Int) (src : Src) (hK : 0 ≤ K) (hKN : K ≤ N) (hn : 0 ≤ n) (hnN : n ≤ N)
    (hne : ¬ (N = 1 ∧ n = 0 ∧ K = 1)) (k : Int) (h : hypergeometric N K n src = .ok k)
    : max 0 (n + K - N) ≤ k ∧ k ≤ min n K := by
  unfold hypergeometric at h
  by_cases c : N = 0 ∨ N = 1
  · rw [if_pos c] at h; cases h; omega
  · rw [if_neg c] at h
    simp only at h
    split at h
    · cases h
    · next k0 hk0 =>
      have := hyperLoop_range _ _ _ _ _ hk0
      cases h
      split <;> split <;> omega

/-! simple and incremental sampling -/

theorem swr_ok (n N : Nat) (src : Src) (hl : src.Lawful) (hn : n ≤ N) (s : List Nat)
    (h : sampleWithoutReplacement n N src = .ok s) : s.length = n ∧ StrictInc s ∧ ∀ x ∈ s, x < N := by
  unfold sampleWithoutReplacement at h
  by_cases c : N > 100 ∧ 10 * n < 6 * N
  · rw [if_pos c] at h
    unfold rejection at h
    by_cases h0 : n = 0
    · rw [if_pos h0] at h; cases h; simp [h0]
    · rw [if_neg h0, if_neg (by omega)] at h
      obtain ⟨r1, r2, r3, _⟩ := rejectionLoop_inv n N (src.draw N) (hl.drawLen N) (fun i k => hl.drawLt N i k (by omega)) src.fuel 0 [] s
        List.Pairwise.nil (by simp) (by simp) h
      exact ⟨r2, r1, r3⟩
  · rw [if_neg c] at h
    unfold knuth at h
    -- more fuel than needed changes nothing: compare with the run with enough fuel
    have mono : ∀ (f t m : Nat) (r : List Nat), knuthLoop N n src.u f t m = .ok r → ∀ g, f ≤ g →
        knuthLoop N n src.u g t m = .ok r := by
      intro f
      induction f with
      | zero =>
        intro t m r hr g _
        unfold knuthLoop at hr ⊢
        by_cases hm : m < n
        · rw [if_pos hm] at hr; cases hr
        · rw [if_neg hm] at hr ⊢; exact hr
      | succ f ih =>
        intro t m r hr g hg
        obtain ⟨g, rfl⟩ : ∃ g', g = g' + 1 := ⟨g - 1, by omega⟩
        unfold knuthLoop at hr ⊢
        by_cases hm : m < n
        · rw [if_pos hm] at hr ⊢
          dsimp only at hr ⊢
          by_cases hit : ((N : Int) - t) * src.u t < ((n : Int) - m) * 2 ^ 53
          · rw [if_pos hit] at hr ⊢
            cases hq : knuthLoop N n src.u f (t + 1) (m + 1) with
            | error e => rw [hq] at hr; cases hr
            | ok q => rw [hq] at hr; rw [ih _ _ q hq g (by omega)]; exact hr
          · rw [if_neg hit] at hr ⊢
            exact ih _ _ r hr g (by omega)
        · rw [if_neg hm] at hr ⊢; exact hr
    have h' := mono _ _ _ _ h (max src.fuel N) (by omega)
    obtain ⟨s', e1, e2, e3, e4⟩ := knuthLoop_ok N n src.u hl.u (max src.fuel N) 0 0 (by omega) (by omega) (by omega) (by omega)
    rw [h'] at e1; cases e1
    exact ⟨by simpa using e2, e3, fun x hx => (e4 x hx).2⟩

/-- the invariant of the sampler -/
structure ISInv (s : IS) : Prop where
  kn : s.K ≤ s.N
  ni : s.N ≤ s.initialN

/-- result of drawing from the next `n` items of state `s` (relative indices) -/
structure Drawn (s s' : IS) (n : Nat) (l : List Nat) : Prop where
  N : s'.N + n = s.N
  K : s'.K + l.length = s.K
  inv : ISInv s'
  init : s'.initialN = s.initialN
  rel : s'.relative = s.relative
  inc : StrictInc l
  lt : ∀ x ∈ l, x < n

theorem simpleSample_ok (s : IS) (hs : ISInv s) (n : Nat) (hn : n ≤ s.N) (hne : ¬ (s.N = 1 ∧ n = 0 ∧ s.K = 1))
    (src : Src) (hl : src.Lawful) (s' : IS) (l : List Nat)
    (h : s.simpleSample n src = .ok (s', l)) : Drawn s s' n l := by
  unfold IS.simpleSample at h
  cases hk : hypergeometric s.N s.K n src with
  | error e => rw [hk] at h; cases h
  | ok k =>
    rw [hk] at h
    have hkn := hs.kn
    have hr := hypergeometric_range s.N s.K n src (by omega) (by omega) (by omega) (by omega) (by omega) k hk
    dsimp only at h
    cases hw : sampleWithoutReplacement k.toNat n src with
    | error e => rw [hw] at h; cases h
    | ok l' =>
      rw [hw] at h
      cases h
      obtain ⟨w1, w2, w3⟩ := swr_ok k.toNat n src hl (by omega) _ hw
      have := hs.ni
      exact ⟨by simp; omega, by simp; omega, ⟨by simp; omega, by simp; omega⟩, rfl, rfl, w2, w3⟩

theorem StrictInc.append_shift {l r : List Nat} {a : Nat} (hl : StrictInc l) (hr : StrictInc r)
    (h1 : ∀ x ∈ l, x < a) (h2 : ∀ x ∈ r, a ≤ x) : StrictInc (l ++ r) := by
  rw [StrictInc, List.pairwise_append]
  exact ⟨hl, hr, fun x hx y hy => by have := h1 x hx; have := h2 y hy; omega⟩

theorem StrictInc.map_add {l : List Nat} (a : Nat) (hl : StrictInc l) : StrictInc (l.map (· + a)) := by
  rw [StrictInc, List.pairwise_map]
  exact hl.imp (by intro x y h; omega)

theorem chunks_ok (c : Nat) (hc : 0 < c) (src : Nat → Src) (hl : ∀ i, (src i).Lawful) (fuel : Nat) :
    ∀ (s : IS) (n i : Nat), ISInv s → n ≤ s.N →
    ∀ s' l, IS.chunks src c fuel s n i = .ok (s', l) →
    ∃ l0, l = l0.map (· + i * c) ∧ Drawn s s' n l0 := by
  induction fuel with
  | zero =>
    intro s n i hs hn s' l h
    unfold IS.chunks at h
    by_cases h0 : n > 0
    · rw [if_pos h0] at h; cases h
    · rw [if_neg h0] at h; cases h
      exact ⟨[], rfl, ⟨by omega, by simp, hs, rfl, rfl, List.Pairwise.nil, by simp⟩⟩
  | succ f ih =>
    intro s n i hs hn s' l h
    unfold IS.chunks at h
    by_cases h0 : n > 0
    · rw [if_pos h0] at h
      dsimp only at h
      cases h1 : s.simpleSample (min c n) (src i) with
      | error e => rw [h1] at h; cases h
      | ok p =>
        obtain ⟨s1, l1⟩ := p
        rw [h1] at h
        dsimp only at h
        cases h2 : IS.chunks src c f s1 (n - min c n) (i + 1) with
        | error e => rw [h2] at h; cases h
        | ok q =>
          obtain ⟨s2, l2⟩ := q
          rw [h2] at h
          cases h
          have d1 := simpleSample_ok s hs (min c n) (by omega) (by omega) (src i)
            (hl i) s1 l1 h1
          obtain ⟨l20, e1, d2⟩ := ih s1 (n - min c n) (i + 1) d1.inv (by have := d1.N; omega) _ l2 h2
          have hz : l20 ≠ [] → c ≤ n := by
            intro hne
            by_contra hcn
            cases l20 with
            | nil => exact hne rfl
            | cons x xs =>
              have := d2.lt x (by simp)
              omega
          refine ⟨l1 ++ l20.map (· + c), ?_, ?_⟩
          · rw [e1, List.map_append, List.map_map]
            congr 1
            apply List.map_congr_left
            intro x _
            simp only [Function.comp, Nat.add_mul, Nat.one_mul]
            omega
          · refine ⟨?_, ?_, d2.inv, d2.init.trans d1.init, d2.rel.trans d1.rel, ?_, ?_⟩
            · have := d1.N; have := d2.N; omega
            · have := d1.K; have := d2.K; simp; omega
            · refine StrictInc.append_shift d1.inc (d2.inc.map_add c) (a := c) ?_ ?_
              · intro x hx; have := d1.lt x hx; omega
              · intro x hx; simp at hx; omega
            · intro x hx
              rcases List.mem_append.mp hx with hx | hx
              · have := d1.lt x hx; omega
              · obtain ⟨y, hy, rfl⟩ := List.mem_map.mp hx
                have h3 := d2.lt y hy
                have h4 := hz (List.ne_nil_of_mem hy)
                omega
    · rw [if_neg h0] at h; cases h
      exact ⟨[], rfl, ⟨by omega, by simp, hs, rfl, rfl, List.Pairwise.nil, by simp⟩⟩

end ABX.Sampler
