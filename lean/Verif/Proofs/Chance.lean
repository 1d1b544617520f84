import Mathlib.Algebra.BigOperators.Field
import Mathlib.Algebra.Order.BigOperators.Ring.Finset
import Mathlib.Tactic.FieldSimp
import Mathlib.Tactic.Linarith
import Verif.Spec.Chance
import Verif.Proofs.Transport
/-!
Lemmas for C105: the mean score of distances that carry no information.
-/
namespace ABX.Spec
open SideOps Analyze F64
variable {δ ι : Type} {on : String} {across : List String} {val : Line → String → Option Val} {lt : δ → δ → Bool} {L : List Line}

/-- the three lines of a triplet are different -/
theorem lineGroup_different (hn : (L.map (·.2)).Nodup) {l : Labels} (hl : l.Possible across) {t : Line × Line × Line} (h : t ∈ lineGroup val on across L l) :
    t.1.2 ≠ t.2.1.2 ∧ t.2.2.2 ≠ t.1.2 ∧ t.2.2.2 ≠ t.2.1.2 := by
  have m := mem_lineGroup h
  obtain ⟨⟨a1, a2, a3⟩, ⟨b1, b2, b3⟩, ⟨x1, x2, x3⟩⟩ := m
  refine ⟨?_, ?_, ?_⟩
  · intro he
    rw [List.inj_on_of_nodup_map hn a1 b1 he, b2] at a2
    exact hl.1 (Option.some.inj a2).symm
  · intro he
    have hxa := List.inj_on_of_nodup_map hn x1 a1 he
    unfold lineGroup at h
    simp only [List.mem_flatMap, List.mem_map] at h
    obtain ⟨A, hA, B, hB, X, hX, rfl⟩ := h
    have hX := (List.mem_filter.mp hX).2
    cases across with
    | nil => simp at hX; exact hX he
    | cons c cs =>
      have h1 := x3 c (by simp)
      rw [hxa, a3 c (by simp)] at h1
      exact hl.2 c (by simp) (Option.some.inj h1)
  · intro he
    rw [List.inj_on_of_nodup_map hn x1 b1 he, b2] at x2
    exact hl.1 (Option.some.inj x2).symm

theorem abx_nearer (ho : ∀ x y, lt x y = true → lt y x = false) {dist : Line → Line → Except Err δ} {t : Line × Line × Line} {q : ℚ} (h : IsLineAbx lt dist t q) :
    q = 1 / 2 + ((if nearer lt dist t.1 t.2.1 t.2.2 then 1 else 0) - (if nearer lt dist t.2.1 t.1 t.2.2 then 1 else 0)) / 2 := by
  obtain ⟨d1, d2, e1, e2, rfl⟩ := h
  unfold nearer
  rw [e1, e2]
  dsimp only
  by_cases h1 : lt d1 d2 = true
  · have h2 : ¬ lt d2 d1 = true := by rw [ho _ _ h1]; exact Bool.false_ne_true
    rw [if_pos h1, if_pos h1, if_neg h2]
    norm_num
  · by_cases h2 : lt d2 d1 = true
    · rw [if_neg h1, if_pos h2, if_neg h1, if_pos h2]
      norm_num
    · rw [if_neg h1, if_neg h2, if_neg h1, if_neg h2]
      norm_num

section
variable [Fintype ι] {w : ι → ℚ} {dist : ι → Line → Line → Except Err δ}

/-- the expected score of a triplet -/
theorem Uninformative.triplet (U : Uninformative w lt dist L) (ho : ∀ x y, lt x y = true → lt y x = false) {t : Line × Line × Line} (h1 : t.1 ∈ L) (h2 : t.2.1 ∈ L) (h3 : t.2.2 ∈ L)
    (h12 : t.1.2 ≠ t.2.1.2) (h31 : t.2.2.2 ≠ t.1.2) (h32 : t.2.2.2 ≠ t.2.1.2) {q : ι → ℚ} (hq : ∀ i, IsLineAbx lt (dist i) t (q i)) : ∑ i, w i * q i = 1 / 2 := by
  have e : ∀ i, w i * q i = w i * (1 / 2) + ((if nearer lt (dist i) t.1 t.2.1 t.2.2 then w i else 0) - (if nearer lt (dist i) t.2.1 t.1 t.2.2 then w i else 0)) * (1 / 2) := by
    intro i
    rw [abx_nearer ho (hq i)]
    split <;> split <;> ring
  rw [Finset.sum_congr rfl (fun i _ => e i), Finset.sum_add_distrib, ← Finset.sum_mul, ← Finset.sum_mul, Finset.sum_sub_distrib, U.total, U.even _ h1 _ h2 _ h3 h12 h31 h32]
  ring

theorem sum_list_swap {τ : Type} (w : ι → ℚ) (g : ι → τ → ℚ) : ∀ ts : List τ, ∑ i, w i * (ts.map (g i)).sum = (ts.map (fun t => ∑ i, w i * g i t)).sum
  | [] => by simp
  | t :: ts => by
    simp only [List.map_cons, List.sum_cons, mul_add, Finset.sum_add_distrib]
    rw [sum_list_swap w g ts]

/-- the expected score of a group is 1/2, and so is that of a row up to the rounding -/
theorem Uninformative.row (U : Uninformative w lt dist L) (hn : (L.map (·.2)).Nodup) (ho : ∀ x y, lt x y = true → lt y x = false) {l : Labels} (hl : l.Possible across)
    (hne : lineGroup val on across L l ≠ []) {abx : ι → Line × Line × Line → ℚ} (ha : ∀ i, ∀ t ∈ lineGroup val on across L l, IsLineAbx lt (dist i) t (abx i t))
    {vars : ι → List Var} {key : List Val} {o : ι → OutRow} (hr : ∀ i, PlainRow on (vars i) key (lineGroup val on across L) (abx i) l (o i)) : |∑ i, w i * (o i).score - 1 / 2| ≤ 2 ^ (-52 : ℤ) := by
  have hm : ∑ i, w i * (((lineGroup val on across L l).map (abx i)).sum / (o i).n) = 1 / 2 := by
    have e : ∀ i, w i * (((lineGroup val on across L l).map (abx i)).sum / (o i).n) = w i * ((lineGroup val on across L l).map (abx i)).sum / ((lineGroup val on across L l).length : ℚ) := by
      intro i
      rw [(hr i).n, mul_div_assoc]
    rw [Finset.sum_congr rfl (fun i _ => e i), ← Finset.sum_div, sum_list_swap]
    have e2 : (lineGroup val on across L l).map (fun t => ∑ i, w i * abx i t) = (lineGroup val on across L l).map (fun _ => (1 / 2 : ℚ)) := by
      apply List.map_congr_left
      intro t ht
      obtain ⟨m1, m2, m3⟩ := mem_lineGroup ht
      obtain ⟨d1, d2, d3⟩ := lineGroup_different hn hl ht
      exact U.triplet ho m1.1 m2.1 m3.1 d1 d2 d3 (fun i => ha i t ht)
    have hlen : ((lineGroup val on across L l).length : ℚ) ≠ 0 := by
      exact_mod_cast (List.length_pos_iff.mpr hne).ne'
    rw [e2, List.map_const', List.sum_replicate, nsmul_eq_mul]
    field_simp
  rw [← hm, ← Finset.sum_sub_distrib]
  refine (Finset.abs_sum_le_sum_abs _ _).trans ?_
  calc ∑ i, |w i * (o i).score - w i * (((lineGroup val on across L l).map (abx i)).sum / (o i).n)| ≤ ∑ i, w i * 2 ^ (-52 : ℤ) := by
        refine Finset.sum_le_sum fun i _ => ?_
        rw [← mul_sub, abs_mul, abs_of_nonneg (U.nonneg i)]
        exact mul_le_mul_of_nonneg_left (hr i).score (U.nonneg i)
    _ = 2 ^ (-52 : ℤ) := by rw [← Finset.sum_mul, U.total, one_mul]

end

theorem uniform_total {α : Type} [Fintype α] [Nonempty α] : ∑ _i : α, (1 / (Fintype.card α : ℚ)) = 1 := by
  rw [Finset.sum_const, Finset.card_univ, nsmul_eq_mul, mul_one_div_cancel]
  exact_mod_cast Fintype.card_ne_zero

/-- features shuffled between the lines carry no information -/
theorem Shuffled.uninformative {n : Nat} {D : Fin n → Fin n → δ} {dist : Equiv.Perm (Fin n) → Line → Line → Except Err δ} (S : Shuffled D dist L) (hL : ∀ p ∈ L, p.2 < n) :
    Uninformative (fun _ => 1 / (Fintype.card (Equiv.Perm (Fin n)) : ℚ)) lt dist L := by
  refine ⟨fun _ => by positivity, uniform_total, ?_⟩
  intro A hA B hB X hX hAB hXA hXB
  refine Fintype.sum_equiv (Equiv.mulRight (Equiv.swap ⟨A.2, hL A hA⟩ ⟨B.2, hL B hB⟩)) _ _ fun π => ?_
  have e : nearer lt (dist (Equiv.mulRight (Equiv.swap (⟨A.2, hL A hA⟩ : Fin n) ⟨B.2, hL B hB⟩) π)) B A X = nearer lt (dist π) A B X := by
    unfold nearer
    rw [S _ B hB X hX ⟨B.2, hL B hB⟩ ⟨X.2, hL X hX⟩ rfl rfl, S _ A hA X hX ⟨A.2, hL A hA⟩ ⟨X.2, hL X hX⟩ rfl rfl, S π B hB X hX ⟨B.2, hL B hB⟩ ⟨X.2, hL X hX⟩ rfl rfl,
      S π A hA X hX ⟨A.2, hL A hA⟩ ⟨X.2, hL X hX⟩ rfl rfl]
    simp only [Equiv.coe_mulRight, Equiv.Perm.mul_apply, Equiv.swap_apply_left, Equiv.swap_apply_right]
    rw [Equiv.swap_apply_of_ne_of_ne (by simpa [Fin.ext_iff] using hXA) (by simpa [Fin.ext_iff] using hXB)]
  rw [e]

/-- distances dealt at random carry no information -/
theorem Dealt.uninformative {Ω : Type} [Fintype Ω] [DecidableEq Ω] {D : Ω → δ} {pair : Nat → Nat → Ω} {dist : Equiv.Perm Ω → Line → Line → Except Err δ} (S : Dealt D pair dist L) :
    Uninformative (fun _ => 1 / (Fintype.card (Equiv.Perm Ω) : ℚ)) lt dist L := by
  refine ⟨fun _ => by positivity, uniform_total, ?_⟩
  intro A hA B hB X hX hAB hXA hXB
  refine Fintype.sum_equiv (Equiv.mulRight (Equiv.swap (pair A.2 X.2) (pair B.2 X.2))) _ _ fun π => ?_
  have e : nearer lt (dist (Equiv.mulRight (Equiv.swap (pair A.2 X.2) (pair B.2 X.2)) π)) B A X = nearer lt (dist π) A B X := by
    unfold nearer
    rw [S _ B hB X hX, S _ A hA X hX, S π B hB X hX, S π A hA X hX]
    simp only [Equiv.coe_mulRight, Equiv.Perm.mul_apply, Equiv.swap_apply_left, Equiv.swap_apply_right]
  rw [e]

end ABX.Spec
