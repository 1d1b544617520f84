import Verif.Model.Distances
import Verif.Proofs.Score2
/-! Helper lemmas for the division of the pairs into jobs. -/
namespace ABX.Distances
open ExtSort ABX.Task Pairs

/-- the consecutive intervals of sizes `max` that cover `sta`..`sta + n` -/
theorem splitLoop_ok {max : Nat} (hm : 0 < max) : ∀ (fuel n sta : Nat), n ≤ fuel →
    ∃ ms : List Nat, splitLoop max fuel n sta = .ok (intervals sta ms) ∧ ms.sum = n ∧ ∀ m ∈ ms, 0 < m ∧ m ≤ max
  | fuel, n, sta, h => by
    unfold splitLoop
    by_cases h0 : 0 < n
    · rw [if_pos h0]
      cases fuel with
      | zero => omega
      | succ fuel =>
        dsimp only
        generalize ha : (if n > max then max else n) = amount
        have h1 : 0 < amount ∧ amount ≤ max ∧ amount ≤ n := by rw [← ha]; split <;> omega
        obtain ⟨ms, g1, g2, g3⟩ := splitLoop_ok hm fuel (n - amount) (sta + amount) (by omega)
        rw [g1]
        refine ⟨amount :: ms, rfl, by rw [List.sum_cons, g2]; omega, ?_⟩
        intro m hm
        rcases List.mem_cons.mp hm with rfl | hm
        · omega
        · exact g3 m hm
    · rw [if_neg h0]
      exact ⟨[], rfl, by simp; omega, by simp⟩

/-- position `i` is in exactly one of the intervals -/
theorem intervals_unique (ms : List Nat) : ∀ c i, c ≤ i → i < c + ms.sum →
    ((intervals c ms).filter (fun p => decide (p.1 ≤ i) && decide (i < p.2))).length = 1 := by
  induction ms with
  | nil => intro c i h1 h2; simp at h2; omega
  | cons m ms ih =>
    intro c i h1 h2
    rw [List.sum_cons] at h2
    rw [intervals, List.filter_cons]
    by_cases h : i < c + m
    · have hrest : (intervals (c + m) ms).filter (fun p => decide (p.1 ≤ i) && decide (i < p.2)) = [] := by
        rw [List.filter_eq_nil_iff]
        intro p hp
        have : c + m ≤ p.1 := by
          clear ih h1 h2 h
          generalize c + m = d at hp
          induction ms generalizing d with
          | nil => cases hp
          | cons k ms ih =>
            rw [intervals] at hp
            rcases List.mem_cons.mp hp with rfl | hp
            · exact Nat.le_refl _
            · have := ih _ hp; omega
        simp
        omega
      rw [if_pos (by simp; omega), hrest]
      rfl
    · rw [if_neg (by simp; omega)]
      exact ih (c + m) i (by omega) (by omega)

theorem intervals_bounds (ms : List Nat) : ∀ c, ∀ p ∈ intervals c ms, c ≤ p.1 ∧ p.1 ≤ p.2 ∧ p.2 ≤ c + ms.sum := by
  induction ms with
  | nil => intro c p hp; cases hp
  | cons m ms ih =>
    intro c p hp
    rw [intervals] at hp
    rw [List.sum_cons]
    rcases List.mem_cons.mp hp with rfl | hp
    · dsimp only; omega
    · have := ih _ p hp; omega

theorem intervals_size (ms : List Nat) : ∀ c, ((intervals c ms).map (fun p => p.2 - p.1)) = ms := by
  induction ms with
  | nil => intro c; rfl
  | cons m ms ih => intro c; rw [intervals, List.map_cons, ih]; congr 1; dsimp only; omega

/-- the blocks of a level -/
def blocksOf (float : Bool) (by_ : List Val) (ms : List Nat) : List Block := (intervals 0 ms).map (fun p => ⟨by_, p.1, p.2, float⟩)

theorem splitAll_ok {max : Nat} {float : Bool} : ∀ (ns : List (List Val × Nat)), (0 < max ∨ ∀ p ∈ ns, p.2 = 0) →
    ∃ mss : List (List Nat), splitAll max float ns = .ok ((List.zipWith (fun p ms => blocksOf float p.1 ms) ns mss).flatten) ∧
      List.Forall₂ (fun p ms => ms.sum = p.2 ∧ ∀ m ∈ ms, 0 < m ∧ m ≤ max) ns mss
  | [], _ => ⟨[], rfl, .nil⟩
  | (by_, n) :: rest, h => by
    have h1 : ∃ ms : List Nat, splitLoop max n n 0 = .ok (intervals 0 ms) ∧ ms.sum = n ∧ ∀ m ∈ ms, 0 < m ∧ m ≤ max := by
      rcases h with h | h
      · exact splitLoop_ok h n n 0 (Nat.le_refl _)
      · have := h (by_, n) (by simp)
        dsimp only at this
        subst this
        exact ⟨[], by unfold splitLoop; simp [intervals], rfl, by simp⟩
    obtain ⟨ms, g1, g2⟩ := h1
    obtain ⟨mss, k1, k2⟩ := splitAll_ok (max := max) (float := float) rest (by
      rcases h with h | h
      · exact Or.inl h
      · exact Or.inr (fun p hp => h p (by simp [hp])))
    refine ⟨ms :: mss, ?_, .cons g2 k2⟩
    unfold splitAll
    rw [g1]
    dsimp only
    rw [k1]
    rfl

theorem nPairs_ok {P : PairFile} : ∀ (bys : List (List Val)), (∀ b ∈ bys, ∃ v, P.attrs.lookup b = some v) →
    ∃ ns, nPairs P bys = .ok ns ∧ List.Forall₂ (fun b p => p.1 = b ∧ ∃ base start stop, P.attrs.lookup b = some (base, start, stop) ∧ p.2 = (stop - start).toNat) bys ns
  | [], _ => ⟨[], rfl, .nil⟩
  | b :: bys, h => by
    obtain ⟨⟨base, start, stop⟩, hv⟩ := h b (by simp)
    obtain ⟨ns, g1, g2⟩ := nPairs_ok bys (fun b hb => h b (by simp [hb]))
    refine ⟨(b, (stop - start).toNat) :: ns, ?_, .cons ⟨rfl, base, start, stop, hv, rfl⟩ g2⟩
    unfold nPairs
    rw [hv]
    dsimp only
    rw [g1]

/-! ### the assignment of the blocks to the cpus -/

theorem foldl_min_mem (l : List Nat) : ∀ m, l.foldl min m = m ∨ l.foldl min m ∈ l := by
  induction l with
  | nil => intro m; simp
  | cons y l ih =>
    intro m
    rw [List.foldl_cons]
    rcases ih (min m y) with h | h
    · rw [h]
      rcases Nat.le_total m y with hm | hm
      · rw [Nat.min_eq_left hm]; simp
      · rw [Nat.min_eq_right hm]; simp
    · right; simp [h]

theorem foldl_min_le (l : List Nat) : ∀ m, l.foldl min m ≤ m ∧ ∀ x ∈ l, l.foldl min m ≤ x := by
  induction l with
  | nil => intro m; simp
  | cons y l ih =>
    intro m
    rw [List.foldl_cons]
    obtain ⟨h1, h2⟩ := ih (min m y)
    refine ⟨by omega, ?_⟩
    intro x hx
    rcases List.mem_cons.mp hx with rfl | hx
    · omega
    · exact h2 x hx

theorem argmin_ok {loads : List Nat} (h : loads ≠ []) : ∃ c v, argmin loads = .ok c ∧ loads[c]? = some v ∧ ∀ x ∈ loads, v ≤ x := by
  cases loads with
  | nil => exact absurd rfl h
  | cons x xs =>
    have hmem : xs.foldl min x ∈ x :: xs := by
      rcases foldl_min_mem xs x with h | h
      · rw [h]; simp
      · simp [h]
    refine ⟨_, xs.foldl min x, rfl, ?_, ?_⟩
    · have hlt := List.idxOf_lt_length_iff.mpr hmem
      rw [List.getElem?_eq_getElem hlt, List.getElem_idxOf hlt]
    · intro y hy
      have := foldl_min_le xs x
      rcases List.mem_cons.mp hy with rfl | hy
      · exact this.1
      · exact this.2 y hy

/-- the load that the blocks `S` (positions) put on cpu `c` -/
def loadOn (sizes cpu : List Nat) (S : List Nat) (c : Nat) : Nat := (S.map (fun i => if cpu[i]? = some c then (sizes[i]?).getD 0 else 0)).sum

theorem assign_ok {sizes : List Nat} {M : Nat} (hM : ∀ n ∈ sizes, n ≤ M) : ∀ (order S cpu loads : List Nat), loads ≠ [] → cpu.length = sizes.length →
    (∀ i ∈ order, i < sizes.length) → (S ++ order).Nodup → (∀ i ∈ S, ∃ c, cpu[i]? = some c ∧ c < loads.length) →
    (∀ c, c < loads.length → loads[c]? = some (loadOn sizes cpu S c)) → (∀ x ∈ loads, ∀ y ∈ loads, x ≤ y + M) →
    ∃ cpu' loads', assign sizes order cpu loads = .ok (cpu', loads') ∧ loads'.length = loads.length ∧ cpu'.length = sizes.length ∧
      (∀ i ∈ S ++ order, ∃ c, cpu'[i]? = some c ∧ c < loads.length) ∧
      (∀ c, c < loads.length → loads'[c]? = some (loadOn sizes cpu' (S ++ order) c)) ∧ (∀ x ∈ loads', ∀ y ∈ loads', x ≤ y + M)
  | [], S, cpu, loads, _, hlen, _, _, hc, hl, hb => ⟨cpu, loads, rfl, rfl, hlen, by simpa using hc, by simpa using hl, hb⟩
  | i :: is, S, cpu, loads, hne, hlen, hi, hnd, hc, hl, hb => by
    obtain ⟨c, v, a1, a2, a3⟩ := argmin_ok hne
    have hil := hi i (by simp)
    have hn : sizes[i]? = some sizes[i] := List.getElem?_eq_getElem hil
    have hclt : c < loads.length := (List.getElem?_eq_some_iff.mp a2).1
    have hiS : i ∉ S := by
      intro h
      rw [List.nodup_append] at hnd
      exact hnd.2.2 i h i (by simp) rfl
    have hsame : ∀ j ∈ S, (cpu.set i c)[j]? = cpu[j]? := by
      intro j hj
      rw [List.getElem?_set_ne]
      rintro rfl
      exact hiS hj
    have hself : (cpu.set i c)[i]? = some c := by
      rw [List.getElem?_set_self (by omega)]
    obtain ⟨cpu', loads', r1, r2, r3, r4, r5, r6⟩ := assign_ok hM is (S ++ [i]) (cpu.set i c) (loads.set c (v + sizes[i])) (by
        intro h; apply hne; rw [← List.length_eq_zero_iff] at h ⊢; simpa using h)
      (by rw [List.length_set]; exact hlen) (fun j hj => hi j (by simp [hj])) (by simpa using hnd)
      (by
        intro j hj
        rw [List.length_set]
        rcases List.mem_append.mp hj with hj | hj
        · rw [hsame j hj]; exact hc j hj
        · rw [List.mem_singleton.mp hj]; exact ⟨c, hself, hclt⟩)
      (by
        intro k hk
        rw [List.length_set] at hk
        have hload : loadOn sizes (cpu.set i c) (S ++ [i]) k = loadOn sizes cpu S k + (if c = k then sizes[i] else 0) := by
          unfold loadOn
          rw [List.map_append, List.sum_append]
          congr 1
          · congr 1
            apply List.map_congr_left
            intro j hj
            rw [hsame j hj]
          · simp [hself, hn]
        rw [hload]
        by_cases hck : c = k
        · subst hck
          rw [List.getElem?_set_self hclt, if_pos rfl]
          have := hl c hclt
          rw [a2] at this
          injection this with this
          rw [this]
        · rw [List.getElem?_set_ne hck, if_neg hck, Nat.add_zero]
          exact hl k hk)
      (by
        intro x hx y hy
        have hs : sizes[i] ≤ M := hM _ (List.getElem_mem hil)
        rcases List.mem_or_eq_of_mem_set hx with hx | rfl
        · rcases List.mem_or_eq_of_mem_set hy with hy | rfl
          · exact hb x hx y hy
          · have := hb x hx v (List.mem_of_getElem? a2)
            omega
        · rcases List.mem_or_eq_of_mem_set hy with hy | rfl
          · have := a3 y hy
            omega
          · omega)
    rw [List.length_set] at r2 r4 r5
    refine ⟨cpu', loads', ?_, r2, r3, by simpa using r4, by simpa using r5, r6⟩
    unfold assign
    rw [a1]
    dsimp only
    rw [a2, hn]
    exact r1

end ABX.Distances
