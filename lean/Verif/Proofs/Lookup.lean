import Verif.Model.Lookup
import Verif.Proofs.ExtSort
import Mathlib.Algebra.BigOperators.Group.List.Basic
import Mathlib.Data.Finset.Card
import Mathlib.Tactic.Ring
import Mathlib.Tactic.Linarith
/-!
Lemmas about mixed radix keys and lookup tables.
-/
namespace ABX.Lookup
open ExtSort

/-- the number whose digits are `v` in the mixed radix `levels`, the first digit the lowest -/
def radix : List Nat → List Nat → Nat
  | n :: ns, v :: vs => v + n * radix ns vs
  | _, _ => 0

/-- the digits are below the numbers of levels -/
def InRange (levels row : List Nat) : Prop := List.Forall₂ (fun n v => v < n) levels row

theorem radix_lt : ∀ {ns vs : List Nat}, InRange ns vs → radix ns vs < ns.prod
  | _, _, .nil => by simp [radix]
  | _, _, .cons (a := n) (b := v) (l₁ := ns) (l₂ := vs) h t => by
    have ih := radix_lt t
    rw [radix, List.prod_cons]
    calc v + n * radix ns vs < n + n * radix ns vs := by omega
      _ = n * (radix ns vs + 1) := by ring
      _ ≤ n * ns.prod := Nat.mul_le_mul_left n ih

theorem radix_inj : ∀ {ns vs ws : List Nat}, InRange ns vs → InRange ns ws → radix ns vs = radix ns ws → vs = ws
  | _, _, _, .nil, .nil, _ => rfl
  | _, _, _, .cons (a := n) (b := v) (l₁ := ns) (l₂ := vs) h t, .cons (b := w) (l₂ := ws) h' t', e => by
    rw [radix, radix] at e
    have hn : 0 < n := by omega
    have e1 : v = w := by
      have := congrArg (· % n) e
      simpa [Nat.add_mul_mod_self_left, Nat.mod_eq_of_lt h, Nat.mod_eq_of_lt h'] using this
    subst e1
    have e2 : radix ns vs = radix ns ws := by
      have : n * radix ns vs = n * radix ns ws := by omega
      exact Nat.eq_of_mul_eq_mul_left hn this
    rw [radix_inj t t' e2]

/-- every number below the product has digits -/
theorem radix_surj : ∀ (ns : List Nat) (k : Nat), k < ns.prod → ∃ vs, InRange ns vs ∧ radix ns vs = k
  | [], k, h => ⟨[], .nil, by simp [radix] at *; omega⟩
  | n :: ns, k, h => by
    rw [List.prod_cons] at h
    have hn : 0 < n := by
      rcases Nat.eq_zero_or_pos n with h0 | h0
      · rw [h0, zero_mul] at h; omega
      · exact h0
    obtain ⟨vs, a, b⟩ := radix_surj ns (k / n) (by rw [Nat.div_lt_iff_lt_mul hn]; rw [mul_comm]; exact h)
    refine ⟨k % n :: vs, .cons (Nat.mod_lt _ hn) a, ?_⟩
    rw [radix, b]
    exact Nat.mod_add_div k n

/-- the weights without wrapping, starting at `acc` -/
def wts (acc : Nat) : List Nat → List Nat
  | [] => []
  | n :: ns => acc :: wts (acc * n) ns

theorem cumprod_wts (m : Nat) : ∀ (ns : List Nat) (acc acc' : Nat), acc' = acc % m →
    acc' :: (cumprod m acc' ns).dropLast = if ns = [] then [acc'] else (wts acc ns).map (· % m)
  | [], acc, acc', h => by simp [cumprod]
  | [n], acc, acc', h => by simp [cumprod, wts, h]
  | n :: n' :: ns, acc, acc', h => by
    rw [cumprod, List.dropLast_cons_of_ne_nil (by simp [cumprod])]
    rw [if_neg (by simp), wts, List.map_cons, ← h]
    have e : acc' * n % m = acc * n % m := by rw [h, Nat.mod_mul_mod]
    have := cumprod_wts m (n' :: ns) (acc * n) (acc' * n % m) e
    rw [if_neg (by simp)] at this
    rw [this]

/-- the sum of weights and digits -/
theorem sum_wts : ∀ {ns vs : List Nat} (acc : Nat), InRange ns vs → (((wts acc ns).zip vs).map (fun p => p.1 * p.2)).sum = acc * radix ns vs
  | _, _, acc, .nil => by simp [wts, radix]
  | _, _, acc, .cons (a := n) (b := v) (l₁ := ns) (l₂ := vs) h t => by
    rw [wts, List.zip_cons_cons, List.map_cons, List.sum_cons, sum_wts (acc * n) t, radix]
    ring

theorem sum_mod (m : Nat) : ∀ (l : List (Nat × Nat)), (l.map (fun p => p.1 * p.2)).sum < m →
    ((l.map (fun p => (p.1 % m, p.2))).map (fun p => p.1 * (p.2 % m) % m)).sum = (l.map (fun p => p.1 * p.2)).sum
  | [], _ => rfl
  | p :: l, h => by
    rw [List.map_cons, List.sum_cons] at h
    rw [List.map_cons, List.map_cons, List.sum_cons, sum_mod m l (by omega), List.map_cons, List.sum_cons]
    congr 1
    dsimp only
    rw [← Nat.mul_mod, Nat.mod_eq_of_lt (by omega)]

/-- the key is the mixed radix number, when `m` covers all rows -/
theorem keyOf_radix {m : Nat} {ns vs : List Nat} (h1 : 1 < m) (hm : ns.prod ≤ m) (hm' : m ≤ m64) (h : InRange ns vs) : keyOf m (keyWeights m ns) vs = radix ns vs := by
  unfold keyOf keyWeights
  have hl := radix_lt h
  rw [cumprod_wts m ns 1 1 (Nat.mod_eq_of_lt h1).symm]
  split
  · rename_i he
    subst he
    cases h
    simp [radix]
  · have e : ((wts 1 ns).map (· % m)).zip vs = ((wts 1 ns).zip vs).map (fun p => (p.1 % m, p.2)) := by
      rw [List.zip_map_left]; rfl
    rw [e, sum_mod m _ (by rw [sum_wts 1 h]; omega), sum_wts 1 h, one_mul, Nat.mod_eq_of_lt (by omega)]

theorem m64_pos : 1 < m64 := by unfold m64; norm_num

theorem m64_eq : m64 = 2 ^ 64 := by unfold m64; norm_num

attribute [local irreducible] m64

theorem keyOf_lt (m : Nat) (w v : List Nat) : keyOf m w v < m64 := Nat.mod_lt _ (Nat.lt_trans Nat.zero_lt_one m64_pos)

/-- more rows than 64 bits keys: two rows have the same key -/
theorem collision (ns : List Nat) (f : List Nat → Nat) (hf : ∀ v, f v < m64) (h : m64 < ns.prod) : ∃ v w, InRange ns v ∧ InRange ns w ∧ v ≠ w ∧ f v = f w := by
  have hs : ∀ k : Nat, ∃ vs, k < m64 + 1 → InRange ns vs ∧ radix ns vs = k := by
    intro k
    by_cases hk : k < m64 + 1
    · obtain ⟨vs, hvs⟩ := radix_surj ns k (by omega)
      exact ⟨vs, fun _ => hvs⟩
    · exact ⟨[], fun h => absurd h hk⟩
  choose g hg using hs
  obtain ⟨a, ha, b, hb, hab, e⟩ := Finset.exists_ne_map_eq_of_card_lt_of_maps_to (s := Finset.range (m64 + 1)) (t := Finset.range m64) (f := fun k => f (g k))
    (by rw [Finset.card_range, Finset.card_range]; exact Nat.lt_succ_self _) (fun k _ => Finset.mem_coe.mpr (Finset.mem_range.mpr (hf _)))
  have ha := hg a (Finset.mem_range.mp ha)
  have hb := hg b (Finset.mem_range.mp hb)
  refine ⟨g a, g b, ha.1, hb.1, ?_, e⟩
  intro h
  apply hab
  rw [← ha.2, ← hb.2, h]

/-! ### fused datasets -/

/-- the numbers of levels of the columns -/
def expand (levels dims : List Nat) : List Nat := (levels.zip dims).flatMap (fun p => List.replicate p.2 p.1)

theorem prod_expand : ∀ (l : List (Nat × Nat)), (l.flatMap (fun p => List.replicate p.2 p.1)).prod = (l.map (fun p => p.1 ^ p.2)).prod
  | [] => rfl
  | p :: l => by rw [List.flatMap_cons, List.prod_append, prod_expand l, List.prod_replicate, List.map_cons, List.prod_cons]

theorem foldl_mod (m : Nat) : ∀ (l : List Nat) (a : Nat), (l.map (· % m)).foldl (fun a b => a * b % m) (a % m) = a * l.prod % m
  | [], a => by simp
  | x :: l, a => by
    rw [List.map_cons, List.foldl_cons, List.prod_cons]
    have : a % m * (x % m) % m = a * x % m := (Nat.mul_mod a x m).symm
    rw [this, foldl_mod m l (a * x), mul_assoc]

theorem fusedMaxKey_eq {M : Nat} (hM : 1 < M) (levels dims : List Nat) : fusedMaxKey M levels dims = ((expand levels dims).prod % M + (M - 1)) % M := by
  unfold fusedMaxKey
  have h1 : 1 = 1 % M := (Nat.mod_eq_of_lt hM).symm
  have : (levels.zip dims).map (fun p => p.1 ^ p.2 % M) = ((levels.zip dims).map (fun p => p.1 ^ p.2)).map (· % M) := by rw [List.map_map]; rfl
  rw [this, h1, foldl_mod M _ 1, one_mul]
  unfold expand
  rw [prod_expand, ← h1]

theorem fusedMaxKey_lt {M : Nat} (hM : 1 < M) (levels dims : List Nat) : fusedMaxKey M levels dims < M := Nat.mod_lt _ (by omega)

theorem fit_unsigned {M : Nat} (hM : M = 2 ^ 64) (n : Nat) (h : n < M) : ∃ t, fitIntegerType n false = .ok t ∧ 1 < cap t ∧ n < cap t ∧ cap t ≤ M := by
  rw [hM] at *
  unfold fitIntegerType cap
  simp only [Bool.false_eq_true, if_false, Nat.sub_zero]
  have c : ∀ b : Nat, ((n : Int) < 2 ^ b) ↔ n < 2 ^ b := by
    intro b
    rw [show (2 : Int) ^ b = ((2 ^ b : Nat) : Int) by push_cast; rfl]
    exact Int.ofNat_lt
  simp only [c]
  have p : ∀ b : Nat, 0 < b → b ≤ 64 → 1 < 2 ^ b ∧ 2 ^ b ≤ 2 ^ 64 := fun b hb hb' => ⟨Nat.one_lt_two_pow (by omega), Nat.pow_le_pow_right (by omega) hb'⟩
  split
  · rename_i h1
    exact ⟨_, rfl, (p 8 (by omega) (by omega)).1, h1, (p 8 (by omega) (by omega)).2⟩
  split
  · rename_i h1
    exact ⟨_, rfl, (p 16 (by omega) (by omega)).1, h1, (p 16 (by omega) (by omega)).2⟩
  split
  · rename_i h1
    exact ⟨_, rfl, (p 32 (by omega) (by omega)).1, h1, (p 32 (by omega) (by omega)).2⟩
  · exact ⟨_, rfl, (p 64 (by omega) (by omega)).1, h, (p 64 (by omega) (by omega)).2⟩

theorem fusedType_ok {M : Nat} (hM : M = 2 ^ 64) (levels dims : List Nat) : ∃ t, fusedType M levels dims = .ok t ∧ 1 < cap t ∧ fusedMaxKey M levels dims < cap t ∧ cap t ≤ M := by
  have hM1 : 1 < M := by rw [hM]; exact Nat.one_lt_two_pow (by omega)
  unfold fusedType
  have h := fusedMaxKey_lt hM1 levels dims
  rw [if_neg (by omega)]
  exact fit_unsigned hM _ h

theorem cumprod_mod (m : Nat) : ∀ (ns : List Nat) (acc : Nat), cumprod m acc (ns.map (· % m)) = cumprod m acc ns
  | [], _ => rfl
  | n :: ns, acc => by
    rw [List.map_cons, cumprod, cumprod, Nat.mul_mod_mod, cumprod_mod m ns]

theorem fusedLevels_eq (t : IntType) (levels dims : List Nat) : fusedLevels t levels dims = (expand levels dims).map (· % cap t) := by
  unfold fusedLevels expand
  rw [List.map_flatMap]
  simp

theorem wrap_pred {P M : Nat} (h0 : 0 < P) (hp : P ≤ M) (h1 : 1 < M) : (P % M + (M - 1)) % M = P - 1 := by
  rcases Nat.lt_or_eq_of_le hp with hlt | e
  · rw [Nat.mod_eq_of_lt hlt]
    have e : P + (M - 1) = (P - 1) + M := by omega
    rw [e, Nat.add_mod_right, Nat.mod_eq_of_lt (by omega)]
  · rw [e, Nat.mod_self, zero_add, Nat.mod_eq_of_lt (by omega)]

theorem pred_le {P M b : Nat} (h0 : 0 < P) (hp : P ≤ M) (h1 : 1 < M) (h2 : (P % M + (M - 1)) % M < b) : P ≤ b := by
  rw [wrap_pred h0 hp h1] at h2
  omega

/-- the keys of a fused dataset, when 64 bits are enough -/
theorem fusedKey_ok {M : Nat} (hM : M = 2 ^ 64) {levels dims row : List Nat} (h : InRange (expand levels dims) row) (hp : (expand levels dims).prod ≤ M) :
    fusedKey M levels dims row = .ok (radix (expand levels dims) row) := by
  obtain ⟨t, ht, h1, h2, h3⟩ := fusedType_ok hM levels dims
  have hM1 : 1 < M := by rw [hM]; exact Nat.one_lt_two_pow (by omega)
  have hl := radix_lt h
  rw [fusedMaxKey_eq hM1] at h2
  have hP : (expand levels dims).prod ≤ cap t := pred_le (Nat.lt_of_le_of_lt (Nat.zero_le _) hl) hp hM1 h2
  unfold fusedKey
  rw [ht]
  dsimp only
  have e : keyWeights (cap t) (fusedLevels t levels dims) = keyWeights (cap t) (expand levels dims) := by
    unfold keyWeights
    rw [fusedLevels_eq, cumprod_mod]
  rw [hM, ← m64_eq] at h3
  rw [e, keyOf_radix h1 hP h3 h, Nat.mod_eq_of_lt (Nat.lt_of_lt_of_le hl hP)]

/-- there is always a key -/
theorem fusedKey_some {M : Nat} (hM : M = 2 ^ 64) (levels dims row : List Nat) : ∃ k, fusedKey M levels dims row = .ok k ∧ k < M := by
  obtain ⟨t, ht, h1, h2, h3⟩ := fusedType_ok hM levels dims
  unfold fusedKey
  rw [ht]
  exact ⟨_, rfl, Nat.lt_of_lt_of_le (Nat.mod_lt _ (by omega)) h3⟩

/-! ### the table -/

/-- the values of a row are in the indexes -/
def Valid {ν : Type} (indexes : List (List ν)) (row : List ν) : Prop := List.Forall₂ (fun ix e => e ∈ ix) indexes row

section
variable {ν : Type} [DecidableEq ν]

/-- the positions of the values of a row -/
def positions (indexes : List (List ν)) (row : List ν) : List Nat := List.zipWith (fun ix e => ix.idxOf e) indexes row

/-- the rank of a row among all possible rows, the last input the most significant -/
def rank (indexes : List (List ν)) (row : List ν) : Nat := radix (indexes.map List.length) (positions indexes row)

theorem positions_inRange : ∀ {ix : List (List ν)} {row : List ν}, Valid ix row → InRange (ix.map List.length) (positions ix row)
  | _, _, .nil => .nil
  | _, _, .cons h t => .cons (List.idxOf_lt_length_of_mem h) (positions_inRange t)

theorem positions_inj : ∀ {ix : List (List ν)} {r s : List ν}, Valid ix r → Valid ix s → positions ix r = positions ix s → r = s
  | _, _, _, .nil, .nil, _ => rfl
  | _, _, _, .cons h t, .cons h' t', e => by
    unfold positions at e
    rw [List.zipWith_cons_cons, List.zipWith_cons_cons, List.cons.injEq] at e
    rw [(List.idxOf_inj h).mp e.1, positions_inj t t' e.2]

theorem rank_inj {ix : List (List ν)} {r s : List ν} (h : Valid ix r) (h' : Valid ix s) (e : rank ix r = rank ix s) : r = s :=
  positions_inj h h' (radix_inj (positions_inRange h) (positions_inRange h') e)

theorem seq_positions : ∀ {ix : List (List ν)} {row : List ν}, Valid ix row → sequence ((ix.zip row).map (fun p => indexOf p.1 p.2)) = .ok (positions ix row)
  | _, _, .nil => rfl
  | _, _, .cons h t => by
    rw [List.zip_cons_cons, List.map_cons]
    unfold indexOf
    rw [if_pos h]
    have := seq_positions t
    unfold indexOf at this
    rw [sequence, this]
    rfl

theorem getKey_ok {ix : List (List ν)} (hp : (ix.map List.length).prod ≤ m64) {row : List ν} (h : Valid ix row) : getKey ix row = .ok (rank ix row) := by
  unfold getKey
  rw [if_neg (by have := List.Forall₂.length_eq h; omega), seq_positions h]
  dsimp only
  rw [keyOf_radix m64_pos hp (Nat.le_refl _) (positions_inRange h)]
  rfl

end

theorem takeAt_ok {α : Type} {order : List Nat} {l : List α} (h : ∀ i ∈ order, i < l.length) : takeAt order l = .ok (order.filterMap (fun i => l[i]?)) := by
  unfold takeAt
  induction order with
  | nil => rfl
  | cons i order ih =>
    have hi := h i (by simp)
    rw [List.map_cons, List.filterMap_cons, List.getElem?_eq_getElem hi]
    dsimp only
    rw [sequence, ih (fun j hj => h j (by simp [hj]))]

theorem takeAt_map {α β : Type} (f : α → β) (order : List Nat) (l : List α) : takeAt order (l.map f) = match takeAt order l with | .ok r => .ok (r.map f) | .error e => .error e := by
  unfold takeAt
  induction order with
  | nil => rfl
  | cons i order ih =>
    rw [List.map_cons, List.map_cons, List.getElem?_map]
    cases hi : l[i]? with
    | none => simp [sequence]
    | some x =>
      simp only [Option.map_some, sequence, ih]
      split
      · rename_i e
        split at e
        · cases e
        · rename_i e'
          cases e
          rw [e']
      · rename_i e
        split at e
        · rename_i e'
          cases e
          rw [e']
          rfl
        · cases e

/-- `searchsorted` on a sorted list -/
theorem bisect_left {l : List Int} (hl : l.Pairwise (· ≤ ·)) (key : Int) : ∀ (fuel lo hi : Nat), lo ≤ hi → hi ≤ l.length → hi - lo ≤ fuel →
    (∀ i (h : i < l.length), i < lo → l[i] < key) → (∀ i (h : i < l.length), hi ≤ i → key ≤ l[i]) →
    Score.bisect l key fuel lo hi ≤ l.length ∧ (∀ i (h : i < l.length), i < Score.bisect l key fuel lo hi → l[i] < key) ∧ (∀ i (h : i < l.length), Score.bisect l key fuel lo hi ≤ i → key ≤ l[i])
  | 0, lo, hi, h1, h2, h3, h4, h5 => by
    have : lo = hi := by omega
    subst this
    exact ⟨by unfold Score.bisect; omega, by unfold Score.bisect; exact h4, by unfold Score.bisect; exact h5⟩
  | fuel + 1, lo, hi, h1, h2, h3, h4, h5 => by
    rw [Score.bisect]
    by_cases hlt : lo < hi
    · have hm : lo + (hi - lo) / 2 < hi := by omega
      rw [if_pos hlt]
      dsimp only
      rw [List.getElem?_eq_getElem (by omega)]
      dsimp only
      have mono : ∀ i j (hi : i < l.length) (hj : j < l.length), i ≤ j → l[i] ≤ l[j] := by
        intro i j hi hj hij
        rcases Nat.lt_or_eq_of_le hij with h | h
        · exact List.pairwise_iff_getElem.mp hl i j hi hj h
        · subst h; exact le_rfl
      split
      · rename_i hv
        apply bisect_left hl key fuel _ _ (by omega) h2 (by omega) _ h5
        intro i h hi'
        exact lt_of_le_of_lt (mono i _ h (by omega) (by omega)) hv
      · rename_i hv
        apply bisect_left hl key fuel _ _ (by omega) (by omega) (by omega) h4
        intro i h hi'
        exact le_trans (not_lt.mp hv) (mono _ i (by omega) h hi')
    · rw [if_neg hlt]
      have : lo = hi := by omega
      subst this
      exact ⟨h2, h4, h5⟩

/-- the insertion point in a sorted list of keys -/
theorem insertionPoint_spec {keys : List Nat} (hs : keys.Pairwise (· ≤ ·)) (k : Nat) :
    insertionPoint keys k ≤ keys.length ∧ (∀ i (h : i < keys.length), i < insertionPoint keys k → keys[i] < k) ∧ (∀ i (h : i < keys.length), insertionPoint keys k ≤ i → k ≤ keys[i]) := by
  have hl : (keys.map Int.ofNat).Pairwise (· ≤ ·) := by
    rw [List.pairwise_map]
    exact hs.imp (fun h => Int.ofNat_le.mpr h)
  have := bisect_left hl (k : Int) keys.length 0 keys.length (by omega) (by simp) (by omega) (by omega) (by intro i h h'; simp at h; omega)
  unfold insertionPoint
  simp only [List.length_map, List.getElem_map] at this
  obtain ⟨a, b, c⟩ := this
  refine ⟨a, fun i h h' => ?_, fun i h h' => ?_⟩
  · have := b i h h'; simpa using this
  · have := c i h h'; simpa using this

/-- the key is present: the insertion point is a position of it -/
theorem insertionPoint_mem {keys : List Nat} (hs : keys.Pairwise (· ≤ ·)) {k : Nat} (hk : k ∈ keys) : ∃ h : insertionPoint keys k < keys.length, keys[insertionPoint keys k] = k := by
  obtain ⟨a, b, c⟩ := insertionPoint_spec hs k
  obtain ⟨j, hj, e⟩ := List.getElem_of_mem hk
  have hle : insertionPoint keys k ≤ j := by
    by_contra hlt
    have := b j hj (by omega)
    omega
  have hlt : insertionPoint keys k < keys.length := by omega
  refine ⟨hlt, ?_⟩
  have h1 := c _ hlt (Nat.le_refl _)
  have h2 : keys[insertionPoint keys k] ≤ keys[j] := by
    rcases Nat.lt_or_eq_of_le hle with h | h
    · exact List.pairwise_iff_getElem.mp hs _ _ hlt hj h
    · exact le_of_eq (by congr 1)
  omega

/-- the insertion point is beyond the end iff the key is above all -/
theorem insertionPoint_end {keys : List Nat} (hs : keys.Pairwise (· ≤ ·)) (k : Nat) : insertionPoint keys k = keys.length ↔ ∀ x ∈ keys, x < k := by
  obtain ⟨a, b, c⟩ := insertionPoint_spec hs k
  constructor
  · intro e x hx
    obtain ⟨j, hj, rfl⟩ := List.getElem_of_mem hx
    exact b j hj (by omega)
  · intro h
    by_contra hne
    have hlt : insertionPoint keys k < keys.length := by omega
    have h1 := c _ hlt (Nat.le_refl _)
    have h2 := h _ (List.getElem_mem hlt)
    omega

end ABX.Lookup
