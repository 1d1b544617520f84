import Verif.Model.Analyze
import Verif.Proofs.F64
import Verif.Proofs.TaskReg
import Verif.Properties.TypeFit
/-! Helper lemmas for C19-C21. -/
namespace ABX.Analyze
open ExtSort Task SideOps F64

/-! ### keys -/

theorem minBits_le {n b : Nat} (hb : b ∈ [8, 16, 32, 64]) (h : n < 2 ^ b) : minBits n ≤ b := by
  unfold minBits
  simp only [List.mem_cons, List.not_mem_nil, or_false] at hb
  rcases hb with rfl | rfl | rfl | rfl
  · rw [if_pos h]
  · repeat' split
    all_goals first | omega | (exfalso; omega)
  · repeat' split
    all_goals first | omega | (exfalso; omega)
  · repeat' split
    all_goals omega

theorem radix_pos : ∀ {ns row : List Nat}, ns.length = row.length → (∀ q ∈ ns.zip row, q.2 < q.1) → ∀ n ∈ ns, 0 < n
  | [], _, _, _, n, hn => by cases hn
  | m :: ns, [], hl, _, n, hn => by simp at hl
  | m :: ns, x :: xs, hl, hx, n, hn => by
    rcases List.mem_cons.mp hn with rfl | hn
    · have := hx (n, x) (by simp)
      simp only at this
      omega
    · exact radix_pos (row := xs) (by simpa using hl) (fun q hq => hx q (by simp [hq])) n hn

theorem prod_pos : ∀ {ns : List Nat}, (∀ n ∈ ns, 0 < n) → 0 < ns.prod
  | [], _ => by simp
  | n :: ns, h => by
    rw [List.prod_cons]
    exact Nat.mul_pos (h n (by simp)) (prod_pos (fun m hm => h m (by simp [hm])))

/-- no wrapping -/
theorem encodeLoop_exact {dt b : Nat} (hb : b ∈ [8, 16, 32, 64]) : ∀ (ns row : List Nat) (w acc p : Nat), b ≤ w → acc < p → p * ns.prod < 2 ^ b → ns.length = row.length →
    (∀ q ∈ ns.zip row, q.2 < q.1) → encodeLoop dt w acc ns row = (ns.zip row).foldl (fun acc q => q.2 + q.1 * acc) acc
  | [], _, w, acc, p, _, _, _, _, _ => by simp [encodeLoop]
  | n :: ns, [], w, acc, p, _, _, _, hl, _ => by simp at hl
  | n :: ns, x :: xs, w, acc, p, hw, hacc, hp, hl, hx => by
    rw [encodeLoop]
    have hxn : x < n := hx (n, x) (by simp)
    have hns : 0 < ns.prod := prod_pos (fun m hm => radix_pos hl hx m (by simp [hm]))
    have hpn : p * n * ns.prod < 2 ^ b := by
      rw [List.prod_cons] at hp
      rw [Nat.mul_assoc]; exact hp
    have hpn' : p * n < 2 ^ b := lt_of_le_of_lt (Nat.le_mul_of_pos_right _ hns) hpn
    have hlt : x + n * acc < p * n := by
      have h1 : n * (acc + 1) ≤ n * p := Nat.mul_le_mul_left n hacc
      rw [Nat.mul_comm n p, Nat.mul_add] at h1
      omega
    have hn : n < 2 ^ b := lt_of_le_of_lt (Nat.le_mul_of_pos_left n (by omega)) hpn'
    have hmin := minBits_le hb hn
    have hw1 : max w (minBits n) = w := by omega
    have hpw : 2 ^ b ≤ 2 ^ w := Nat.pow_le_pow_right (by omega) hw
    have hpw2 : 2 ^ b ≤ 2 ^ max w dt := Nat.pow_le_pow_right (by omega) (by omega)
    simp only [hw1]
    rw [Nat.mod_eq_of_lt (a := n * acc) (by omega), Nat.mod_eq_of_lt (by omega)]
    rw [List.zip_cons_cons, List.foldl_cons]
    exact encodeLoop_exact hb ns xs _ _ (p * n) (by omega) hlt hpn (by simpa using hl) (fun q hq => hx q (by simp [hq]))

theorem encode_exact {dt b : Nat} (hb : b ∈ [8, 16, 32, 64]) {ns row : List Nat} (hne : ns ≠ []) (hp : ns.prod < 2 ^ b) (hl : ns.length = row.length) (hx : ∀ q ∈ ns.zip row, q.2 < q.1) :
    encode dt b ns row = horner ns row := by
  obtain ⟨n, ns, rfl⟩ := List.exists_cons_of_ne_nil hne
  cases row with
  | nil => simp at hl
  | cons x xs =>
    have hxn : x < n := hx (n, x) (by simp)
    unfold encode horner
    rw [List.zip_cons_cons, List.foldl_cons, Nat.mul_zero, Nat.add_zero]
    have hns : n ≤ 2 ^ b := by
      have h0 : 0 < ns.prod := prod_pos (fun m hm => radix_pos hl hx m (by simp [hm]))
      rw [List.prod_cons] at hp
      exact (Nat.le_mul_of_pos_right n h0).trans hp.le
    dsimp only
    rw [Nat.mod_eq_of_lt (by omega)]
    exact encodeLoop_exact hb ns xs b x n (le_refl _) hxn (by rw [List.prod_cons] at hp; exact hp) (by simpa using hl) (fun q hq => hx q (by simp [hq]))

theorem foldl_lt : ∀ (ns row : List Nat) (acc p : Nat), acc < p → ns.length = row.length → (∀ q ∈ ns.zip row, q.2 < q.1) → (ns.zip row).foldl (fun acc q => q.2 + q.1 * acc) acc < p * ns.prod
  | [], [], acc, p, h, _, _ => by simpa using h
  | [], _ :: _, acc, p, _, hl, _ => by simp at hl
  | n :: ns, [], acc, p, _, hl, _ => by simp at hl
  | n :: ns, x :: xs, acc, p, h, hl, hx => by
    have hxn : x < n := hx (n, x) (by simp)
    have hlt : x + n * acc < p * n := by
      have h1 : n * (acc + 1) ≤ n * p := Nat.mul_le_mul_left n h
      rw [Nat.mul_comm n p, Nat.mul_add] at h1
      omega
    rw [List.zip_cons_cons, List.foldl_cons, List.prod_cons, ← Nat.mul_assoc]
    exact foldl_lt ns xs _ _ hlt (by simpa using hl) (fun q hq => hx q (by simp [hq]))

theorem horner_lt {ns row : List Nat} (hl : ns.length = row.length) (hx : ∀ q ∈ ns.zip row, q.2 < q.1) : horner ns row < ns.prod := by
  have := foldl_lt ns row 0 1 (by omega) hl hx
  rw [Nat.one_mul] at this
  exact this

/-- the order of the keys is the lexicographic order of the rows -/
theorem foldl_mono : ∀ (ns r s : List Nat) (a b : Nat), a < b → ns.length = r.length → ns.length = s.length → (∀ q ∈ ns.zip r, q.2 < q.1) →
    (ns.zip r).foldl (fun acc q => q.2 + q.1 * acc) a < (ns.zip s).foldl (fun acc q => q.2 + q.1 * acc) b
  | [], [], [], a, b, h, _, _, _ => by simpa using h
  | [], _ :: _, _, _, _, _, h, _, _ => by simp at h
  | [], _, _ :: _, _, _, _, _, h, _ => by simp at h
  | n :: ns, [], _, _, _, _, h, _, _ => by simp at h
  | n :: ns, _, [], _, _, _, _, h, _ => by simp at h
  | n :: ns, x :: r, y :: s, a, b, h, h1, h2, hx => by
    have hxn : x < n := hx (n, x) (by simp)
    rw [List.zip_cons_cons, List.zip_cons_cons, List.foldl_cons, List.foldl_cons]
    apply foldl_mono ns r s _ _ _ (by simpa using h1) (by simpa using h2) (fun q hq => hx q (by simp [hq]))
    have : n * (a + 1) ≤ n * b := Nat.mul_le_mul_left n h
    rw [Nat.mul_add] at this
    dsimp only
    omega

theorem foldl_lex : ∀ (ns r s : List Nat) (a : Nat), ns.length = r.length → ns.length = s.length → (∀ q ∈ ns.zip r, q.2 < q.1) → (∀ q ∈ ns.zip s, q.2 < q.1) →
    (ns.zip r).foldl (fun acc q => q.2 + q.1 * acc) a < (ns.zip s).foldl (fun acc q => q.2 + q.1 * acc) a → r < s
  | [], [], [], a, _, _, _, _, h => by simp at h
  | [], _ :: _, _, _, h, _, _, _, _ => by simp at h
  | [], _, _ :: _, _, _, h, _, _, _ => by simp at h
  | n :: ns, [], _, _, h, _, _, _, _ => by simp at h
  | n :: ns, _, [], _, _, h, _, _, _ => by simp at h
  | n :: ns, x :: r, y :: s, a, h1, h2, hx, hy, h => by
    rw [List.zip_cons_cons, List.zip_cons_cons, List.foldl_cons, List.foldl_cons] at h
    rw [List.cons_lt_cons_iff]
    rcases Nat.lt_trichotomy x y with hxy | hxy | hxy
    · exact Or.inl hxy
    · subst hxy
      exact Or.inr ⟨rfl, foldl_lex ns r s _ (by simpa using h1) (by simpa using h2) (fun q hq => hx q (by simp [hq])) (fun q hq => hy q (by simp [hq])) h⟩
    · exfalso
      have := foldl_mono ns s r (y + n * a) (x + n * a) (by omega) (by simpa using h2) (by simpa using h1) (fun q hq => hy q (by simp [hq]))
      dsimp only at h
      omega

/-! ### decoding -/

theorem rnd_nat {n : Nat} (h : n ≤ 2 ^ 53) : rnd (n : ℚ) = n := by
  have := rnd_int (n := (n : ℤ)) (by rw [abs_of_nonneg (Int.natCast_nonneg n)]; exact_mod_cast h)
  rw [Int.cast_natCast] at this
  exact this

/-- decoding in exact arithmetic -/
def decodeNat : List Nat → Nat → List Nat → List Nat
  | [], a, acc => a :: acc
  | n :: ns, a, acc => decodeNat ns (a / n) (a % n :: acc)

theorem decodeNat_fold (a : Nat) : ∀ (tl : List (Nat × Nat)) (acc : List Nat), (∀ q ∈ tl, q.2 < q.1) →
    decodeNat (tl.map (·.1)).reverse (tl.foldl (fun acc q => q.2 + q.1 * acc) a) acc = a :: (tl.map (·.2) ++ acc) := by
  intro tl
  induction tl using List.reverseRecOn with
  | nil => intro acc _; simp [decodeNat]
  | append_singleton tl q ih =>
    intro acc h
    have hq := h q (by simp)
    rw [List.map_append, List.map_append, List.reverse_append, List.foldl_append]
    simp only [List.map_cons, List.map_nil, List.reverse_cons, List.reverse_nil, List.nil_append, List.cons_append, List.foldl_cons, List.foldl_nil, decodeNat]
    rw [Nat.add_mul_div_left _ _ (by omega), Nat.div_eq_of_lt hq, Nat.zero_add, Nat.add_mul_mod_self_left, Nat.mod_eq_of_lt hq, ih _ (fun r hr => h r (by simp [hr]))]
    simp

theorem decode_step {a n : Nat} (ha : a ≤ 2 ^ 53) (hn0 : 0 < n) (hn : n ≤ 2 ^ 53) : rnd (rnd ((a : ℚ) - ((a % n : Nat) : ℚ)) / rnd n) = ((a / n : Nat) : ℚ) := by
  have hle := Nat.mod_le a n
  have e : ((a : ℚ) - ((a % n : Nat) : ℚ)) = ((n * (a / n) : Nat) : ℚ) := by
    have := Nat.mod_add_div a n
    have h2 : (a : ℚ) = ((a % n + n * (a / n) : Nat) : ℚ) := by rw [this]
    rw [h2, Nat.cast_add]; ring
  have hb : n * (a / n) ≤ 2 ^ 53 := (Nat.mul_div_le a n).trans ha
  rw [e, rnd_nat hb, rnd_nat hn, Nat.cast_mul, mul_div_cancel_left₀ _ (by exact_mod_cast hn0.ne'), rnd_nat ((Nat.div_le_self a n).trans ha)]

theorem decodeLoop_exact : ∀ (ns : List Nat) (a : Nat) (acc : List Nat), a ≤ 2 ^ 53 → (∀ n ∈ ns, 0 < n ∧ n ≤ 2 ^ 53) →
    decodeLoop ns (a : ℚ) (acc.map (fun x : Nat => (x : ℚ))) = (decodeNat ns a acc).map (fun x : Nat => (x : ℚ))
  | [], a, acc, _, _ => by simp [decodeLoop, decodeNat]
  | n :: ns, a, acc, ha, hn => by
    obtain ⟨hn0, hn1⟩ := hn n (by simp)
    have hr : (a : ℚ) - rnd n * ⌊(a : ℚ) / rnd n⌋ = ((a % n : Nat) : ℚ) := by
      rw [rnd_nat hn1, Rat.floor_natCast_div_natCast]
      have := Nat.mod_add_div a n
      have h2 : (a : ℚ) = ((a % n + n * (a / n) : Nat) : ℚ) := by rw [this]
      rw [Nat.cast_add, Nat.cast_mul] at h2
      rw [show ((((a : Nat) : ℤ) / ((n : Nat) : ℤ) : ℤ) : ℚ) = ((a / n : Nat) : ℚ) from by rw [← Int.natCast_div, Int.cast_natCast]]
      linarith
    rw [decodeLoop, decodeNat]
    rw [hr, decode_step ha hn0 hn1]
    exact decodeLoop_exact ns (a / n) (a % n :: acc) ((Nat.div_le_self a n).trans ha) (fun m hm => hn m (by simp [hm]))

theorem npdecode_exact {ns row : List Nat} (hne : ns ≠ []) (hp : ns.prod ≤ 2 ^ 53) (hl : ns.length = row.length) (hx : ∀ q ∈ ns.zip row, q.2 < q.1) :
    npdecode (horner ns row) ns = row.map (fun x : Nat => (x : ℚ)) := by
  have hlt := horner_lt hl hx
  obtain ⟨n, tl, rfl⟩ := List.exists_cons_of_ne_nil hne
  cases row with
  | nil => simp at hl
  | cons x xs =>
    have hpos : ∀ m ∈ n :: tl, 0 < m ∧ m ≤ 2 ^ 53 := by
      intro m hm
      have h0 := radix_pos hl hx
      refine ⟨h0 m hm, ?_⟩
      have hd : m ∣ (n :: tl).prod := List.dvd_prod hm
      have : 0 < (n :: tl).prod := by omega
      exact (Nat.le_of_dvd this hd).trans hp
    have hz : tl.zip xs = tl.zip xs := rfl
    have hl' : tl.length = xs.length := by simpa using hl
    have hdec := decodeNat_fold x (tl.zip xs) [] (fun q hq => hx q (by simp [hq]))
    rw [List.map_fst_zip (by omega), List.map_snd_zip (by omega), List.append_nil] at hdec
    have hh : horner (n :: tl) (x :: xs) = (tl.zip xs).foldl (fun acc q => q.2 + q.1 * acc) x := by
      unfold horner
      rw [List.zip_cons_cons, List.foldl_cons, Nat.mul_zero, Nat.add_zero]
    rw [← hh] at hdec
    generalize horner (n :: tl) (x :: xs) = key at hdec hlt
    have hk : key ≤ 2 ^ 53 := by omega
    unfold npdecode
    rw [List.tail_cons]
    have hpos' : ∀ m ∈ tl.reverse, 0 < m ∧ m ≤ 2 ^ 53 := fun m hm => hpos m (by simp at hm; simp [hm])
    cases hr : tl.reverse with
    | nil =>
      rw [hr] at hdec
      rw [← hdec]
      simp [decodeNat, rnd_nat hk]
    | cons m ms =>
      rw [hr] at hdec hpos'
      obtain ⟨hm0, hm1⟩ := hpos' m (by simp)
      dsimp only
      have hmod : key % m ≤ 2 ^ 53 := (Nat.mod_le _ _).trans hk
      rw [rnd_nat hmod, rnd_nat hk, decode_step hk hm0 hm1, ← hdec, decodeNat]
      exact decodeLoop_exact ms (key / m) [key % m] ((Nat.div_le_self _ _).trans hk) (fun q hq => hpos' q (by simp [hq]))

/-! ### runs -/

variable {α : Type}

/-- the score of a group of scores -/
def meanScore (l : List Int) : ℚ := rnd (rnd ((l.sum : ℚ) / l.length) + 1) / 2

structure Segs (f sc : α → Int) (s : List α) (u : List Nat) (a : Nat) (segs : List (List α)) : Prop where
  flat : segs.flatten = s.drop a
  ne : ∀ g ∈ segs, g ≠ []
  same : ∀ g ∈ segs, ∀ x ∈ g, ∀ y ∈ g, f x = f y
  inc : segs.Pairwise (fun g h => ∀ x ∈ g, ∀ y ∈ h, f x < f y)
  keys : gather (s.map f) (a :: u).dropLast = .ok (segs.map (fun g => (g.map f).headD 0))
  counts : runCounts (a :: u) = segs.map List.length
  means : means (s.map sc) (runCounts (a :: u)) a = segs.map (fun g => meanScore (g.map sc))

theorem segs_of {f sc : α → Int} {s : List α} (hs : s.Pairwise (fun x y => f x ≤ f y)) : ∀ (u : List Nat) (a : Nat), Bounds (s.map f) u a → a ≤ s.length →
    ∃ segs, Segs f sc s u a segs
  | [], a, h, ha => by
    have := h.nil (by simpa using ha)
    rw [List.length_map] at this
    refine ⟨[], ?_, by simp, by simp, by simp, rfl, rfl, rfl⟩
    rw [List.drop_eq_nil_of_le (by omega)]; rfl
  | b :: u, a, h, ha => by
    obtain ⟨h1, h2⟩ := h.le
    rw [List.length_map] at h2
    obtain ⟨segs, S⟩ := segs_of (sc := sc) hs u b h.tail h2
    have hg : npSlice s a b ++ s.drop b = s.drop a := by
      have := npSlice_append s (a := a) (b := b) (c := s.length) (by omega) (by omega)
      simp only [npSlice, List.take_length] at this ⊢
      exact this
    have hlen : (npSlice s a b).length = b - a := by simp [npSlice]; omega
    have hsame : ∀ x ∈ npSlice s a b, some (f x) = (s.map f)[a]? := by
      intro x hx
      obtain ⟨i, hi, rfl⟩ := List.mem_iff_getElem.mp hx
      have hi' : i < b - a := by omega
      rw [← h.run i (by omega), List.getElem?_map]
      have : s[a + i]? = some (npSlice s a b)[i] := by
        rw [← List.getElem?_eq_getElem hi]
        simp only [npSlice]
        rw [List.getElem?_drop, List.getElem?_take, if_pos (by omega)]
      rw [this]; rfl
    have hne : npSlice s a b ≠ [] := by
      intro h0
      rw [h0] at hlen
      simp at hlen
      omega
    refine ⟨npSlice s a b :: segs, ?_, ?_, ?_, ?_, ?_, ?_, ?_⟩
    · rw [List.flatten_cons, S.flat, hg]
    · intro g hg'
      rcases List.mem_cons.mp hg' with rfl | hg'
      · exact hne
      · exact S.ne g hg'
    · intro g hg'
      rcases List.mem_cons.mp hg' with rfl | hg'
      · intro x hx y hy
        have := hsame x hx
        rw [← hsame y hy] at this
        exact Option.some.inj this
      · exact S.same g hg'
    · rw [List.pairwise_cons]
      refine ⟨?_, S.inc⟩
      intro g hg' x hx y hy
      have hmem : y ∈ s.drop b := by rw [← S.flat]; exact List.mem_flatten.mpr ⟨g, hg', hy⟩
      obtain ⟨j, hj⟩ := List.getElem?_of_mem hmem
      rw [List.getElem?_drop] at hj
      have hbl : b < s.length := by have := (List.getElem?_eq_some_iff.mp hj).1; omega
      have hpair := List.pairwise_iff_getElem.mp hs
      have hxv : f x = f (s[b - 1]'(by omega)) := by
        have e1 := hsame x hx
        have e2 := h.run (b - 1 - a) (by omega)
        rw [show a + (b - 1 - a) = b - 1 by omega] at e2
        rw [← e2, List.getElem?_map, List.getElem?_eq_getElem (by omega)] at e1
        exact Option.some.inj e1
      have hb := (mem_uniqueIdx.mp ((h.mem b).mp (by simp)).2).2
      rw [List.length_map] at hb
      have hdiff : f (s[b - 1]'(by omega)) ≠ f s[b] := by
        intro he
        rcases hb with hb | hb | hb
        · omega
        · omega
        · apply hb
          rw [List.getElem?_map, List.getElem?_map, List.getElem?_eq_getElem hbl, List.getElem?_eq_getElem (i := b - 1) (by omega)]
          simp [he]
      have hle : f (s[b - 1]'(by omega)) ≤ f s[b] := hpair (b - 1) b (by omega) hbl (by omega)
      have hle2 : f s[b] ≤ f y := by
        have hjl := (List.getElem?_eq_some_iff.mp hj).1
        have hy' : y = s[b + j] := by
          rw [List.getElem?_eq_getElem hjl] at hj
          exact (Option.some.inj hj).symm
        rw [hy']
        rcases Nat.eq_zero_or_pos j with rfl | hj0
        · exact le_rfl
        · exact hpair b (b + j) hbl hjl (by omega)
      omega
    · rw [List.dropLast_cons_of_ne_nil (by simp), gather, S.keys]
      have hal : a < (s.map f).length := by rw [List.length_map]; omega
      rw [List.getElem?_eq_getElem hal]
      dsimp only
      rw [List.map_cons]
      obtain ⟨x, r, hxr⟩ := List.exists_cons_of_ne_nil hne
      have := hsame x (by rw [hxr]; simp)
      rw [List.getElem?_eq_getElem hal] at this
      rw [hxr, List.map_cons, List.headD_cons, Option.some.inj this]
    · rw [runCounts_cons, S.counts, List.map_cons, hlen]
    · rw [runCounts_cons, Analyze.means, show a + (b - a) = b by omega, S.means, List.map_cons]
      congr 1
      unfold meanScore
      have e : npSlice (s.map sc) a b = (npSlice s a b).map sc := by
        simp only [npSlice, List.map_drop, List.map_take]
      rw [e, List.length_map, hlen]

theorem unique_segs {f sc : α → Int} {s : List α} (hs : s.Pairwise (fun x y => f x ≤ f y)) :
    ∃ segs : List (List α), segs.flatten = s ∧ (∀ g ∈ segs, g ≠ []) ∧ (∀ g ∈ segs, ∀ x ∈ g, ∀ y ∈ g, f x = f y) ∧ segs.Pairwise (fun g h => ∀ x ∈ g, ∀ y ∈ h, f x < f y) ∧
      unique (s.map f) (s.map sc) = .ok (segs.map (fun g => ((g.map f).headD 0, meanScore (g.map sc), g.length))) := by
  obtain ⟨u, hu, hb⟩ := bounds_start (s.map f)
  obtain ⟨segs, S⟩ := segs_of (sc := sc) hs u 0 hb (by omega)
  refine ⟨segs, by simpa using S.flat, S.ne, S.same, S.inc, ?_⟩
  unfold unique
  rw [hu, S.keys]
  dsimp only
  rw [S.means, S.counts]
  congr 1
  generalize segs = l
  induction l with
  | nil => rfl
  | cons g l ih => simp only [List.map_cons, List.zip_cons_cons, ih]

/-- the elements with the key of a segment are those of the segment -/
theorem seg_filter {f : α → Int} : ∀ {segs : List (List α)}, (∀ g ∈ segs, ∀ x ∈ g, ∀ y ∈ g, f x = f y) → segs.Pairwise (fun g h => ∀ x ∈ g, ∀ y ∈ h, f x < f y) →
    ∀ g ∈ segs, ∀ x ∈ g, segs.flatten.filter (fun y => f y == f x) = g
  | [], _, _, g, hg, _, _ => by cases hg
  | h :: segs, hs, hp, g, hg, x, hx => by
    rw [List.pairwise_cons] at hp
    rw [List.flatten_cons, List.filter_append]
    rcases List.mem_cons.mp hg with rfl | hg
    · have e1 : g.filter (fun y => f y == f x) = g := List.filter_eq_self.mpr (fun y hy => by simp [hs g (by simp) y hy x hx])
      have e2 : segs.flatten.filter (fun y => f y == f x) = [] := by
        rw [List.filter_eq_nil_iff]
        intro y hy
        obtain ⟨k, hk, hyk⟩ := List.mem_flatten.mp hy
        have := hp.1 k hk x hx y hyk
        simp; omega
      rw [e1, e2, List.append_nil]
    · have e1 : h.filter (fun y => f y == f x) = [] := by
        rw [List.filter_eq_nil_iff]
        intro y hy
        have := hp.1 g hg y hy x hx
        simp; omega
      rw [e1, List.nil_append]
      exact seg_filter (fun g hg => hs g (by simp [hg])) hp.2 g hg x hx

theorem forall₂_imp_mem {β : Type} {P Q : α → β → Prop} : ∀ {l : List α} {m : List β}, List.Forall₂ P l m → (∀ x ∈ l, ∀ y, P x y → Q x y) → List.Forall₂ Q l m
  | _, _, .nil, _ => .nil
  | _, _, .cons h t, hi => .cons (hi _ (by simp) _ h) (forall₂_imp_mem t (fun x hx => hi x (by simp [hx])))

theorem forall₂_map_eq {β γ : Type} {f : α → γ} {g : β → γ} : ∀ {l : List α} {m : List β}, List.Forall₂ (fun x y => g y = f x) l m → m.map g = l.map f
  | _, _, .nil => rfl
  | _, _, .cons h t => by rw [List.map_cons, List.map_cons, h, forall₂_map_eq t]

end ABX.Analyze
