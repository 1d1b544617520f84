import Verif.Model.Score
import Verif.Proofs.Pairs4
/-! Helper lemmas for the scores. -/
namespace ABX.Score
open ExtSort H52NP ABX.Task Pairs SideOps
variable {δ : Type}

theorem bisect_spec {l : List Int} (hl : l.Pairwise (· < ·)) {key : Int} {m : Nat} (hm : l[m]? = some key) :
    ∀ (fuel lo hi : Nat), lo ≤ m → m ≤ hi → hi ≤ l.length → hi - lo ≤ fuel → bisect l key fuel lo hi = m := by
  intro fuel
  have hmono : ∀ (i j : Nat) (x y : Int), l[i]? = some x → l[j]? = some y → i < j → x < y := by
    intro i j x y hx hy hij
    obtain ⟨hi, hx⟩ := List.getElem?_eq_some_iff.mp hx
    obtain ⟨hj, hy⟩ := List.getElem?_eq_some_iff.mp hy
    rw [← hx, ← hy]
    exact List.pairwise_iff_getElem.mp hl i j hi hj hij
  induction fuel with
  | zero => intro lo hi h1 h2 h3 h4; unfold bisect; omega
  | succ fuel ih =>
    intro lo hi h1 h2 h3 h4
    unfold bisect
    by_cases hlt : lo < hi
    · rw [if_pos hlt]
      dsimp only
      have hmid : lo + (hi - lo) / 2 < hi := by omega
      generalize hmid' : lo + (hi - lo) / 2 = mid at *
      have hge : lo ≤ mid := by omega
      obtain ⟨v, hv⟩ : ∃ v, l[mid]? = some v := ⟨l[mid], List.getElem?_eq_getElem (by omega)⟩
      rw [hv]
      dsimp only
      by_cases hvk : v < key
      · rw [if_pos hvk]
        apply ih
        · by_contra hc
          have : m ≤ mid := by omega
          rcases Nat.lt_or_ge m mid with h | h
          · have := hmono m mid _ _ hm hv h; omega
          · have : m = mid := by omega
            subst this; rw [hm] at hv; injection hv with hv; omega
        · exact h2
        · exact h3
        · omega
      · rw [if_neg hvk]
        apply ih
        · exact h1
        · by_contra hc
          have := hmono mid m _ _ hv hm (by omega)
          omega
        · omega
        · omega
    · rw [if_neg hlt]; omega

theorem roundDiv_one (n : Nat) : roundDiv n 1 = n := by
  unfold roundDiv
  simp [Nat.mod_one]

theorem toF64_small {x : Int} (h0 : 0 ≤ x) (h : x < 2 ^ 53) : toF64 x = x := by
  unfold toF64
  have h1 : x.natAbs < 2 ^ 53 := by omega
  have h2 : Nat.log2 x.natAbs - 52 = 0 := by
    by_cases hz : x.natAbs = 0
    · rw [hz]; rfl
    · have := (Nat.log2_lt hz).mpr h1
      omega
  dsimp only
  rw [h2, pow_zero, roundDiv_one, if_neg (by omega)]
  omega

theorem searchsorted_spec {t : IntType} {pairs : List Int} (hl : pairs.Pairwise (· < ·)) (hr : ∀ k ∈ pairs, 0 ≤ k ∧ k < 2 ^ 53) {key : Int} {m : Nat}
    (hm : pairs[m]? = some key) : searchsorted t pairs key = m := by
  have hlt : m < pairs.length := (List.getElem?_eq_some_iff.mp hm).1
  unfold searchsorted
  split
  · have h1 : pairs.map toF64 = pairs := by
      have : pairs.map toF64 = pairs.map id := List.map_congr_left (fun k hk => toF64_small (hr k hk).1 (hr k hk).2)
      rw [this, List.map_id]
    have hk := hr key (List.mem_of_getElem? hm)
    rw [h1, toF64_small hk.1 hk.2]
    exact bisect_spec hl hm _ _ _ (by omega) (by omega) (Nat.le_refl _) (by omega)
  · exact bisect_spec hl hm _ _ _ (by omega) (by omega) (Nat.le_refl _) (by omega)

/-- the distance of a pair: the row of the table of distances at the position of the key of the pair -/
def DistOf (pairs : List Int) (dis : List δ) (k : Int) (v : δ) : Prop := ∃ m : Nat, pairs[m]? = some k ∧ dis[m]? = some v

theorem tripScore_ok {lt : δ → δ → Bool} {base : Nat} (h0 : 0 < base) (hb : base ≤ 94906265) {t : IntType}
    (ht : fitIntegerType (int64.cast ((base : Nat) ^ 2 - 1)) false = .ok t) {pairs : List Int} (hl : pairs.Pairwise (· < ·))
    (hr : ∀ k ∈ pairs, 0 ≤ k ∧ k ≤ (base : Int) ^ 2 - 1) {dis : List δ} (hd : dis.length = pairs.length) {d : Int × Int × Int} (hin : InRange (base : Nat) d)
    (hA : d.1 + base * d.2.2 ∈ pairs) (hB : d.2.1 + base * d.2.2 ∈ pairs) :
    ∃ s, tripScore lt t base pairs dis d = .ok s ∧
      ∃ x y, DistOf pairs dis (d.1 + base * d.2.2) x ∧ DistOf pairs dis (d.2.1 + base * d.2.2) y ∧ s = sign lt x y := by
  obtain ⟨t', h1, -, -, h2⟩ := base_fit h0 (show base ≤ maxBase by unfold maxBase; omega)
  rw [ht] at h1
  cases h1
  have hsq : (base : Int) ^ 2 ≤ 9007199136250225 := by
    have : base ^ 2 ≤ 94906265 ^ 2 := Nat.pow_le_pow_left hb 2
    have h2 : (94906265 : Nat) ^ 2 = 9007199136250225 := by decide
    rw [h2] at this
    exact_mod_cast this
  have hr' : ∀ k ∈ pairs, 0 ≤ k ∧ k < 2 ^ 53 := by
    intro k hk
    have := hr k hk
    constructor
    · omega
    · have : (2 : Int) ^ 53 = 9007199254740992 := by norm_num
      omega
  obtain ⟨⟨a1, a2⟩, ⟨b1, b2⟩, ⟨x1, x2⟩⟩ := hin
  have get : ∀ k ∈ pairs, ∃ (m : Nat) (v : δ), pairs[m]? = some k ∧ dis[m]? = some v ∧ dis[searchsorted t pairs k]? = some v := by
    intro k hk
    obtain ⟨m, hm⟩ := List.getElem?_of_mem hk
    have hlt : m < dis.length := by rw [hd]; exact (List.getElem?_eq_some_iff.mp hm).1
    refine ⟨m, dis[m], hm, List.getElem?_eq_getElem hlt, ?_⟩
    rw [searchsorted_spec hl hr' hm]
    exact List.getElem?_eq_getElem hlt
  obtain ⟨m1, x, g1, g2, g3⟩ := get _ hA
  obtain ⟨m2, y, k1, k2, k3⟩ := get _ hB
  refine ⟨sign lt x y, ?_, x, y, ⟨m1, g1, g2⟩, ⟨m2, k1, k2⟩, rfl⟩
  unfold tripScore
  rw [pairKey_exact h2 a1 a2 x1 x2, pairKey_exact h2 b1 b2 x1 x2, g3]
  dsimp only
  rw [k3]

/-- the loop writes the scores of the triplets at their rows -/
theorem scoreLoop_ok {f : Int × Int × Int → Except Err Int} {Q : Int × Int × Int → Int → Prop} :
    ∀ (cs : List (List (Int × Int × Int))) (pre scores : List Int) (n : Nat), (∀ d ∈ cs.flatten, ∃ s, f d = .ok s ∧ Q d s) →
      scores = pre ++ List.replicate n 0 → cs.flatten.length ≤ n →
      ∃ ss, List.Forall₂ Q cs.flatten ss ∧ scoreLoop f cs pre.length scores = .ok (pre ++ ss ++ List.replicate (n - cs.flatten.length) 0)
  | [], pre, scores, n, _, hs, _ => ⟨[], .nil, by simp [scoreLoop, hs]⟩
  | c :: cs, pre, scores, n, hq, hs, hn => by
    obtain ⟨s, h1, h2⟩ := sequence_exists (l := c) (fun d hd => hq d (by simp [hd]))
    have hlen := h2.length_eq
    rw [List.flatten_cons, List.length_append] at hn
    have ha := h5Assign_ok scores s pre.length (pre.length + c.length) (by omega) (by rw [hs]; simp; omega) (by omega)
    have hnew : scores.take pre.length ++ s ++ scores.drop (pre.length + c.length) = (pre ++ s) ++ List.replicate (n - c.length) 0 := by
      rw [hs, List.take_left, List.drop_append, List.drop_replicate]
      simp
    rw [hnew] at ha
    obtain ⟨ss, g1, g2⟩ := scoreLoop_ok cs (pre ++ s) _ (n - c.length) (fun d hd => hq d (by rw [List.flatten_cons]; simp only [List.mem_append]; right; exact hd)) rfl (by omega)
    refine ⟨s ++ ss, ?_, ?_⟩
    · rw [List.flatten_cons]; exact List.rel_append h2 g1
    · unfold scoreLoop
      rw [h1]
      dsimp only
      rw [ha]
      dsimp only
      rw [List.length_append, ← hlen] at g2
      rw [g2, List.flatten_cons, List.length_append, Nat.sub_sub]
      simp only [List.append_assoc]

end ABX.Score
