import Verif.Proofs.Score
/-! Helper lemmas for the scores: all the levels of a file. -/
namespace ABX.Score
open ExtSort H52NP ABX.Task Pairs SideOps
variable {δ ρ : Type}

/-- what is needed of a level for its scores to be computed -/
structure LevelReady (F : File) (P : PairFile) (dist : List δ) (key : List Val) (iv : Nat × Nat) (base : Nat) (start stop : Int) : Prop where
  attr : P.attrs.lookup key = some (base, start, stop)
  pos : 0 < base
  small : base ≤ 94906265
  le : iv.1 ≤ iv.2
  bound : iv.2 ≤ F.data.length
  range : ∀ d ∈ npSlice F.data iv.1 iv.2, InRange (base : Nat) d
  pairs : IsPairs F.data (base : Nat) iv (npSlice P.data start.toNat stop.toNat)
  dist : (npSlice dist start.toNat stop.toNat).length = (npSlice P.data start.toNat stop.toNat).length

/-- the score of a triplet of a level -/
def ScoreOf (lt : δ → δ → Bool) (P : PairFile) (dist : List δ) (key : List Val) (d : Int × Int × Int) (s : Int) : Prop :=
  ∃ (base : Nat) (start stop : Int) (x y : δ), P.attrs.lookup key = some (base, start, stop) ∧
    DistOf (npSlice P.data start.toNat stop.toNat) (npSlice dist start.toNat stop.toNat) (d.1 + base * d.2.2) x ∧
    DistOf (npSlice P.data start.toNat stop.toNat) (npSlice dist start.toNat stop.toNat) (d.2.1 + base * d.2.2) y ∧ s = sign lt x y

theorem scoreLevel_ok {lt : δ → δ → Bool} {bufLen : Nat} (hb : 0 < bufLen) {F : File} {P : PairFile} {dist : List δ} {key : List Val} {iv : Nat × Nat}
    {base : Nat} {start stop : Int} (h : LevelReady F P dist key iv base start stop) {k : Nat} (hk : F.byIndex[k]? = some ((iv.1 : Int), (iv.2 : Int)))
    {pre : List Int} (hpre : pre.length = iv.1) {n : Nat} (hn : iv.2 - iv.1 ≤ n) :
    ∃ ss, List.Forall₂ (ScoreOf lt P dist key) (npSlice F.data iv.1 iv.2) ss ∧
      scoreLevel lt bufLen F P dist (key, k) (pre ++ List.replicate n 0) = .ok (pre ++ ss ++ List.replicate (n - (iv.2 - iv.1)) 0) := by
  obtain ⟨cs, c1, c2, -⟩ := chunksOf_ok (0, 0, 0) F.data h.le h.bound hb
  obtain ⟨t, t1, -, -, -⟩ := base_fit h.pos (show base ≤ maxBase by have := h.small; unfold maxBase; omega)
  have hr : ∀ k ∈ npSlice P.data start.toNat stop.toNat, 0 ≤ k ∧ k ≤ (base : Int) ^ 2 - 1 := by
    intro k hk
    obtain ⟨d, hd, hk⟩ := (h.pairs.2 k).mp hk
    obtain ⟨⟨a1, a2⟩, ⟨b1, b2⟩, ⟨x1, x2⟩⟩ := h.range d hd
    rcases hk with rfl | rfl
    · exact ⟨(key_range a1 a2 x1 x2).1, (key_range a1 a2 x1 x2).2.1⟩
    · exact ⟨(key_range b1 b2 x1 x2).1, (key_range b1 b2 x1 x2).2.1⟩
  have hf : ∀ d ∈ cs.flatten, ∃ s, tripScore lt t base (npSlice P.data start.toNat stop.toNat) (npSlice dist start.toNat stop.toNat) d = .ok s ∧
      ScoreOf lt P dist key d s := by
    intro d hd
    rw [c2] at hd
    obtain ⟨s, s1, x, y, s2, s3, s4⟩ := tripScore_ok (lt := lt) h.pos h.small t1 h.pairs.1 hr h.dist (h.range d hd)
      ((h.pairs.2 _).mpr ⟨d, hd, Or.inl rfl⟩) ((h.pairs.2 _).mpr ⟨d, hd, Or.inr rfl⟩)
    exact ⟨s, s1, base, start, stop, x, y, h.attr, s2, s3, s4⟩
  have hl : cs.flatten.length = iv.2 - iv.1 := by rw [c2]; exact npSlice_length_of F.data h.bound
  obtain ⟨ss, g1, g2⟩ := scoreLoop_ok cs pre _ n hf rfl (by omega)
  refine ⟨ss, by rw [← c2]; exact g1, ?_⟩
  unfold scoreLevel
  dsimp only
  rw [hk]
  dsimp only
  rw [h.attr]
  dsimp only
  rw [t1]
  dsimp only
  rw [Int.toNat_natCast, Int.toNat_natCast, c1]
  dsimp only
  rw [← hpre, g2, hl, hpre]

theorem scoreLevels_ok {lt : δ → δ → Bool} {bufLen : Nat} (hb : 0 < bufLen) {F : File} {P : PairFile} {dist : List δ} :
    ∀ (keys : List (List Val)) (ns : List Nat) (k : Nat) (pre : List Int) (n : Nat), ns.sum = n → keys.length = ns.length →
      F.byIndex.drop k = (intervals pre.length ns).map (fun p => (((p.1 : Nat) : Int), ((p.2 : Nat) : Int))) →
      List.Forall₂ (fun key iv => ∃ base start stop, LevelReady F P dist key iv base start stop) keys (intervals pre.length ns) →
      ∃ S, scoreLevels lt bufLen F P dist (keys.zipIdx k) (pre ++ List.replicate n 0) = .ok (pre ++ S) ∧ S.length = n ∧
        ∀ key iv, (key, iv) ∈ keys.zip (intervals pre.length ns) → ∀ i d, iv.1 ≤ i → i < iv.2 → F.data[i]? = some d →
          ∃ s, (pre ++ S)[i]? = some s ∧ ScoreOf lt P dist key d s
  | [], ns, k, pre, n, hsum, hlen, _, _ => by
    have : ns = [] := by simpa using hlen.symm
    subst this
    refine ⟨[], ?_, by simpa using hsum, by simp⟩
    simp at hsum
    subst hsum
    simp [scoreLevels]
  | key :: keys, ns, k, pre, n, hsum, hlen, hix, hF => by
    cases ns with
    | nil => simp at hlen
    | cons m ns =>
      rw [intervals] at hix hF
      rw [List.sum_cons] at hsum
      rw [List.forall₂_cons] at hF
      obtain ⟨⟨base, start, stop, hr⟩, hF⟩ := hF
      have hk : F.byIndex[k]? = some (((pre.length : Nat) : Int), ((pre.length + m : Nat) : Int)) := by
        have : (F.byIndex.drop k)[0]? = some (((pre.length : Nat) : Int), ((pre.length + m : Nat) : Int)) := by rw [hix]; rfl
        simpa using this
      obtain ⟨ss, s1, s2⟩ := scoreLevel_ok (lt := lt) hb hr hk rfl (n := n) (by dsimp only; omega)
      have hss := s1.length_eq
      have hsl := npSlice_length_of F.data (lo := pre.length) hr.bound
      dsimp only at hss hsl s2
      have hm : ss.length = m := by omega
      obtain ⟨S, g1, g2, g3⟩ := scoreLevels_ok (lt := lt) hb keys ns (k + 1) (pre ++ ss) (n - m) (by omega) (by simpa using hlen)
        (by rw [List.length_append, hm, ← List.drop_drop, hix]; rfl) (by rw [List.length_append, hm]; exact hF)
      refine ⟨ss ++ S, ?_, by rw [List.length_append]; omega, ?_⟩
      · rw [List.zipIdx_cons]
        unfold scoreLevels
        rw [s2]
        dsimp only
        have : n - (pre.length + m - pre.length) = n - m := by omega
        rw [this, g1, List.append_assoc]
      · intro key' iv hmem i d hi1 hi2 hd
        rw [intervals, List.zip_cons_cons, List.mem_cons] at hmem
        rcases hmem with he | hmem
        · cases he
          dsimp only at hi1 hi2
          rw [List.forall₂_iff_get] at s1
          have hi : i - pre.length < ss.length := by omega
          have hget := s1.2 (i - pre.length) (by omega) hi
          refine ⟨ss[i - pre.length], ?_, ?_⟩
          · rw [List.getElem?_append_right hi1, List.getElem?_append_left hi, List.getElem?_eq_getElem hi]
          · have e1 : (npSlice F.data pre.length (pre.length + m))[i - pre.length]? = some d := by
              unfold npSlice
              rw [List.getElem?_drop, List.getElem?_take_of_lt (by omega), ← hd]
              congr 1
              omega
            rw [List.getElem?_eq_getElem (by omega)] at e1
            injection e1 with e1
            rw [← e1]
            exact hget
        · have := g3 key' iv (by rw [List.length_append, hm]; exact hmem) i d hi1 hi2 hd
          rw [List.append_assoc] at this
          exact this

theorem lookup_of_nodup {α β : Type} [BEq α] [LawfulBEq α] {l : List (α × β)} (h : (l.map (·.1)).Nodup) {p : α × β} (hp : p ∈ l) : l.lookup p.1 = some p.2 := by
  induction l with
  | nil => cases hp
  | cons q l ih =>
    rw [List.map_cons, List.nodup_cons] at h
    rcases List.mem_cons.mp hp with rfl | hp
    · simp [List.lookup]
    · have : (p.1 == q.1) = false := by
        rw [beq_eq_false_iff_ne]
        intro he
        exact h.1 (he ▸ List.mem_map_of_mem hp)
      unfold List.lookup
      rw [this]
      exact ih h.2 hp

theorem npSlice_len_eq {α β : Type} {l : List α} {l' : List β} (h : l.length = l'.length) (a b : Nat) : (npSlice l a b).length = (npSlice l' a b).length := by
  unfold npSlice
  simp [h]

end ABX.Score
