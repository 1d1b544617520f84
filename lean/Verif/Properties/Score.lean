import Verif.Proofs.Score3
import Verif.Properties.PairsWitness
/-!
Properties C16 and C17: the scores.

`DistOf pairs dis k v`: the key `k` is at some position of `pairs` and `v` at the same position of `dis` (keys are strictly increasing, C12, so
that there is only one).
-/
namespace ABX.Score
open ExtSort H52NP ABX.Task Pairs SideOps Sampler
variable {δ ρ : Type}

/-- C16: for a task file written by `generate` and `_generate_pairs` and any table with one distance per pair, `score` succeeds and writes for every triplet (A, B, X), at its row,
1 if the distance stored for (A, X) is less than the distance stored for (B, X), -1 if it is greater, 0 otherwise.  `lt` is any asymmetric comparison, `bufLen` any
positive length of the read buffer.  Missing: levels with more than 94906265 items (`C16_violated`), and the conditions of C12. -/
theorem C16_scores_partial {e : Env} (he : e.Lawful) {a : Args ρ} (ha : a.OK) {T : Task.Task ρ} (h : init e a = .ok T)
    {N : Num} {threshold : Nat} {src : List Val → List Val → Nat → Src} {bl1 bl2 : Nat} (h1 : 0 < bl1) (h2 : 0 < bl2) {F : File}
    (hF : generate e N threshold src bl1 bl2 T = .ok (some F)) (hS : Small e T F) (hsq : ∀ L ∈ T.levels, ∀ p ∈ L.frame, p.1 < 94906265)
    {argsort : List Int → List Nat} (hs : ArgsortLaw argsort) {bufs : Bufs} (hb : bufs.Pos) {P : PairFile} (hP : generatePairs argsort bufs T F = .ok P)
    {lt : δ → δ → Bool} (hlt : ∀ x y, lt x y = true → lt y x = false) {dist : List δ} (hd : dist.length = P.data.length) {bufLen : Nat} (hbl : 0 < bufLen) :
    ∃ S, score lt bufLen F P dist = .ok S ∧ S.length = F.data.length ∧
      (∀ i, i < F.data.length → ∃ (j : Nat) (key : List Val) (iv : Int × Int), F.bys[j]? = some key ∧ F.byIndex[j]? = some iv ∧ iv.1 ≤ i ∧ (i : Int) < iv.2) ∧
      ∀ (j : Nat) (key : List Val) (iv : Int × Int), F.bys[j]? = some key → F.byIndex[j]? = some iv →
        ∀ (i : Nat) (A B X : Int), iv.1 ≤ i → (i : Int) < iv.2 → F.data[i]? = some (A, B, X) →
        ∃ (base : Nat) (start stop : Int) (dAX dBX : δ), P.attrs.lookup key = some (base, start, stop) ∧
          DistOf (npSlice P.data start.toNat stop.toNat) (npSlice dist start.toNat stop.toNat) (A + base * X) dAX ∧
          DistOf (npSlice P.data start.toNat stop.toNat) (npSlice dist start.toNat stop.toNat) (B + base * X) dBX ∧
          S[i]? = some (if lt dAX dBX then 1 else if lt dBX dAX then -1 else 0) := by
  obtain ⟨total, t, tb, outs, K⟩ := generate_ok h1 h2 hF
  obtain ⟨hfit, hbys⟩ := file_fits he ha h K hS
  obtain ⟨us, g1, g2⟩ := generatePairs_ok hs hb K.index hfit
  rw [hP] at g2
  cases g2
  have hr := ready_of rfl g1 hfit ((init_keys_nodup he ha h).sublist (List.Sublist.map _ List.filter_sublist)) (by
    intro L hL
    obtain ⟨iv, -, hLf⟩ := forall₂_mem_left hfit L hL
    obtain ⟨p, hp, hpb⟩ := baseOf_mem hLf.ne
    have := hsq L (List.mem_filter.mp hL).1 p hp
    omega) hd
  have hlen : F.bys.length = ((kept outs).map (fun p => (levelTrips p).length)).length := by rw [K.bys]; simp
  have hsum : ((kept outs).map (fun p => (levelTrips p).length)).sum = F.data.length := by
    rw [K.data, List.length_map, List.length_flatMap]
  have hix := K.index
  generalize hns : (kept outs).map (fun p => (levelTrips p).length) = ns at *
  rw [hbys] at hr
  obtain ⟨S, s1, s2, s3⟩ := scoreLevels_ok (lt := lt) hbl F.bys ns 0 [] F.data.length hsum hlen (by rw [List.drop_zero, hix]; rfl) hr
  rw [List.nil_append, List.nil_append] at s1
  refine ⟨S, s1, s2, ?_, ?_⟩
  · intro i hi
    obtain ⟨j, p, c1, c2, c3⟩ := intervals_cover ns 0 i (by omega) (by omega)
    have hj : j < F.bys.length := by
      have := (List.getElem?_eq_some_iff.mp c1).1
      rw [intervals_length] at this
      omega
    refine ⟨j, F.bys[j], (((p.1 : Nat) : Int), ((p.2 : Nat) : Int)), List.getElem?_eq_getElem hj, ?_, by dsimp only; omega, by dsimp only; omega⟩
    rw [hix, List.getElem?_map, c1]
    rfl
  · intro j key iv hkey hiv i A B X hi1 hi2 hdat
    rw [hix, List.getElem?_map, Option.map_eq_some_iff] at hiv
    obtain ⟨p, hp, rfl⟩ := hiv
    dsimp only at hi1 hi2
    have hmem : (key, p) ∈ F.bys.zip (intervals 0 ns) := by
      apply List.mem_of_getElem? (i := j)
      rw [List.getElem?_zip_eq_some]
      exact ⟨hkey, hp⟩
    obtain ⟨s, k1, base, start, stop, x, y, k2, k3, k4, k5⟩ := s3 key p hmem i _ (by omega) (by omega) hdat
    rw [List.nil_append] at k1
    refine ⟨base, start, stop, x, y, k2, k3, k4, ?_⟩
    rw [k1, k5]
    unfold sign
    cases hxy : lt x y with
    | true => rw [hlt x y hxy]; rfl
    | false => cases lt y x <;> rfl

/-- C17: for any tables of pairs and distances, sorted or not, of any length, exchanging A and B negates the score, and errors stay errors. -/
theorem C17_swap (lt : δ → δ → Bool) (t : IntType) (base : Int) (pairs : List Int) (dis : List δ) (A B X : Int) :
    tripScore lt t base pairs dis (B, A, X) = (tripScore lt t base pairs dis (A, B, X)).map (fun s => -s) := by
  unfold tripScore
  dsimp only
  cases dis[searchsorted t pairs (pairKey t base (t.cast A) (t.cast X))]? with
  | none => cases dis[searchsorted t pairs (pairKey t base (t.cast B) (t.cast X))]? <;> rfl
  | some x =>
    cases dis[searchsorted t pairs (pairKey t base (t.cast B) (t.cast X))]? with
    | none => rfl
    | some y =>
      simp only [Except.map]
      unfold sign
      rw [neg_sub]

/-- C17: whatever the files, a run of `score` that succeeds writes only -1, 0 and 1. -/
theorem C17_range {lt : δ → δ → Bool} {bufLen : Nat} {F : File} {P : PairFile} {dist : List δ} {S : List Int} (h : score lt bufLen F P dist = .ok S) :
    ∀ s ∈ S, s = -1 ∨ s = 0 ∨ s = 1 :=
  scoreLevels_range _ _ _ (by intro s hs; rw [(List.mem_replicate.mp hs).2]; simp) h

theorem F64.lt_asymm : ∀ x y : F64, F64.lt x y = true → F64.lt y x = false := by
  intro x y h
  cases x <;> cases y <;> simp [F64.lt] at h ⊢
  exact le_of_lt h

/-- C17: ties, and distances that cannot be compared, give 0. -/
theorem C17_ties (x y : F64) : sign F64.lt x x = 0 ∧ sign F64.lt .nan y = 0 ∧ sign F64.lt x .nan = 0 := by
  refine ⟨?_, ?_, ?_⟩
  · unfold sign; rw [sub_self]
  · unfold sign; cases y <;> rfl
  · unfold sign; cases x <;> rfl

/-- C17: for numbers, the score is the sign of d(B,X) - d(A,X). -/
theorem C17_numbers (p q : Rat) : sign F64.lt (.fin p) (.fin q) = if q - p > 0 then 1 else if q - p < 0 then -1 else 0 := by
  unfold sign F64.lt
  dsimp only
  rcases lt_trichotomy p q with h | h | h
  · have h' : ¬ q < p := not_lt.mpr (le_of_lt h)
    simp [h, h']
  · subst h; simp
  · have h' : ¬ p < q := not_lt.mpr (le_of_lt h)
    simp [h, h']

/-- C16 is violated for large tables: keys are compared in float64, where 2^53 + 1 is not representable.  94906266 items, the triplet (A, B, X) with the keys 2^53 + 1 of (A, X)
and 2^53 of (B, X), at the distances 5 and 7: the score is 0 instead of 1, since the distance of (B, X) is used for both. -/
theorem C16_violated :
    let base : Nat := 94906266
    let X : Int := 9007199254740993 / 94906266
    let A : Int := 9007199254740993 % 94906266
    0 ≤ A ∧ A - 1 ≥ 0 ∧ A < base ∧ X < base ∧ fitIntegerType (int64.cast ((base : Nat) ^ 2 - 1)) false = .ok ⟨64, false⟩ ∧
    tripScore F64.lt ⟨64, false⟩ base [A - 1 + base * X, A + base * X] [.fin 7, .fin 5] (A, A - 1, X) = .ok 0 ∧
    sign F64.lt (.fin 5) (.fin 7) = 1 := by
  decide +kernel

/-- C16, example: the hypotheses hold of the task `ex2`, with any comparison and any distances. -/
example {lt : δ → δ → Bool} (hlt : ∀ x y, lt x y = true → lt y x = false) (d : δ) : ∃ T F P S, init E0 ex2 = .ok T ∧
    generate E0 N0 0 (fun _ _ _ => src0) 1000 1000 T = .ok (some F) ∧ generatePairs insArgsort bufs0 T F = .ok P ∧
    score lt 2 F P (List.replicate P.data.length d) = .ok S ∧ S.length = 5 := by
  obtain ⟨F, hF, d1, d2⟩ := ex2_file
  obtain ⟨T, h1, h2⟩ := run_ok hF
  have hS : Small E0 T F := small_of (by decide +kernel) h1 (by rw [d1]; decide)
  obtain ⟨P, p1, -⟩ := C12_pairs_partial E0_lawful ex2_ok h1 (by omega) (by omega) h2 hS insArgsort_law bufs0_pos
  obtain ⟨S, s1, s2, -⟩ := C16_scores_partial E0_lawful ex2_ok h1 (by omega) (by omega) h2 hS
    (fun L hL p hp => by have := labels_of (n := 100) (by decide +kernel) h1 L hL p hp; omega) insArgsort_law bufs0_pos p1 hlt
    (List.length_replicate (a := d)) (bufLen := 2) (by omega)
  exact ⟨T, F, P, S, h1, h2, p1, s1, by rw [s2, d1]; rfl⟩

/-- the scores for the table of pairs of `ex2` and some distances, one of them not a number -/
example : score F64.lt 2 ⟨[(0, 2, 4), (0, 3, 4), (1, 2, 4), (1, 3, 4), (0, 1, 2)], [], [[.int 0], [.int 2]], [(0, 4), (4, 5)], []⟩
    ⟨[20, 21, 22, 23, 6, 7], [([.int 0], 5, 0, 4), ([.int 2], 3, 4, 6)]⟩ [.fin 1, .fin 2, .fin 2, .nan, .fin 3, .fin 1] = .ok [1, 0, 0, 0, -1] := by decide +kernel

/-- C16: the keys that are compared in float64 (for keys of type uint64) are the nearest multiples of the last place, so that keys that differ by less than one half of it may become equal -/
theorem C16_float (x : Int) : (2 ^ (Nat.log2 x.natAbs - 52) : Int) ∣ toF64 x ∧ 2 * |toF64 x - x| ≤ 2 ^ (Nat.log2 x.natAbs - 52) := by
  unfold toF64
  dsimp only
  generalize hn : x.natAbs = n
  generalize n.log2 - 52 = e
  have hb : 0 < 2 ^ e := by positivity
  have hq : 2 * |((roundDiv n (2 ^ e) * 2 ^ e : Nat) : Int) - n| ≤ 2 ^ e := by
    unfold roundDiv
    have h := Nat.div_add_mod n (2 ^ e)
    have hm := Nat.mod_lt n hb
    have hx : (n / 2 ^ e + 1) * 2 ^ e = 2 ^ e * (n / 2 ^ e) + 2 ^ e := by ring
    have hy : (n / 2 ^ e) * 2 ^ e = 2 ^ e * (n / 2 ^ e) := by ring
    have hz : (2 ^ e : Int) = ((2 ^ e : Nat) : Int) := by push_cast; rfl
    rw [hz]
    generalize 2 ^ e = b at *
    dsimp only
    generalize b * (n / b) = w at *
    generalize n % b = r at *
    rw [abs_eq_max_neg]
    split_ifs <;> simp only [hx, hy] <;> omega
  have hd : (2 ^ e : Int) ∣ ((roundDiv n (2 ^ e) * 2 ^ e : Nat) : Int) := ⟨(roundDiv n (2 ^ e) : Int), by push_cast; ring⟩
  generalize ((roundDiv n (2 ^ e) * 2 ^ e : Nat) : Int) = r at *
  by_cases hx : x < 0
  · rw [if_pos hx]
    refine ⟨(Int.dvd_neg).mpr hd, ?_⟩
    have : -r - x = -(r - n) := by omega
    rw [this, abs_neg]
    exact hq
  · rw [if_neg hx]
    refine ⟨hd, ?_⟩
    have : (n : Int) = x := by omega
    rw [← this]
    exact hq
example : toF64 (2 ^ 54 + 3) = 2 ^ 54 + 4 ∧ toF64 (2 ^ 54 + 2) = 2 ^ 54 ∧ toF64 (-(2 ^ 54 + 3)) = -(2 ^ 54 + 4) := by decide +kernel

#print axioms C16_float
#print axioms C16_scores_partial
#print axioms C16_violated
#print axioms C17_swap
#print axioms C17_range
#print axioms C17_ties
#print axioms C17_numbers

end ABX.Score
