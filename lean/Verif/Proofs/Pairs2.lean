import Verif.Proofs.Pairs
import Verif.Proofs.TaskProp
/-!
Helper lemmas for the table of pairs: all the levels of a task file.
-/
namespace ABX.Pairs
open ExtSort H52NP Task SideOps

/-- one more than the largest item number of a level -/
def baseOf (L : Level ρ) : Nat := (L.frame.map (·.1)).foldl max 0 + 1

/-- what is needed of a level and its row of by_index for its pairs to be computed -/
structure LevelFit (data : List (Int × Int × Int)) (L : Level ρ) (iv : Nat × Nat) : Prop where
  ne : L.frame ≠ []
  lt : iv.1 < iv.2
  le : iv.2 ≤ data.length
  range : ∀ d ∈ npSlice data iv.1 iv.2, InRange (baseOf L : Nat) d
  base : baseOf L ≤ maxBase
  size : 2 * (iv.2 - iv.1) ≤ 2 ^ 53

/-- `u` is the list of the pairs of the triplets of an interval, increasing -/
def IsPairs (data : List (Int × Int × Int)) (base : Int) (iv : Nat × Nat) (u : List Int) : Prop :=
  u.Pairwise (· < ·) ∧ ∀ k, k ∈ u ↔ ∃ d ∈ npSlice data iv.1 iv.2, k = d.1 + base * d.2.2 ∨ k = d.2.1 + base * d.2.2

theorem levelPairs_fit {argsort : List Int → List Nat} (hs : ArgsortLaw argsort) {bufs : Bufs} (hb : bufs.Pos) {data : List (Int × Int × Int)}
    {L : Level ρ} {iv : Nat × Nat} (h : LevelFit data L iv) :
    ∃ u : List Int, levelPairs argsort bufs data ((iv.1 : Int), (iv.2 : Int)) (L.frame.map (·.1)) = .ok (baseOf L, (u.length : Nat), u) ∧
      IsPairs data (baseOf L : Nat) iv u := by
  have hr := h.range
  have hbase := h.base
  unfold baseOf at hr hbase ⊢
  cases hl : L.frame.map (·.1) with
  | nil => have := h.ne; simp at hl; exact absurd hl this
  | cons l ls =>
    rw [hl, List.foldl_cons, Nat.zero_max] at hr hbase
    obtain ⟨u, h1, h2, h3⟩ := levelPairs_ok hs hb h.lt h.le hr hbase h.size
    refine ⟨u, ?_, h2, ?_⟩
    · rw [h1, List.foldl_cons, Nat.zero_max]
    · intro k; rw [h3 k, List.foldl_cons, Nat.zero_max]

/-- the pairs of a level are in the range of its keys -/
theorem isPairs_range {data : List (Int × Int × Int)} {L : Level ρ} {iv : Nat × Nat} (h : LevelFit data L iv) {u : List Int}
    (hu : IsPairs data (baseOf L : Nat) iv u) : ∀ k ∈ u, 0 ≤ k ∧ k ≤ ((baseOf L : Nat) : Int) ^ 2 - 1 := by
  intro k hk
  obtain ⟨d, hd, hk⟩ := (hu.2 k).mp hk
  obtain ⟨⟨a1, a2⟩, ⟨b1, b2⟩, ⟨x1, x2⟩⟩ := h.range d hd
  rcases hk with rfl | rfl
  · exact ⟨(key_range a1 a2 x1 x2).1, (key_range a1 a2 x1 x2).2.1⟩
  · exact ⟨(key_range b1 b2 x1 x2).1, (key_range b1 b2 x1 x2).2.1⟩

theorem isPairs_ne {data : List (Int × Int × Int)} {L : Level ρ} {iv : Nat × Nat} (h : LevelFit data L iv) {u : List Int}
    (hu : IsPairs data (baseOf L : Nat) iv u) : u ≠ [] := by
  rintro rfl
  have hl := npSlice_length_of data (lo := iv.1) h.le
  have := h.lt
  cases hd : npSlice data iv.1 iv.2 with
  | nil => rw [hd] at hl; simp at hl; omega
  | cons d l =>
    have := (hu.2 (d.1 + ((baseOf L : Nat) : Int) * d.2.2)).mpr ⟨d, by rw [hd]; simp, Or.inl rfl⟩
    simp at this

theorem int64_key {base : Nat} (h : base ≤ maxBase) {k : Int} (h0 : 0 ≤ k) (hk : k ≤ (base : Int) ^ 2 - 1) : int64.cast k = k := by
  have hsq : (base : Int) ^ 2 ≤ 9223372030926249001 := by
    have : base ^ 2 ≤ maxBase ^ 2 := Nat.pow_le_pow_left h 2
    have h2 : maxBase ^ 2 = 9223372030926249001 := by decide
    rw [h2] at this
    exact_mod_cast this
  apply C43_cast_lossless
  · decide
  · have : int64.lo = -9223372036854775808 := by decide
    rw [this]; omega
  · have : int64.hi = 9223372036854775808 := by decide
    rw [this]; omega

/-- the attributes of unique_pairs: base and interval of every level -/
def attrsOf (ls : List (Level ρ)) (ns : List Nat) : List (List Val × (Nat × Int × Int)) :=
  List.zipWith (fun L (p : Nat × Nat) => (L.key, baseOf L, ((p.1 : Nat) : Int), ((p.2 : Nat) : Int))) ls (intervals 0 ns)

/-- the pairs of every level -/
inductive AllPairs (data : List (Int × Int × Int)) : List (Level ρ) → List (Nat × Nat) → List (List Int) → Prop
  | nil : AllPairs data [] [] []
  | cons {L : Level ρ} {iv : Nat × Nat} {u : List Int} {Ls ivs us} (h : LevelFit data L iv) (hu : IsPairs data (baseOf L : Nat) iv u)
      (t : AllPairs data Ls ivs us) : AllPairs data (L :: Ls) (iv :: ivs) (u :: us)

def lvOut (L : Level ρ) (iv : Nat × Nat) (u : List Int) : LevelOut := ⟨L.key, ((iv.1 : Int), (iv.2 : Int)), baseOf L, (u.length : Nat), u⟩

theorem firstLoop {argsort : List Int → List Nat} (hs : ArgsortLaw argsort) {bufs : Bufs} (hb : bufs.Pos) {data : List (Int × Int × Int)}
    {Ls : List (Level ρ)} {ivs : List (Nat × Nat)} (h : List.Forall₂ (LevelFit data) Ls ivs) :
    ∀ (byIndex : List (Int × Int)) (k : Nat), byIndex.drop k = ivs.map (fun p => ((p.1 : Int), (p.2 : Int))) →
      ∃ us ls, AllPairs data Ls ivs us ∧ sequence ((Ls.zipIdx k).map (firstStep argsort bufs data byIndex)) = .ok ls ∧
        ls = List.zipWith (fun (p : Level ρ × (Nat × Nat)) u => lvOut p.1 p.2 u) (Ls.zip ivs) us := by
  induction h with
  | nil => intro byIndex k _; exact ⟨[], [], .nil, rfl, rfl⟩
  | @cons L iv Ls ivs hL _ ih =>
    intro byIndex k hk
    obtain ⟨u, h1, h2⟩ := levelPairs_fit hs hb hL
    obtain ⟨us, ls, g1, g2, g3⟩ := ih byIndex (k + 1) (by rw [← List.drop_drop, hk]; rfl)
    have hget : byIndex[k]? = some ((iv.1 : Int), (iv.2 : Int)) := by
      have : (byIndex.drop k)[0]? = some ((iv.1 : Int), (iv.2 : Int)) := by rw [hk]; rfl
      simpa using this
    refine ⟨u :: us, lvOut L iv u :: ls, .cons hL h2 g1, ?_, by rw [g3]; rfl⟩
    have hf : firstStep argsort bufs data byIndex (L, k) = .ok (lvOut L iv u) := by
      unfold firstStep
      dsimp only
      rw [hget]
      dsimp only
      rw [h1]
      rfl
    rw [List.zipIdx_cons, List.map_cons, hf]
    simp only [sequence, g2]

theorem mergeLoop_ok {bufs : Bufs} (hb : bufs.Pos) {data : List (Int × Int × Int)} {Ls : List (Level ρ)} {ivs : List (Nat × Nat)} {us : List (List Int)}
    (h : AllPairs data Ls ivs us) : ∀ (c : Nat), ∃ ws,
      mergeLoop bufs (List.zipWith (fun (p : Level ρ × (Nat × Nat)) u => lvOut p.1 p.2 u) (Ls.zip ivs) us) (c : Int) =
        .ok (ws, List.zipWith (fun L (p : Nat × Nat) => (L.key, baseOf L, ((p.1 : Nat) : Int), ((p.2 : Nat) : Int))) Ls (intervals c (us.map List.length))) ∧
      ws.flatten = us.flatten := by
  induction h with
  | nil => intro c; exact ⟨[], rfl, rfl⟩
  | @cons L iv u Ls ivs us hL hu _ ih =>
    intro c
    obtain ⟨ws, h1, h2⟩ := ih (c + u.length)
    obtain ⟨cs, e1, e2, e3⟩ := chunksOf_ok (0 : Int) u (Nat.zero_le _) (Nat.le_refl _) hb.2.2.2.2.1
    rw [npSlice_all] at e2
    refine ⟨cs.map (List.map int64.cast) ++ ws, ?_, ?_⟩
    · simp only [List.zip_cons_cons, List.zipWith_cons_cons, lvOut, List.map_cons, intervals]
      unfold mergeLoop
      have := hL.lt
      rw [if_neg (by dsimp only; omega)]
      dsimp only
      rw [e1]
      dsimp only
      have h1' := h1
      rw [Nat.cast_add] at h1'
      simp only [lvOut] at h1'
      rw [h1']
      simp
    · rw [List.flatten_append, h2, ← List.map_flatten, e2, List.flatten_cons]
      congr 1
      have : ∀ k ∈ u, int64.cast k = k := fun k hk => int64_key hL.base (isPairs_range hL hu k hk).1 (isPairs_range hL hu k hk).2
      rw [List.map_congr_left this, List.map_id']

theorem generatePairs_ok {argsort : List Int → List Nat} (hs : ArgsortLaw argsort) {bufs : Bufs} (hb : bufs.Pos) {T : Task.Task ρ} {F : File}
    {ivs : List (Nat × Nat)} (hF : F.byIndex = ivs.map (fun p => ((p.1 : Int), (p.2 : Int)))) (h : List.Forall₂ (LevelFit F.data) (remaining T F) ivs) :
    ∃ us, AllPairs F.data (remaining T F) ivs us ∧
      generatePairs argsort bufs T F = .ok ⟨us.flatten, attrsOf (remaining T F) (us.map List.length)⟩ := by
  obtain ⟨us, ls, h1, h2, h3⟩ := firstLoop hs hb h F.byIndex 0 (by rw [List.drop_zero, hF])
  obtain ⟨ws, h4, h5⟩ := mergeLoop_ok hb h1 0
  refine ⟨us, h1, ?_⟩
  unfold generatePairs
  rw [h2, h3]
  dsimp only
  rw [Nat.cast_zero] at h4
  rw [h4]
  dsimp only
  rw [writeDataset_plain _ _ _ hb.2.2.2.2.2, h5]
  dsimp only
  have hn : ∀ {Ls : List (Level ρ)} {ivs us}, AllPairs F.data Ls ivs us →
      ((List.zipWith (fun (p : Level ρ × (Nat × Nat)) u => lvOut p.1 p.2 u) (Ls.zip ivs) us).map LevelOut.n).sum = ((us.flatten.length : Nat) : Int) := by
    intro Ls ivs us h
    induction h with
    | nil => rfl
    | @cons L iv u Ls ivs us hL hu _ ih =>
      rw [List.zip_cons_cons, List.zipWith_cons_cons, List.map_cons, List.sum_cons, ih, List.flatten_cons, List.length_append, Nat.cast_add]
      rfl
  rw [hn h1]
  simp only [Int.toNat_natCast, Nat.sub_self, List.replicate_zero, List.append_nil]
  rfl

end ABX.Pairs
