import Verif.Properties.Score
import Verif.Properties.Distances
/-! Helper lemmas for C18: the table of pairs of a task is one for which the distances can be computed. -/
namespace ABX.EndToEnd
open ExtSort H52NP ABX.Task Pairs SideOps Sampler Distances Score
variable {ρ φ δ : Type}

theorem intervals_order (ns : List Nat) : ∀ c (i j : Nat) p q, (intervals c ns)[i]? = some p → (intervals c ns)[j]? = some q → i < j → p.2 ≤ q.1 := by
  induction ns with
  | nil => intro c i j p q h; simp [intervals] at h
  | cons n ns ih =>
    intro c i j p q hp hq hij
    rw [intervals] at hp hq
    cases j with
    | zero => omega
    | succ j =>
      rw [List.getElem?_cons_succ] at hq
      cases i with
      | zero =>
        simp at hp
        subst hp
        exact (intervals_bounds ns _ q (List.mem_of_getElem? hq)).1
      | succ i =>
        rw [List.getElem?_cons_succ] at hp
        exact ih _ i j p q hp hq (by omega)

/-- an attribute is that of a level -/
theorem attr_at {Ls : List (Level ρ)} {ns : List Nat} {b : List Val} {base : Nat} {start stop : Int} (h : (attrsOf Ls ns).lookup b = some (base, start, stop)) :
    ∃ (i : Nat) (L : Level ρ) (p : Nat × Nat), Ls[i]? = some L ∧ (intervals 0 ns)[i]? = some p ∧ L.key = b ∧ base = baseOf L ∧ start = (p.1 : Nat) ∧ stop = (p.2 : Nat) := by
  obtain ⟨i, hi⟩ := List.getElem?_of_mem (mem_of_lookup h)
  unfold attrsOf at hi
  rw [List.getElem?_zipWith_eq_some] at hi
  obtain ⟨L, p, h1, h2, h3⟩ := hi
  injection h3 with h3 h4
  injection h4 with h4 h5
  injection h5 with h5 h6
  exact ⟨i, L, p, h1, h2, h3, h4.symm, h5.symm, h6.symm⟩

theorem tiled_of {data : List (Int × Int × Int)} {Ls : List (Level ρ)} {ivs : List (Nat × Nat)} {us : List (List Int)} (h : AllPairs data Ls ivs us)
    (hn : (Ls.map (·.key)).Nodup) (hne : Ls ≠ []) : Tiled ⟨us.flatten, attrsOf Ls (us.map List.length)⟩ (Ls.map (·.key)) := by
  have hlen : (us.map List.length).length = Ls.length := by rw [List.length_map]; exact (allPairs_length h).1
  have hil : (intervals 0 (us.map List.length)).length = Ls.length := by rw [intervals_length, hlen]
  have hlv := attrs_levels Ls (us.map List.length) 0 hlen
  have hkeys := attrs_keys hlv
  have hsum : (us.map List.length).sum = us.flatten.length := by rw [List.length_flatten]
  have hnd : ((attrsOf Ls (us.map List.length)).map (·.1)).Nodup := by unfold attrsOf; rw [hkeys]; exact hn
  have hat : ∀ (i : Nat) (L : Level ρ) (p : Nat × Nat), Ls[i]? = some L → (intervals 0 (us.map List.length))[i]? = some p →
      (attrsOf Ls (us.map List.length)).lookup L.key = some (baseOf L, ((p.1 : Nat) : Int), ((p.2 : Nat) : Int)) := by
    intro i L p h1 h2
    refine lookup_of_nodup hnd (p := (L.key, baseOf L, ((p.1 : Nat) : Int), ((p.2 : Nat) : Int))) ?_
    apply List.mem_of_getElem? (i := i)
    unfold attrsOf
    rw [List.getElem?_zipWith_eq_some]
    exact ⟨L, p, h1, h2, rfl⟩
  refine ⟨by simpa using hne, hn, ?_, ?_, ?_⟩
  · intro b hb
    obtain ⟨L, hL, rfl⟩ := List.mem_map.mp hb
    obtain ⟨i, hi⟩ := List.getElem?_of_mem hL
    have hil' : i < (intervals 0 (us.map List.length)).length := by rw [hil]; exact (List.getElem?_eq_some_iff.mp hi).1
    obtain ⟨p, hp⟩ : ∃ p, (intervals 0 (us.map List.length))[i]? = some p := ⟨_, List.getElem?_eq_getElem hil'⟩
    have hb := intervals_bounds _ 0 p (List.mem_of_getElem? hp)
    refine ⟨_, _, _, hat i L p hi hp, by unfold baseOf; omega, ⟨by omega, by omega, by dsimp only; omega⟩, ?_⟩
    intro k hk
    have hsl := intervals_slices us []
    rw [List.length_nil, List.nil_append] at hsl
    have hu : us[i]? = some (npSlice us.flatten p.1 p.2) := by
      conv_lhs => rw [← hsl]
      rw [List.getElem?_map, hp]
      rfl
    have hk' : k ∈ npSlice us.flatten p.1 p.2 := by simpa using hk
    have key : ∀ {Ls : List (Level ρ)} {ivs us}, AllPairs data Ls ivs us → ∀ (i : Nat) (u : List Int), us[i]? = some u → ∀ k ∈ u, 0 ≤ k := by
      intro Ls ivs us h
      induction h with
      | nil => intro i u hu; simp at hu
      | @cons L' iv u Ls ivs us hL hu _ ih =>
        intro i u' hu'
        cases i with
        | zero =>
          simp at hu'
          subst hu'
          intro k hk
          obtain ⟨d, hd, hk⟩ := (hu.2 k).mp hk
          obtain ⟨⟨a1, a2⟩, ⟨b1, b2⟩, x1, x2⟩ := hL.range d hd
          have := Int.mul_nonneg (Int.natCast_nonneg (baseOf L')) x1
          rcases hk with hk | hk
          · rw [hk]; exact Int.add_nonneg a1 this
          · rw [hk]; exact Int.add_nonneg b1 this
        | succ i => exact ih i u' (by simpa using hu')
    exact key h i _ hu k hk'
  · intro k hk
    obtain ⟨i, p, c1, c2, c3⟩ := intervals_cover (us.map List.length) 0 k (by omega) (by rw [hsum]; simpa using hk)
    have hi : i < Ls.length := by rw [← hil]; exact (List.getElem?_eq_some_iff.mp c1).1
    exact ⟨Ls[i].key, List.mem_map_of_mem (List.getElem_mem hi), _, _, _, hat i Ls[i] p (List.getElem?_eq_getElem hi) c1, by omega, by omega⟩
  · intro b c base start stop base' start' stop' hb hc k k1 k2 k3 k4
    obtain ⟨i, L, p, i1, i2, i3, i4, i5, i6⟩ := attr_at hb
    obtain ⟨j, M, q, j1, j2, j3, j4, j5, j6⟩ := attr_at hc
    rcases Nat.lt_trichotomy i j with hij | hij | hij
    · have := intervals_order _ 0 i j p q i2 j2 hij
      omega
    · subst hij
      rw [i1] at j1
      cases j1
      rw [← i3, ← j3]
    · have := intervals_order _ 0 j i q p j2 i2 hij
      omega

/-- the records of the items of a level are as many as its item numbers, at least -/
theorem base_le_feat {e : Env} (he : e.Lawful) {a : Args ρ} (ha : a.OK) {T : Task.Task ρ} (h : init e a = .ok T) {L : Level ρ} (hL : L ∈ T.levels) : baseOf L ≤ L.feat.length := by
  obtain ⟨fr0, I⟩ := init_level he ha h hL
  obtain ⟨p, hp, hpb⟩ := baseOf_mem I.nonempty
  have h0 := I.hyp.sub hp
  have h1 := gather_length I.feat
  rw [List.length_map] at h1
  rw [I.group] at h0
  unfold resetIndex at h0
  obtain ⟨q, hq, rfl⟩ := List.mem_map.mp h0
  obtain ⟨i, hi⟩ := List.getElem?_of_mem hq
  rw [List.getElem?_zipIdx, Option.map_eq_some_iff] at hi
  obtain ⟨r, hr, rfl⟩ := hi
  have := (List.getElem?_eq_some_iff.mp hr).1
  dsimp only at hpb
  omega

/-- item numbers of the pairs -/
theorem pair_range {data : List (Int × Int × Int)} {Ls : List (Level ρ)} {ivs : List (Nat × Nat)} {us : List (List Int)} (h : AllPairs data Ls ivs us) {b : List Val} {base : Nat} {start stop : Int}
    (hb : (attrsOf Ls (us.map List.length)).lookup b = some (base, start, stop)) :
    ∃ L ∈ Ls, L.key = b ∧ base = baseOf L ∧ ∀ k ∈ npSlice us.flatten start.toNat stop.toNat, (k % base).toNat < base ∧ (k / base).toNat < base := by
  obtain ⟨i, L, p, i1, i2, i3, i4, i5, i6⟩ := attr_at hb
  refine ⟨L, List.mem_of_getElem? i1, i3, i4, ?_⟩
  subst i4 i5 i6
  have hsl := intervals_slices us []
  rw [List.length_nil, List.nil_append] at hsl
  have hu : us[i]? = some (npSlice us.flatten p.1 p.2) := by
    conv_lhs => rw [← hsl]
    rw [List.getElem?_map, i2]
    rfl
  have key : ∀ {Ls : List (Level ρ)} {ivs us}, AllPairs data Ls ivs us → ∀ (i : Nat) (u : List Int) (L : Level ρ), Ls[i]? = some L → us[i]? = some u →
      ∀ k ∈ u, (k % (baseOf L : Nat)).toNat < baseOf L ∧ (k / (baseOf L : Nat)).toNat < baseOf L := by
    intro Ls ivs us h
    induction h with
    | nil => intro i u L hL hu; simp at hu
    | @cons L' iv u Ls ivs us hL hu _ ih =>
      intro i u' L hL' hu'
      cases i with
      | zero =>
        simp at hu' hL'
        subst hu' hL'
        intro k hk
        obtain ⟨d, hd, hk⟩ := (hu.2 k).mp hk
        obtain ⟨⟨a1, a2⟩, ⟨b1, b2⟩, x1, x2⟩ := hL.range d hd
        have hpos : (0 : Int) < (baseOf L' : Nat) := by unfold baseOf; omega
        have key2 : ∀ a x : Int, 0 ≤ a → a < (baseOf L' : Nat) → 0 ≤ x → x < (baseOf L' : Nat) → k = a + (baseOf L' : Nat) * x →
            (k % (baseOf L' : Nat)).toNat < baseOf L' ∧ (k / (baseOf L' : Nat)).toNat < baseOf L' := by
          intro a x a1 a2 x1 x2 hk
          have e1 : k % (baseOf L' : Nat) = a := by rw [hk, Int.add_mul_emod_self_left, Int.emod_eq_of_lt a1 a2]
          have e2 : k / (baseOf L' : Nat) = x := by rw [hk, Int.add_mul_ediv_left _ _ (by omega), Int.ediv_eq_zero_of_lt a1 a2, Int.zero_add]
          rw [e1, e2]
          omega
        rcases hk with hk | hk
        · exact key2 _ _ a1 a2 x1 x2 hk
        · exact key2 _ _ b1 b2 x1 x2 hk
      | succ i => exact ih i u' L (by simpa using hL') (by simpa using hu')
  intro k hk
  exact key h i _ L i1 hu k (by simpa using hk)

theorem pairs_count {trips : List (Int × Int × Int)} {base : Int} {u : List Int} (h : u.Pairwise (· < ·)) (hu : ∀ k ∈ u, ∃ d ∈ trips, k = d.1 + base * d.2.2 ∨ k = d.2.1 + base * d.2.2) :
    u.length ≤ 2 * trips.length := by
  have hs : u ⊆ trips.map (fun d => d.1 + base * d.2.2) ++ trips.map (fun d => d.2.1 + base * d.2.2) := by
    intro k hk
    obtain ⟨d, hd, hk⟩ := hu k hk
    rw [List.mem_append]
    rcases hk with hk | hk
    · exact Or.inl (List.mem_map.mpr ⟨d, hd, hk.symm⟩)
    · exact Or.inr (List.mem_map.mpr ⟨d, hd, hk.symm⟩)
  have := (List.subperm_of_subset (h.imp (fun h => by omega)) hs).length_le
  rw [List.length_append, List.length_map, List.length_map] at this
  omega

theorem increasing_le {u : List Int} {m : Nat} (h : u.Pairwise (· < ·)) (hu : ∀ k ∈ u, 0 ≤ k ∧ k < m) : u.length ≤ m := by
  have hs : u ⊆ (List.range m).map (fun n : Nat => (n : Int)) := by
    intro k hk
    obtain ⟨h1, h2⟩ := hu k hk
    exact List.mem_map.mpr ⟨k.toNat, List.mem_range.mpr (by omega), by omega⟩
  have := (List.subperm_of_subset (h.imp (fun h => by omega)) hs).length_le
  simpa using this

/-- a level has at most as many pairs as there are pairs of items -/
theorem size_le_sq {data : List (Int × Int × Int)} {Ls : List (Level ρ)} {ivs : List (Nat × Nat)} {us : List (List Int)} (h : AllPairs data Ls ivs us) (b : List Val) :
    Spec.pairsOfLevel ⟨us.flatten, attrsOf Ls (us.map List.length)⟩ b = 0 ∨
    ∃ L ∈ Ls, Spec.pairsOfLevel ⟨us.flatten, attrsOf Ls (us.map List.length)⟩ b ≤ baseOf L * baseOf L := by
  unfold Spec.pairsOfLevel
  split
  · rename_i base start stop hb
    obtain ⟨i, L, p, i1, i2, i3, i4, i5, i6⟩ := attr_at hb
    have hsl := intervals_slices us []
    rw [List.length_nil, List.nil_append] at hsl
    have hu : us[i]? = some (npSlice us.flatten p.1 p.2) := by
      conv_lhs => rw [← hsl]
      rw [List.getElem?_map, i2]
      rfl
    have hbd := intervals_bounds _ 0 p (List.mem_of_getElem? i2)
    have hlen : (npSlice us.flatten p.1 p.2).length = p.2 - p.1 := npSlice_length_of _ (by rw [List.length_flatten]; omega)
    have key : ∀ {Ls : List (Level ρ)} {ivs us}, AllPairs data Ls ivs us → ∀ (i : Nat) (L : Level ρ) u, Ls[i]? = some L → us[i]? = some u → u.length ≤ baseOf L * baseOf L := by
      intro Ls ivs us h
      induction h with
      | nil => intro i L u hi; cases hi
      | @cons L' iv u Ls ivs us hL hu _ ih =>
        intro i L u' h1 h2
        cases i with
        | zero =>
          cases h1
          cases h2
          refine increasing_le hu.1 ?_
          intro k hk
          obtain ⟨d, hd, hk⟩ := (hu.2 k).mp hk
          obtain ⟨⟨r1, r2⟩, ⟨r3, r4⟩, r5, r6⟩ := hL.range d hd
          push_cast
          rcases hk with rfl | rfl
          · constructor <;> nlinarith
          · constructor <;> nlinarith
        | succ i => exact ih i L u' h1 h2
    refine .inr ⟨L, List.mem_of_getElem? i1, ?_⟩
    have := key h i L _ i1 hu
    subst i5 i6
    omega
  · exact .inl rfl

/-- a level has at most twice as many pairs as there are triplets -/
theorem size_le {data : List (Int × Int × Int)} {Ls : List (Level ρ)} {ivs : List (Nat × Nat)} {us : List (List Int)} (h : AllPairs data Ls ivs us) (b : List Val) :
    Spec.pairsOfLevel ⟨us.flatten, attrsOf Ls (us.map List.length)⟩ b ≤ 2 * data.length := by
  unfold Spec.pairsOfLevel
  split
  · rename_i base start stop hb
    obtain ⟨i, L, p, i1, i2, i3, i4, i5, i6⟩ := attr_at hb
    have hsl := intervals_slices us []
    rw [List.length_nil, List.nil_append] at hsl
    have hu : us[i]? = some (npSlice us.flatten p.1 p.2) := by
      conv_lhs => rw [← hsl]
      rw [List.getElem?_map, i2]
      rfl
    have hbd := intervals_bounds _ 0 p (List.mem_of_getElem? i2)
    have hlen : (npSlice us.flatten p.1 p.2).length = p.2 - p.1 := npSlice_length_of _ (by rw [List.length_flatten]; omega)
    have key : ∀ {Ls : List (Level ρ)} {ivs us}, AllPairs data Ls ivs us → ∀ u ∈ us, u.length ≤ 2 * data.length := by
      intro Ls ivs us h
      induction h with
      | nil => intro u hu; cases hu
      | @cons L' iv u Ls ivs us hL hu _ ih =>
        intro u' hu'
        rcases List.mem_cons.mp hu' with rfl | hu'
        · have := pairs_count hu.1 (fun k hk => (hu.2 k).mp hk)
          have h2 : (npSlice data iv.1 iv.2).length ≤ data.length := by unfold npSlice; simp
          omega
        · exact ih u' hu'
    have := key h _ (List.mem_of_getElem? hu)
    omega
  · omega

end ABX.EndToEnd
