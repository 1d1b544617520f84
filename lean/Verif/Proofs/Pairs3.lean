import Verif.Proofs.Pairs2
import Verif.Proofs.TaskLabels
/-!
Helper lemmas for the table of pairs: a file written by `generate` meets the conditions of `generatePairs_ok`.
-/
namespace ABX.Pairs
open ExtSort H52NP Task SideOps Sampler
variable {α ρ : Type}

theorem le_foldl_max (l : List Nat) : ∀ m, m ≤ l.foldl max m ∧ ∀ x ∈ l, x ≤ l.foldl max m := by
  induction l with
  | nil => intro m; simp
  | cons y l ih =>
    intro m
    rw [List.foldl_cons]
    obtain ⟨h1, h2⟩ := ih (max m y)
    refine ⟨by omega, ?_⟩
    intro x hx
    rcases List.mem_cons.mp hx with rfl | hx
    · omega
    · exact h2 x hx

theorem lt_baseOf {L : Level ρ} {l : Nat} (h : l ∈ L.frame.map (·.1)) : l < baseOf L := by
  unfold baseOf
  have := (le_foldl_max (L.frame.map (·.1)) 0).2 l h
  omega

theorem foldl_max_mem (l : List Nat) : ∀ m, l.foldl max m = m ∨ l.foldl max m ∈ l := by
  induction l with
  | nil => intro m; simp
  | cons y l ih =>
    intro m
    rw [List.foldl_cons]
    rcases ih (max m y) with h | h
    · rw [h]
      rcases Nat.le_total m y with hm | hm
      · rw [Nat.max_eq_right hm]; simp
      · rw [Nat.max_eq_left hm]; simp
    · right; simp [h]

theorem baseOf_mem {L : Level ρ} (h : L.frame ≠ []) : ∃ p ∈ L.frame, p.1 + 1 = baseOf L := by
  unfold baseOf
  cases hl : L.frame with
  | nil => exact absurd hl h
  | cons p ps =>
    rw [List.map_cons, List.foldl_cons, Nat.zero_max]
    rcases foldl_max_mem (ps.map (·.1)) p.1 with h1 | h1
    · exact ⟨p, by simp, by rw [h1]⟩
    · obtain ⟨q, hq, hq'⟩ := List.mem_map.mp h1
      exact ⟨q, by simp [hq], by rw [hq']⟩

theorem baseOf_unique {L : Level ρ} {b : Nat} (h1 : ∀ p ∈ L.frame, p.1 < b) (h2 : ∃ p ∈ L.frame, p.1 + 1 = b) : baseOf L = b := by
  obtain ⟨p, hp, rfl⟩ := h2
  obtain ⟨q, hq, hq'⟩ := baseOf_mem (List.ne_nil_of_mem hp)
  have := h1 q hq
  have := lt_baseOf (List.mem_map_of_mem (f := (·.1)) hp)
  omega

theorem npSlice_append3 (p x s : List α) : npSlice (p ++ x ++ s) p.length (p.length + x.length) = x := by
  unfold npSlice
  rw [← List.length_append, List.take_left, List.drop_left]

theorem fits_intervals {Ls : List (Level ρ)} {ps : List (List Val × List BlkOut)} {g : List Val × List BlkOut → List (Int × Int × Int)}
    (h : List.Forall₂ (fun L p => L.frame ≠ [] ∧ g p ≠ [] ∧ (∀ d ∈ g p, InRange (baseOf L : Nat) d) ∧ baseOf L ≤ maxBase ∧ 2 * (g p).length ≤ 2 ^ 53) Ls ps) :
    ∀ (pre : List (Int × Int × Int)),
      List.Forall₂ (LevelFit (pre ++ ps.flatMap g)) Ls (intervals pre.length (ps.map (fun p => (g p).length))) := by
  induction h with
  | nil => intro pre; exact .nil
  | @cons L p Ls ps hL _ ih =>
    intro pre
    obtain ⟨a1, a2, a3, a4, a5⟩ := hL
    have hpos := List.length_pos_of_ne_nil a2
    rw [List.map_cons, intervals, List.flatMap_cons, ← List.append_assoc]
    refine .cons ⟨a1, by omega, ?_, ?_, a4, ?_⟩ ?_
    · rw [List.length_append, List.length_append]; omega
    · rw [npSlice_append3]; exact a3
    · rw [Nat.add_sub_cancel_left]; exact a5
    · have := ih (pre ++ g p)
      rw [List.length_append] at this
      exact this

theorem castTrip_id {t : IntType} (hp : 0 < t.bits) (h0 : t.lo ≤ 0) {n : Nat × Nat × Nat} {b : Nat} (hb : (b : Int) ≤ t.hi) (h : n.1 < b ∧ n.2.1 < b ∧ n.2.2 < b) :
    castTrip t n = ((n.1 : Int), (n.2.1 : Int), (n.2.2 : Int)) := by
  unfold castTrip
  rw [C43_cast_lossless _ _ hp (by omega) (by omega), C43_cast_lossless _ _ hp (by omega) (by omega), C43_cast_lossless _ _ hp (by omega) (by omega)]

theorem fit_sign {x : Int} {t : IntType} (h : fitIntegerType x = .ok t) : 0 < t.bits ∧ t.lo ≤ 0 := by
  have hfam := C43_family _ _ _ h
  constructor
  · have := hfam.1
    simp at this
    omega
  · unfold IntType.lo
    rw [hfam.2]
    have : (0 : Int) ≤ 2 ^ (t.bits - 1) := by positivity
    simp only [if_true]
    omega

/-- the table of items is small enough for the pairs to be computed exactly: the item numbers fit the type in which the triplets are stored
(`total` being the number of triplets announced by `compute_nb_levels`), 64 bits are enough for the pairs, and the number of triplets is
below 2^52 -/
structure Small (e : Env) (T : Task.Task ρ) (F : File) : Prop where
  items : ∀ total t, nbTriplets e T = .ok total → fitIntegerType total = .ok t → ∀ L ∈ T.levels, ∀ p ∈ L.frame, ((p.1 + 1 : Nat) : Int) ≤ t.hi
  square : ∀ L ∈ T.levels, ∀ p ∈ L.frame, p.1 < 3037000499
  trips : F.data.length ≤ 2 ^ 52

theorem file_fits {e : Env} (he : e.Lawful) {a : Args ρ} (ha : a.OK) {T : Task.Task ρ} (h : init e a = .ok T)
    {N : Num} {threshold : Nat} {src : List Val → List Val → Nat → Src} {F : File} {total : Int} {t tb : IntType} {outs : List (List Val × List BlkOut)}
    (K : FileOK e N threshold src T F total t tb outs) (hS : Small e T F) :
    List.Forall₂ (LevelFit F.data) (remaining T F) (intervals 0 ((kept outs).map (fun p => (levelTrips p).length))) ∧
      (remaining T F).map (·.key) = F.bys := by
  have hk := K.kept_levels (init_keys_nodup he ha h)
  refine ⟨?_, ?_⟩
  · have hdata : F.data = [] ++ (kept outs).flatMap (fun p => (levelTrips p).map (castTrip t)) := by
      rw [K.data, List.map_flatMap, List.nil_append]
    have hn : (kept outs).map (fun p => (levelTrips p).length) = (kept outs).map (fun p => ((levelTrips p).map (castTrip t)).length) := by
      apply List.map_congr_left; intro p _; rw [List.length_map]
    rw [hn, hdata]
    unfold remaining
    apply fits_intervals (pre := [])
    rw [List.forall₂_iff_get] at hk ⊢
    refine ⟨hk.1, ?_⟩
    intro i h1 h2
    obtain ⟨-, ho⟩ := hk.2 i h1 h2
    have hL := (List.mem_filter.mp (List.get_mem (T.levels.filter (fun L => F.bys.contains L.key)) ⟨i, h1⟩)).1
    have hp := List.get_mem (kept outs) ⟨i, h2⟩
    generalize hLe : (T.levels.filter (fun L => F.bys.contains L.key)).get ⟨i, h1⟩ = L at *
    generalize hpe : (kept outs).get ⟨i, h2⟩ = p at *
    have hmem := levelOut_mem he (init_types ha h hL) ho
    have hne : levelTrips p ≠ [] := by
      have := (List.mem_filter.mp hp).2
      intro h0
      simp [h0] at this
    have hfr : L.frame ≠ [] := by
      intro h0
      cases ht : levelTrips p with
      | nil => exact hne ht
      | cons x l =>
        have : x ∈ p.2.flatMap BlkOut.trips := by
          have : x ∈ levelTrips p := by rw [ht]; simp
          exact this
        have := (hmem x this).1
        rw [h0] at this
        cases this
    obtain ⟨q, hq, hqb⟩ := baseOf_mem hfr
    have hb := hS.items total t K.total_ok K.t_ok L hL q hq
    rw [hqb] at hb
    have hs2 := hS.square L hL q hq
    obtain ⟨f1, f2⟩ := fit_sign K.t_ok
    refine ⟨hfr, by simpa using hne, ?_, by unfold maxBase; omega, ?_⟩
    · intro d hd
      obtain ⟨x, hx, rfl⟩ := List.mem_map.mp hd
      obtain ⟨m1, m2, m3⟩ := hmem x hx
      rw [castTrip_id f1 f2 hb ⟨lt_baseOf m1, lt_baseOf m2, lt_baseOf m3⟩]
      have := lt_baseOf m1
      have := lt_baseOf m2
      have := lt_baseOf m3
      refine ⟨⟨?_, ?_⟩, ⟨?_, ?_⟩, ?_, ?_⟩ <;> dsimp only <;> omega
    · have h3 := hS.trips
      have : ((levelTrips p).map (castTrip t)).length ≤ F.data.length := by
        rw [hdata, List.nil_append]
        exact (List.sublist_flatten_of_mem (List.mem_map_of_mem (f := fun p => (levelTrips p).map (castTrip t)) hp)).length_le
      omega
  · rw [K.bys, forall₂_keys (Q := fun L os => levelOut e N threshold src T L = .ok os) hk]
    rfl

end ABX.Pairs
