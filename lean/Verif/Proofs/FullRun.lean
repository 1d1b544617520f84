import Verif.Proofs.Items
import Verif.Properties.ResultFile
import Mathlib.Data.Finset.Prod
/-!
Lemmas for C92: the lines of the item files that `generate_db_and_feat` makes, and the groups of an experiment on 'c0' across 'c1' by 'c2'.
-/
namespace ABX.Items
open Database Database.Spec ABX.Spec SideOps Analyze

/-- the label d of the column j -/
def named (j d : Nat) : Val := .str (String.ofList ('c' :: str j ++ '_' :: 'v' :: str d))

theorem named_iff {j a b : Nat} : named j a = named j b ↔ a = b := by
  constructor
  · intro h
    have := Val.str.inj h
    exact named_inj j a b (String.ofList_injective this)
  · rintro rfl; rfl

/-- the fields of line i -/
def fields (parse : Text → Val) (base n i : Nat) : List (Option Val) := (List.range (n + 4)).map (fun j => some (parse (namedCell base (i + 1) j)))

variable {parse : Text → Val} {base n repeats : Nat}

theorem named_rows : (rawOf parse (namedTestitems base n repeats)).rows = (List.range (base ^ n * (repeats + 1))).map (fields parse base n) := by
  show ((namedTestitems base n repeats).tail).map _ = _
  rw [namedTestitems, table_tail, List.map_map]
  apply List.map_congr_left
  intro i _
  simp [fields, Function.comp]

theorem named_columns : (rawOf parse (namedTestitems base n repeats)).columns = "#file".toList :: "onset".toList :: "offset".toList :: ('#' :: "item".toList) :: colNames n := by
  show (namedTestitems base n repeats).headD [] = _
  have := table_head (namedCell base) "item".toList (by intro j; simp [namedCell]) base n repeats
  rw [List.headD_eq_head?_getD, namedTestitems, this]
  rfl

theorem fields_at {i j : Nat} (hj : j < n + 4) : fieldAt (fields parse base n i) j = some (parse (namedCell base (i + 1) j)) := by
  simp [fieldAt, fields, hj]

theorem named_complete : complete (rawOf parse (namedTestitems base n repeats)) 3 = (List.range (base ^ n * (repeats + 1))).map (fun i => (fields parse base n i, i)) := by
  unfold complete
  have hz : (rawOf parse (namedTestitems base n repeats)).rows.zipIdx = (List.range (base ^ n * (repeats + 1))).map (fun i => (fields parse base n i, i)) := by
    rw [named_rows, List.zipIdx_map]
    apply List.ext_getElem
    · simp
    · intro k h1 h2
      simp
  rw [hz, List.filter_eq_self]
  intro p hp
  obtain ⟨i, -, rfl⟩ := List.mem_map.mp hp
  rw [List.all_eq_true]
  intro j hj
  rw [named_columns] at hj
  have hj : 3 ≤ j ∧ j < n + 4 := by
    simp [colNames] at hj
    omega
  dsimp only
  rw [fields_at hj.2]
  rfl

theorem column_mem {j : Nat} (hj : j < n) : 'c' :: str j ∈ colNames n := List.mem_map.mpr ⟨j, by simpa using hj, rfl⟩

/-- the label of line i in column j -/
theorem named_label (hparse : ∀ t, parse ('c' :: t) = .str (String.ofList ('c' :: t))) {i j : Nat} (hj : j < n) {c : String} (hc : c = String.ofList ('c' :: str j)) :
    lineLabel [] "item".toList (colNames n) (fields parse base n i, i) c = some (named j (i / base ^ j % base)) := by
  subst hc
  unfold lineLabel label
  have hidx : ("item".toList :: colNames n).findIdx (fun d => String.ofList d == String.ofList ('c' :: str j)) = j + 1 := by
    rw [List.findIdx_cons]
    have h0 : (String.ofList "item".toList == String.ofList ('c' :: str j)) = false := by
      rw [beq_eq_false_iff_ne]
      intro h
      have := String.ofList_injective h
      simp at this
    rw [h0]
    simp only [cond_false]
    congr 1
    have hlen : j < (colNames n).length := by simpa [colNames] using hj
    rw [List.findIdx_eq hlen]
    have hget : ∀ k (hk : k < (colNames n).length), (colNames n)[k] = 'c' :: str k := by intro k hk; simp [colNames]
    refine ⟨by rw [hget]; simp, ?_⟩
    intro k hk
    rw [hget, beq_eq_false_iff_ne]
    intro h
    have := String.ofList_injective h
    simp only [List.cons.injEq, true_and] at this
    exact absurd (str_inj this) (by omega)
  rw [hidx]
  dsimp only
  rw [fields_at (by simp; omega)]
  congr 1
  have : namedCell base (i + 1) (3 + [].length (α := Text) + (j + 1)) = 'c' :: (str j ++ '_' :: 'v' :: str (i / base ^ j % base)) := by
    have h4 : 3 + [].length (α := Text) + (j + 1) = j + 4 := by simp; omega
    rw [h4]
    simp [namedCell]
  rw [this, hparse]
  rfl

theorem name0 : "c0" = String.ofList ('c' :: str 0) := by decide +kernel
theorem name1 : "c1" = String.ofList ('c' :: str 1) := by decide +kernel
theorem name2 : "c2" = String.ofList ('c' :: str 2) := by decide +kernel

/-- the numbers of lines below base^n (repeats+1) with given first three digits -/
theorem count_digits (hn : 3 ≤ n) {x y z : Nat} (hx : x < base) (hy : y < base) (hz : z < base) :
    ((List.range (base ^ n * (repeats + 1))).filter (fun i => i / base ^ 0 % base == x && i / base ^ 1 % base == y && i / base ^ 2 % base == z)).length = base ^ (n - 3) * (repeats + 1) := by
  have hd : ∀ d ∈ [x, y, z], d < base := by simp [hx, hy, hz]
  have hc := count_mod (undigs_lt [x, y, z] hd) (base ^ (n - 3) * (repeats + 1))
  have hM : base ^ [x, y, z].length * (base ^ (n - 3) * (repeats + 1)) = base ^ n * (repeats + 1) := by
    rw [← mul_assoc, ← pow_add]
    congr 2
    simp
    omega
  rw [hM, List.count_eq_length_filter, List.filter_map, List.length_map] at hc
  refine Eq.trans ?_ hc
  congr 1
  apply List.filter_congr
  intro i _
  simp only [Function.comp]
  rw [Bool.eq_iff_iff, beq_iff_eq]
  refine Iff.trans ?_ (digs_eq_iff (base := base) (n := 3) (i := i) (ds := [x, y, z]) rfl hd)
  rw [← digs_eq]
  simp [List.range_succ, and_assoc]

variable (hparse : ∀ t, parse ('c' :: t) = .str (String.ofList ('c' :: t)))
include hparse

theorem mem_named {p : Line} (hp : p ∈ complete (rawOf parse (namedTestitems base n repeats)) 3) (hn : 3 ≤ n) :
    ∃ i < base ^ n * (repeats + 1), p = (fields parse base n i, i) ∧ lineLabel [] "item".toList (colNames n) p "c0" = some (named 0 (i / base ^ 0 % base)) ∧
      lineLabel [] "item".toList (colNames n) p "c1" = some (named 1 (i / base ^ 1 % base)) ∧ lineLabel [] "item".toList (colNames n) p "c2" = some (named 2 (i / base ^ 2 % base)) := by
  rw [named_complete] at hp
  obtain ⟨i, hi, rfl⟩ := List.mem_map.mp hp
  exact ⟨i, by simpa using hi, rfl, named_label hparse (by omega) name0, named_label hparse (by omega) name1, named_label hparse (by omega) name2⟩

/-- the lines of a cell of a level -/
theorem named_cell (hn : 3 ≤ n) {x y z : Nat} (hx : x < base) (hy : y < base) (hz : z < base) {s : String → Val} (hs : s "c1" = named 1 y) :
    (lineCell (lineLabel [] "item".toList (colNames n)) "c0" ["c1"] (levelLines (rawOf parse (namedTestitems base n repeats)) 3 ("item".toList :: colNames n) ["c2"] [named 2 z]) (named 0 x) s).length =
      base ^ (n - 3) * (repeats + 1) := by
  unfold lineCell levelLines
  rw [List.filter_filter, named_complete, List.filter_map, List.length_map]
  refine Eq.trans ?_ (count_digits hn hx hy hz)
  congr 1
  apply List.filter_congr
  intro i _
  simp only [Function.comp, List.all_cons, List.all_nil, Bool.and_true, hs]
  have l2 : label 3 ("item".toList :: colNames n) (fields parse base n i) "c2" = some (named 2 (i / base ^ 2 % base)) := named_label hparse (by omega) name2
  rw [named_label hparse (by omega) name0, named_label hparse (by omega) name1]
  simp only [List.map_cons, List.map_nil, l2, if_neg (List.cons_ne_nil _ _)]
  rw [Bool.eq_iff_iff]
  simp [named_iff]

omit hparse in
theorem flatMap_const {α β : Type} {f : α → List β} {k : Nat} : ∀ {l : List α}, (∀ a ∈ l, (f a).length = k) → (l.flatMap f).length = l.length * k
  | [], _ => by simp
  | a :: l, h => by
    rw [List.flatMap_cons, List.length_append, h a (by simp), flatMap_const (fun b hb => h b (by simp [hb])), List.length_cons, Nat.succ_mul, Nat.add_comm]

/-- the combination of labels with 'on' labels a and b and across labels x and y -/
def combo (a b x y : Nat) : Labels := ⟨named 0 a, named 0 b, fun _ => named 1 x, fun _ => named 1 y⟩

omit hparse in
theorem combo_possible {a b x y : Nat} : (combo a b x y).Possible ["c1"] ↔ a ≠ b ∧ x ≠ y := by
  unfold Labels.Possible combo
  simp [named_iff]

theorem combo_group (hn : 3 ≤ n) {a b x y z : Nat} (ha : a < base) (hb : b < base) (hx : x < base) (hy : y < base) (hz : z < base) {l : Labels}
    (h1 : l.on1 = named 0 a) (h2 : l.on2 = named 0 b) (h3 : l.across1 "c1" = named 1 x) (h4 : l.across2 "c1" = named 1 y) :
    (lineGroup (lineLabel [] "item".toList (colNames n)) "c0" ["c1"] (levelLines (rawOf parse (namedTestitems base n repeats)) 3 ("item".toList :: colNames n) ["c2"] [named 2 z]) l).length =
      (base ^ (n - 3) * (repeats + 1)) ^ 3 := by
  unfold lineGroup
  rw [h1, h2, flatMap_const (k := (base ^ (n - 3) * (repeats + 1)) * (base ^ (n - 3) * (repeats + 1))), named_cell hparse hn ha hx hz h3]
  · ring
  · intro A _
    rw [flatMap_const (k := base ^ (n - 3) * (repeats + 1)), named_cell hparse hn hb hx hz h3]
    intro B _
    rw [List.length_map, List.filter_eq_self.mpr (by intro X _; rfl)]
    exact named_cell hparse hn ha hy hz h4

theorem group_combo (hn : 3 ≤ n) (hb0 : 0 < base) {key : List Val} {l : Labels}
    (h : lineGroup (lineLabel [] "item".toList (colNames n)) "c0" ["c1"] (levelLines (rawOf parse (namedTestitems base n repeats)) 3 ("item".toList :: colNames n) ["c2"] key) l ≠ []) :
    ∃ a < base, ∃ b < base, ∃ x < base, ∃ y < base, l.on1 = named 0 a ∧ l.on2 = named 0 b ∧ l.across1 "c1" = named 1 x ∧ l.across2 "c1" = named 1 y := by
  obtain ⟨⟨A, B, X⟩, ht⟩ := List.exists_mem_of_ne_nil _ h
  unfold lineGroup at ht
  simp only [List.mem_flatMap, List.mem_map, List.mem_filter] at ht
  obtain ⟨A', hA, B', hB, X', ⟨hX, -⟩, -⟩ := ht
  have key : ∀ {p : Line} {v : Val} {s : String → Val},
      p ∈ lineCell (lineLabel [] "item".toList (colNames n)) "c0" ["c1"] (levelLines (rawOf parse (namedTestitems base n repeats)) 3 ("item".toList :: colNames n) ["c2"] key) v s →
      ∃ d < base, ∃ d' < base, v = named 0 d ∧ s "c1" = named 1 d' := by
    intro p v s hp
    unfold lineCell levelLines at hp
    obtain ⟨hp, hq⟩ := List.mem_filter.mp hp
    obtain ⟨i, -, -, e0, e1, -⟩ := mem_named hparse (List.mem_filter.mp hp).1 hn
    simp only [List.all_cons, List.all_nil, Bool.and_true, Bool.and_eq_true, beq_iff_eq, e0, e1, Option.some.injEq] at hq
    exact ⟨_, Nat.mod_lt _ hb0, _, Nat.mod_lt _ hb0, hq.1.symm, hq.2.symm⟩
  obtain ⟨a, ha, x, hx, e1, e2⟩ := key hA
  obtain ⟨b, hb, -, -, e3, -⟩ := key hB
  obtain ⟨-, -, y, hy, -, e4⟩ := key hX
  exact ⟨a, ha, b, hb, x, hx, y, hy, e1, e3, e2, e4⟩

end ABX.Items
