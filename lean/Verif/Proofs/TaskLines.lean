import Verif.Spec.TaskLines
import Verif.Properties.Generate
import Verif.Proofs.Pipeline
/-! Lemmas for C110. -/
namespace ABX.Task
open ExtSort SideOps Sampler Spec
variable {ρ : Type}

theorem levelLines_fst (by_ : List String) (rows : List Row) (key : List Val) : (levelLines by_ rows key).map (·.1) = rows.filter (fun r => by_.map r == key) := by
  unfold levelLines
  have : (fun p : Row × Nat => by_.map p.1 == key) = (fun r => by_.map r == key) ∘ Prod.fst := rfl
  rw [this, ← List.filter_map]
  congr 1
  simp [List.zipIdx_map_fst]

theorem item_line {by_ : List String} {rows : List Row} {key : List Val} {n : Nat} {r : Row} : (n, r) ∈ Spec.items by_ rows key ↔ ∃ i, (levelLines by_ rows key)[n]? = some (r, i) := by
  unfold Spec.items
  rw [← levelLines_fst]
  constructor
  · intro h
    obtain ⟨q, hq, e⟩ := List.mem_map.mp h
    cases e
    have := List.mem_zipIdx_iff_getElem?.mp hq
    rw [List.getElem?_map, Option.map_eq_some_iff] at this
    obtain ⟨x, hx, e⟩ := this
    exact ⟨x.2, by rw [hx, ← e]⟩
  · rintro ⟨i, hi⟩
    refine List.mem_map.mpr ⟨(r, n), List.mem_zipIdx_iff_getElem?.mpr ?_, rfl⟩
    rw [List.getElem?_map, hi]
    rfl

theorem line_mem {by_ : List String} {rows : List Row} {key : List Val} {n : Nat} {r : Row} {i : Nat} (h : (levelLines by_ rows key)[n]? = some (r, i)) : rows[i]? = some r ∧ by_.map r = key := by
  have := List.mem_of_getElem? h
  unfold levelLines at this
  obtain ⟨h1, h2⟩ := List.mem_filter.mp this
  exact ⟨List.mem_zipIdx_iff_getElem?.mp h1, by simpa using h2⟩

theorem line_exists {by_ : List String} {rows : List Row} {key : List Val} {r : Row} {i : Nat} (h : rows[i]? = some r) (hk : by_.map r = key) : ∃ n : Nat, (levelLines by_ rows key)[n]? = some (r, i) := by
  refine List.getElem?_of_mem ?_
  unfold levelLines
  exact List.mem_filter.mpr ⟨List.mem_zipIdx_iff_getElem?.mpr h, by simpa using hk⟩

theorem levelLines_nodup (by_ : List String) (rows : List Row) (key : List Val) : ((levelLines by_ rows key).map (·.2)).Nodup := by
  unfold levelLines
  refine List.Nodup.sublist (List.filter_sublist.map _) ?_
  have : rows.zipIdx.map (·.2) = List.range rows.length := by
    rw [List.range_eq_range']
    exact List.zipIdx_map_snd _ _
  rw [this]
  exact List.nodup_range

theorem line_inj {by_ : List String} {rows : List Row} {key : List Val} {n m : Nat} {r r' : Row} {i : Nat} (h : (levelLines by_ rows key)[n]? = some (r, i)) (h' : (levelLines by_ rows key)[m]? = some (r', i)) : n = m := by
  have hn := levelLines_nodup by_ rows key
  have a1 : ((levelLines by_ rows key).map (·.2))[n]? = some i := by rw [List.getElem?_map, h]; rfl
  have a2 : ((levelLines by_ rows key).map (·.2))[m]? = some i := by rw [List.getElem?_map, h']; rfl
  exact (List.getElem?_inj (List.getElem?_eq_some_iff.mp a1).1 hn).mp (a1.trans a2.symm)

theorem line_inj' {by_ : List String} {rows : List Row} {key : List Val} {n m i : Nat} (h : lineOf by_ rows key (n : Int) = some i) (h' : lineOf by_ rows key (m : Int) = some i) : n = m := by
  unfold lineOf at h h'
  rw [Option.map_eq_some_iff] at h h'
  obtain ⟨x, hx, e⟩ := h
  obtain ⟨y, hy, e'⟩ := h'
  simp only [Int.toNat_natCast] at hx hy
  obtain ⟨x1, x2⟩ := x
  obtain ⟨y1, y2⟩ := y
  dsimp only at e e'
  subst e e'
  exact line_inj hx hy

/-- legal triplets of items are legal triplets of lines -/
theorem legal_lines {on : String} {across : List String} {A B X i j k : Nat} {rA rB rX : Row} (h : X = A ↔ k = i) : Spec.legal on across (A, rA) (B, rB) (X, rX) = Spec.legal on across (i, rA) (j, rB) (k, rX) := by
  unfold Spec.legal
  have : (X != A) = (k != i) := by
    rw [Bool.eq_iff_iff, bne_iff_ne, bne_iff_ne]
    exact not_congr h
  simp only [this]

/-- a triplet of items of a level is a triplet of lines -/
theorem trips_lines {a : Args ρ} {key : List Val} {t : Nat × Nat × Nat} : t ∈ Spec.triplets a.cols a.on a.across a.filters (itemsOf a key) →
    ∃ u, LineTriplet a.cols a.on a.across a.by_ a.filters (a.db.map (·.2)) u ∧ (∀ r, (a.db.map (·.2))[u.1]? = some r → a.by_.map r = specKey a key) ∧
      (lineOf a.by_ (a.db.map (·.2)) (specKey a key) (t.1 : Int), lineOf a.by_ (a.db.map (·.2)) (specKey a key) (t.2.1 : Int), lineOf a.by_ (a.db.map (·.2)) (specKey a key) (t.2.2 : Int)) = lines u := by
  intro h
  unfold Spec.triplets at h
  obtain ⟨⟨⟨A, rA⟩, ⟨B, rB⟩, ⟨X, rX⟩⟩, h1, rfl⟩ := List.mem_map.mp h
  unfold Spec.itemTriplets at h1
  obtain ⟨h2, h3⟩ := List.mem_filter.mp h1
  obtain ⟨hA, hB, hX⟩ := mem_prod3.mp (show _ ∈ prod3 _ _ _ from h2)
  rw [Bool.and_eq_true, List.all_eq_true] at h3
  obtain ⟨i, hi⟩ := item_line.mp hA
  obtain ⟨j, hj⟩ := item_line.mp hB
  obtain ⟨k, hk⟩ := item_line.mp hX
  obtain ⟨i1, i2⟩ := line_mem hi
  obtain ⟨j1, j2⟩ := line_mem hj
  obtain ⟨k1, k2⟩ := line_mem hk
  refine ⟨(i, j, k), ⟨rA, rB, rX, i1, j1, k1, by rw [i2, j2], by rw [i2, k2], ?_, h3.2⟩, ?_, ?_⟩
  · rw [← h3.1]
    refine (legal_lines ?_).symm
    constructor
    · rintro rfl
      rw [hi] at hk
      cases hk
      rfl
    · intro (e : k = i)
      rw [e] at hk
      exact line_inj hk hi
  · intro r hr
    dsimp only at hr
    rw [i1] at hr
    cases hr
    exact i2
  · unfold lineOf lines
    simp [hi, hj, hk]

/-- and conversely -/
theorem lines_trips {a : Args ρ} {key : List Val} {u : Nat × Nat × Nat} (h : LineTriplet a.cols a.on a.across a.by_ a.filters (a.db.map (·.2)) u) (hk : ∀ r, (a.db.map (·.2))[u.1]? = some r → a.by_.map r = specKey a key) :
    ∃ t ∈ Spec.triplets a.cols a.on a.across a.filters (itemsOf a key),
      (lineOf a.by_ (a.db.map (·.2)) (specKey a key) (t.1 : Int), lineOf a.by_ (a.db.map (·.2)) (specKey a key) (t.2.1 : Int), lineOf a.by_ (a.db.map (·.2)) (specKey a key) (t.2.2 : Int)) = lines u := by
  obtain ⟨i, j, k⟩ := u
  obtain ⟨rA, rB, rX, i1, j1, k1, e1, e2, hl, hf⟩ := h
  dsimp only at i1 j1 k1 hl hk
  have i2 := hk _ i1
  obtain ⟨A, hA⟩ := line_exists i1 i2
  obtain ⟨B, hB⟩ := line_exists j1 (e1.trans i2)
  obtain ⟨X, hX⟩ := line_exists k1 (e2.trans i2)
  refine ⟨(A, B, X), ?_, ?_⟩
  · unfold Spec.triplets
    refine List.mem_map.mpr ⟨((A, rA), (B, rB), (X, rX)), ?_, rfl⟩
    unfold Spec.itemTriplets
    refine List.mem_filter.mpr ⟨?_, ?_⟩
    · exact mem_prod3.mpr ⟨item_line.mpr ⟨i, hA⟩, item_line.mpr ⟨j, hB⟩, item_line.mpr ⟨k, hX⟩⟩
    · rw [Bool.and_eq_true, List.all_eq_true]
      refine ⟨?_, hf⟩
      rw [← hl]
      refine legal_lines ?_
      constructor
      · rintro rfl
        rw [hA] at hX
        cases hX
        rfl
      · rintro rfl
        exact line_inj hX hA
  · unfold lineOf lines
    simp [hA, hB, hX]

/-- the type of the dataset holds the item numbers of a triplet -/
theorem castTrip_items {a : Args ρ} (_ha : a.OK) {key : List Val} {total : Int} {t : IntType} (ht : fitIntegerType total = .ok t) (hfit : ((itemsOf a key).length : Int) ≤ t.hi) {x : Tri} (hx : x ∈ tripsSpec a key) :
    castTrip t (x.1.1, x.2.1.1, x.2.2.1) = ((x.1.1 : Int), (x.2.1.1 : Int), (x.2.2.1 : Int)) := by
  obtain ⟨A, B, X⟩ := x
  obtain ⟨m1, m2, m3⟩ := mem_prod3.mp (show (A, B, X) ∈ prod3 _ _ _ from (List.mem_filter.mp hx).1)
  have hlt : ∀ z ∈ itemsOf a key, t.cast (z.1 : Int) = z.1 := by
    intro z hz
    have hz' : z.1 < (itemsOf a key).length := Pipeline.items_lt hz
    have hfam := C43_family _ _ _ ht
    refine C43_cast_lossless t _ ?_ ?_ (by omega)
    · have := hfam.1
      simp at this
      omega
    · unfold IntType.lo
      rw [hfam.2]
      have : (0 : Int) ≤ 2 ^ (t.bits - 1) := by positivity
      simp only [if_true]
      omega
  unfold castTrip
  rw [hlt A m1, hlt B m2, hlt X m3]

/-- the rows of the intervals of the file -/
theorem FileOK.slices {e : Env} {N : Num} {threshold : Nat} {src : List Val → List Val → Nat → Src} {T : Task ρ} {F : File} {total : Int} {t tb : IntType} {outs : List (List Val × List BlkOut)} (K : FileOK e N threshold src T F total t tb outs) :
    F.byIndex.map (fun p => (F.data.take p.2.toNat).drop p.1.toNat) = (kept outs).map (fun p => (levelTrips p).map (castTrip t)) ∧ F.bys.length = F.byIndex.length := by
  constructor
  · show F.byIndex.map (fun p => npSlice F.data p.1.toNat p.2.toNat) = _
    rw [K.index, K.data]
    have := intervals_slices ((kept outs).map (fun p => (levelTrips p).map (castTrip t))) []
    simp only [List.length_nil, List.map_map, List.nil_append] at this
    rw [← this, List.map_map]
    have e1 : (kept outs).map (List.length ∘ fun p => (levelTrips p).map (castTrip t)) = (kept outs).map (fun p => (levelTrips p).length) := by
      apply List.map_congr_left; intro p _; simp
    rw [e1]
    apply List.map_congr_left
    intro p _
    simp only [Function.comp, Int.toNat_natCast]
    congr 1
    rw [List.flatMap_def, List.map_flatten, List.map_map]
    rfl
  · rw [K.bys, K.index, List.length_map, List.length_map, intervals_length, List.length_map]

end ABX.Task
