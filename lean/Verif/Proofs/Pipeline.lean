import Verif.Spec.Pipeline
import Verif.Properties.AnalyzeFile
/-! From the table of items to the results. -/
namespace ABX.Pipeline
open ExtSort ABX.Task Pairs SideOps Sampler Distances Score EndToEnd Analyze F64
variable {ρ φ δ : Type}

/-- the sizes for which all numbers are computed exactly: the item numbers of a level fit the type chosen from the number of triplets, the keys of the pairs are below 2^53, and so is the number of pairs -/
structure Sizes (a : Args ρ) (T : Task.Task ρ) : Prop where
  fit : ∀ L ∈ T.levels, (itemsOf a L.key).length ≤ max 128 (T.levels.map (fun L => (tripsSpec a L.key).length)).sum
  items : ∀ L ∈ T.levels, (itemsOf a L.key).length ≤ 94906265
  trips : (T.levels.map (fun L => (tripsSpec a L.key).length)).sum ≤ 2 ^ 52

theorem items_lt {by_ : List String} {rows : List Row} {key : List Val} {p : Spec.Item} (h : p ∈ Spec.items by_ rows key) : p.1 < (Spec.items by_ rows key).length := by
  unfold Spec.items at h ⊢
  obtain ⟨q, hq, rfl⟩ := List.mem_map.mp h
  obtain ⟨i, hi⟩ := List.getElem?_of_mem hq
  rw [List.getElem?_zipIdx, Option.map_eq_some_iff] at hi
  obtain ⟨r, hr, rfl⟩ := hi
  have := (List.getElem?_eq_some_iff.mp hr).1
  simpa using this

theorem frame_lt {e : Env} (he : e.Lawful) {a : Args ρ} (ha : a.OK) {T : Task.Task ρ} (h : init e a = .ok T) {L : Level ρ} (hL : L ∈ T.levels) {p : Nat × Row} (hp : p ∈ L.frame) :
    p.1 < (itemsOf a L.key).length := by
  obtain ⟨fr0, I⟩ := init_level he ha h hL
  obtain ⟨q, hq, hpq⟩ := forall₂_mem_left I.sim p (I.hyp.sub hp)
  rw [hpq.1]
  exact items_lt hq

theorem fit_hi {n : Nat} {t : IntType} (h : fitIntegerType (n : Int) = .ok t) : (n : Int) < t.hi ∧ 128 ≤ t.hi := by
  unfold fitIntegerType at h
  simp at h
  repeat' split at h
  all_goals first
    | (injection h with h; subst h; simp [IntType.hi]; omega)
    | (exact absurd h (by simp))

/-- without threshold, the number of rows of triplets/data is the number of triplets -/
theorem data_length {e : Env} (he : e.Lawful) {a : Args ρ} (ha : a.OK) (hf : Spec'.KeptFirst a) {T : Task.Task ρ} (h : init e a = .ok T)
    {N : Num} (hN : ArgsortLaw N.argsort) {src : List Val → List Val → Nat → Src} {F : File} {total : Int} {t tb : IntType} {outs : List (List Val × List BlkOut)}
    (K : FileOK e N 0 src T F total t tb outs) : F.data.length = (T.levels.map (fun L => (tripsSpec a L.key).length)).sum := by
  have h1 := (C03_spec he ha hf h).1
  have h2 : List.Forall₂ (fun L os => levelOut e N 0 src T L = .ok os) T.levels (outs.map (·.2)) := by
    rw [List.forall₂_map_right_iff]
    exact K.outs_ok.imp (fun _ _ h => h.2)
  have h3 := C03_total he ha h hN h1 h2
  have h4 : F.data.length = ((outs.map (·.2)).map (fun os => (os.flatMap BlkOut.trips).length)).sum := by
    rw [K.data, List.length_map, List.length_flatMap, List.map_map]
    have : ∀ l : List (List Val × List BlkOut), ((kept l).map (fun p => (levelTrips p).length)).sum = (l.map ((fun os => (os.flatMap BlkOut.trips).length) ∘ (·.2))).sum := by
      intro l
      induction l with
      | nil => rfl
      | cons p l ih =>
        unfold kept at ih ⊢
        rw [List.map_cons, List.sum_cons, ← ih, List.filter_cons]
        split
        · rw [List.map_cons, List.sum_cons]; rfl
        · rename_i hp
          have hp : levelTrips p = [] := by simpa using hp
          have : ((p.2.flatMap BlkOut.trips).length) = 0 := by
            have : p.2.flatMap BlkOut.trips = [] := hp
            rw [this]; rfl
          simp only [Function.comp, this, Nat.zero_add]
    exact this outs
  omega

theorem small_items {e : Env} (he : e.Lawful) {a : Args ρ} (ha : a.OK) (hf : Spec'.KeptFirst a) {T : Task.Task ρ} (h : init e a = .ok T) (hz : Sizes a T) {F : File}
    (hd : F.data.length ≤ 2 ^ 52) : Small e T F := by
  refine ⟨?_, ?_, hd⟩
  · intro total t ht hfit L hL p hp
    have hs := (C03_spec he ha hf h).1
    rw [hs] at ht
    cases ht
    have h3 := fit_hi hfit
    have h4 := frame_lt he ha h hL hp
    have h5 := hz.fit L hL
    omega
  · intro L hL p hp
    have h4 := frame_lt he ha h hL hp
    have h5 := hz.items L hL
    omega

theorem small_of {e : Env} (he : e.Lawful) {a : Args ρ} (ha : a.OK) (hf : Spec'.KeptFirst a) {T : Task.Task ρ} (h : init e a = .ok T) (hz : Sizes a T)
    {N : Num} (hN : ArgsortLaw N.argsort) {src : List Val → List Val → Nat → Src} {bl1 bl2 : Nat} (h1 : 0 < bl1) (h2 : 0 < bl2) {F : File}
    (hF : generate e N 0 src bl1 bl2 T = .ok (some F)) : Small e T F := by
  refine small_items he ha hf h hz ?_
  obtain ⟨total, t, tb, outs, K⟩ := generate_ok h1 h2 hF
  rw [data_length he ha hf h hN K]
  exact hz.trips

/-- `-1`, `0` or `1` -/
def IsSign (lt : δ → δ → Bool) (dist : ρ → ρ → Except Err δ) (recs : List ρ) (t : Tri) (w : Int) : Prop :=
  ∃ rA rB rX dAX dBX, recs[t.1.1]? = some rA ∧ recs[t.2.1.1]? = some rB ∧ recs[t.2.2.1]? = some rX ∧ dist rA rX = .ok dAX ∧ dist rB rX = .ok dBX ∧
    w = if lt dAX dBX then 1 else if lt dBX dAX then -1 else 0

theorem IsSign.unique {lt : δ → δ → Bool} {dist : ρ → ρ → Except Err δ} {recs : List ρ} {t : Tri} {w w' : Int} (h : IsSign lt dist recs t w) (h' : IsSign lt dist recs t w') : w = w' := by
  obtain ⟨rA, rB, rX, d, d', a1, a2, a3, a4, a5, rfl⟩ := h
  obtain ⟨sA, sB, sX, f, f', b1, b2, b3, b4, b5, rfl⟩ := h'
  rw [a1] at b1; cases b1
  rw [a2] at b2; cases b2
  rw [a3] at b3; cases b3
  rw [a4] at b4; cases b4
  rw [a5] at b5; cases b5
  rfl

theorem isAbx_iff {lt : δ → δ → Bool} {dist : ρ → ρ → Except Err δ} {recs : List ρ} {t : Tri} {q : ℚ} :
    Spec.IsAbx lt dist recs t q ↔ ∃ w : Int, IsSign lt dist recs t w ∧ q = ((w : ℚ) + 1) / 2 := by
  constructor
  · rintro ⟨rA, rB, rX, d, d', a1, a2, a3, a4, a5, rfl⟩
    refine ⟨_, ⟨rA, rB, rX, d, d', a1, a2, a3, a4, a5, rfl⟩, ?_⟩
    split
    · norm_num
    · split <;> norm_num
  · rintro ⟨w, ⟨rA, rB, rX, d, d', a1, a2, a3, a4, a5, rfl⟩, rfl⟩
    refine ⟨rA, rB, rX, d, d', a1, a2, a3, a4, a5, ?_⟩
    split
    · norm_num
    · split <;> norm_num

theorem IsAbx.unique {lt : δ → δ → Bool} {dist : ρ → ρ → Except Err δ} {recs : List ρ} {t : Tri} {q q' : ℚ} (h : Spec.IsAbx lt dist recs t q) (h' : Spec.IsAbx lt dist recs t q') : q = q' := by
  obtain ⟨w, h1, rfl⟩ := isAbx_iff.mp h
  obtain ⟨w', h2, rfl⟩ := isAbx_iff.mp h'
  rw [h1.unique h2]

theorem records_feat {e : Env} (he : e.Lawful) {a : Args ρ} (ha : a.OK) {T : Task.Task ρ} (h : init e a = .ok T) {L : Level ρ} (hL : L ∈ T.levels)
    (hp : ∀ (i : Nat) (p : Nat × Row), a.db[i]? = some p → p.1 = i) (hlen : a.feat.length = a.db.length) :
    Spec.records a.by_ (a.db.map (·.2)) a.feat (specKey a L.key) = L.feat := by
  obtain ⟨h1, h2⟩ := C15_features_partial he ha h hL hp hlen
  unfold Spec.records
  rw [← h1, List.map_snd_zip]
  rw [List.length_map]
  omega

theorem scoresOf_map {α : Type} (g : α → List Nat) (w : α → Int) (c : List Nat) (S : List α) :
    Analyze.Spec.scoresOf (S.map g) (S.map w) c = (S.filter (fun t => g t == c)).map w := by
  unfold Analyze.Spec.scoresOf
  rw [List.zip_map', List.filter_map, List.map_map]
  rfl

/-- the rows of a level in terms of its triplets -/
theorem results_of {labels : List (List Val)} {key : List Val} {value : Tri → List Nat} {w : Tri → Int} {S S' : List Tri} (hp : S'.Perm S) (hw : ∀ t ∈ S, |w t| ≤ 1) {rows : List (List Nat)} {out : List OutRow}
    (h : Analyze.Spec.Collapsed labels key (S'.map value) (S'.map w) rows out) : Spec.Results labels key value (fun t => ((w t : ℚ) + 1) / 2) S out := by
  have hr := C21_range h (by
    intro x hx
    obtain ⟨t, ht, rfl⟩ := List.mem_map.mp hx
    exact hw t (hp.mem_iff.mp ht))
  refine ⟨rows, h.sorted, ?_, ?_⟩
  · intro c
    rw [h.mem, List.mem_map]
    simp only [hp.mem_iff]
  · rw [List.forall₂_iff_get] at hr ⊢
    have h0 := h.rows
    rw [List.forall₂_iff_get] at h0
    refine ⟨h0.1, fun i h1 h2 => ?_⟩
    have ha := h0.2 i h1 h2
    have hb := hr.2 i h1 h2
    rw [scoresOf_map] at ha hb
    have hc := (h.mem _).mp (List.get_mem rows ⟨i, h1⟩)
    generalize rows.get ⟨i, h1⟩ = c at ha hb hc
    generalize out.get ⟨i, h2⟩ = o at ha hb
    obtain ⟨a1, a2, -, a4, a5⟩ := ha
    obtain ⟨b1, b2, b3⟩ := hb
    have hp' : (S'.filter (fun t => value t == c)).Perm (S.filter (fun t => value t == c)) := hp.filter _
    rw [List.length_map] at a4
    have hn : o.n = (S.filter (fun t => value t == c)).length := by rw [a4, hp'.length_eq]
    have hsum : (((S'.filter (fun t => value t == c)).map w).sum : ℤ) = ((S.filter (fun t => value t == c)).map w).sum := (hp'.map w).sum_eq
    have hq : ((((S.filter (fun t => value t == c)).map w).sum : ℤ) : ℚ) = ((S.filter (fun t => value t == c)).map (fun t => 2 * (((w t : ℚ) + 1) / 2) - 1)).sum := by
      generalize S.filter (fun t => value t == c) = l
      induction l with
      | nil => simp
      | cons t l ih =>
        simp only [List.map_cons, List.sum_cons, Int.cast_add, ih]
        ring
    refine ⟨a1, a2, hn, ?_, ?_, b1, b2⟩
    · rw [← hq, ← hsum]; exact a5
    · have hm : Analyze.Spec.meanScore ((S'.filter (fun t => value t == c)).map w) = ((S.filter (fun t => value t == c)).map (fun t => ((w t : ℚ) + 1) / 2)).sum / o.n := by
        unfold Analyze.Spec.meanScore
        rw [List.length_map, hsum, hn, hp'.length_eq]
        have hne : ((S.filter (fun t => value t == c)).length : ℚ) ≠ 0 := by
          obtain ⟨t, ht, rfl⟩ := List.mem_map.mp hc
          have : t ∈ S.filter (fun u => value u == value t) := List.mem_filter.mpr ⟨hp.mem_iff.mp ht, by simp⟩
          have := List.length_pos_of_mem this
          exact_mod_cast this.ne'
        generalize S.filter (fun t => value t == c) = l at hne
        have : (l.map (fun t => ((w t : ℚ) + 1) / 2)).sum = (((l.map w).sum : ℤ) + (l.length : ℚ)) / 2 := by
          clear hne
          induction l with
          | nil => simp
          | cons t l ih =>
            simp only [List.map_cons, List.sum_cons, Int.cast_add, ih, List.length_cons]
            push_cast
            ring
        rw [this]
        field_simp
      rw [← hm]
      exact b3

theorem mem_prod {l : List Nat} (h : ∀ x ∈ l, 0 < x) {x : Nat} (hx : x ∈ l) : x ≤ l.prod := by
  refine Nat.le_of_dvd ?_ (List.dvd_prod hx)
  clear hx
  induction l with
  | nil => simp
  | cons y l ih =>
    rw [List.prod_cons]
    exact Nat.mul_pos (h y (by simp)) (ih (fun z hz => h z (by simp [hz])))

theorem foldl_max_lt {n : Nat} (l : List Nat) : ∀ m, m < n → (∀ x ∈ l, x < n) → l.foldl max m < n := by
  induction l with
  | nil => intro m hm _; exact hm
  | cons x l ih =>
    intro m hm hl
    exact ih _ (by have := hl x (by simp); omega) (fun y hy => hl y (by simp [hy]))

theorem bits_ok {indexes : List (List Val)} (h : ∀ ix ∈ indexes, 0 < ix.length) (hc : (indexes.map List.length).prod ≤ 2 ^ 53) : ∃ dt, indexedBits indexes = .ok dt := by
  unfold indexedBits
  have h1 : (indexes.map List.length).foldl max 0 < 2 ^ 53 + 1 := by
    refine foldl_max_lt _ _ (by omega) ?_
    intro x hx
    have := mem_prod (by intro y hy; obtain ⟨ix, hix, rfl⟩ := List.mem_map.mp hy; exact h ix hix) hx
    omega
  split
  · rename_i er her
    exfalso
    generalize (indexes.map List.length).foldl max 0 = n at h1 her
    unfold fitIntegerType at her
    simp at her
    repeat' split at her
    all_goals first
      | omega
      | (exact absurd her (by simp))
  · exact ⟨_, rfl⟩

theorem trips_lt {a : Args ρ} {key : List Val} {t : Tri} (h : t ∈ tripsSpec a key) : t.1.1 < (itemsOf a key).length ∧ t.2.1.1 < (itemsOf a key).length ∧ t.2.2.1 < (itemsOf a key).length := by
  unfold tripsSpec Spec.itemTriplets at h
  have := (List.mem_filter.mp h).1
  unfold Spec.triples at this
  simp only [List.mem_flatMap, List.mem_map] at this
  obtain ⟨A, hA, B, hB, X, hX, rfl⟩ := this
  exact ⟨items_lt hA, items_lt hB, items_lt hX⟩

theorem mem_bys_of {e : Env} (he : e.Lawful) {a : Args ρ} (ha : a.OK) {T : Task.Task ρ} (h : init e a = .ok T)
    {N : Num} {threshold : Nat} {src : List Val → List Val → Nat → Src} {F : File} {total : Int} {t tb : IntType} {outs : List (List Val × List BlkOut)}
    (hlev : ∀ (p : List Val × List BlkOut) L, L ∈ T.levels → p.1 = L.key → levelOut e N threshold src T L = .ok p.2 → (levelTrips p ≠ [] ↔ tripsSpec a L.key ≠ []))
    (K : FileOK e N threshold src T F total t tb outs) (key : List Val) : key ∈ F.bys ↔ (∃ p ∈ a.db, levelKey a p.2 = key) ∧ tripsSpec a key ≠ [] := by
  rw [K.bys]
  constructor
  · intro hk
    obtain ⟨p, hp, rfl⟩ := List.mem_map.mp hk
    obtain ⟨hp1, hp2⟩ := List.mem_filter.mp hp
    obtain ⟨L, hL, hk, ho⟩ := forall₂_mem_right K.outs_ok p hp1
    refine ⟨?_, by rw [hk]; exact (hlev p L hL hk ho).mp (by simpa using hp2)⟩
    obtain ⟨fr0, I⟩ := init_level he ha h hL
    obtain ⟨q, hq, hqk⟩ := I.keyMem
    obtain ⟨p', hp', hpq⟩ := forall₂_mem_left (prep_sim a) q hq
    refine ⟨p', hp', ?_⟩
    rw [hk, ← hqk]
    unfold levelKey
    by_cases hb : a.by_ = []
    · rw [if_pos hb, (prep_by a hb).1, keyOf, List.map_cons, List.map_nil, (prep_by a hb).2 q hq]
    · rw [if_neg hb, prep_by' a hb, keyOf]
      obtain ⟨_, _, h3, h4⟩ := checkDatabase_ok (init_ok h).1
      apply List.map_congr_left
      intro c hc
      exact (hpq.2 c (h4 c (h3 c hc)).1 (h4 c (h3 c hc)).2).symm
  · rintro ⟨⟨p, hp, rfl⟩, hne⟩
    rcases C04_levels he ha h hp with ⟨L, hL, hk⟩ | h0
    · obtain ⟨q, hq, hqk, ho⟩ := forall₂_mem_left K.outs_ok L hL
      refine List.mem_map.mpr ⟨q, List.mem_filter.mpr ⟨hq, ?_⟩, by rw [hqk, hk]⟩
      have := (hlev q L hL hqk ho).mpr (by rw [hk]; exact hne)
      simpa using this
    · exfalso
      unfold Spec.triplets at h0
      exact hne (List.map_eq_nil_iff.mp h0)

/-- the levels of the file are those with triplets -/
theorem mem_bys {e : Env} (he : e.Lawful) {a : Args ρ} (ha : a.OK) (hf : Spec'.KeptFirst a) {T : Task.Task ρ} (h : init e a = .ok T)
    {N : Num} (hN : ArgsortLaw N.argsort) {src : List Val → List Val → Nat → Src} (hsrc : ∀ k k' j, (src k k' j).Lawful) {F : File} {total : Int} {t tb : IntType} {outs : List (List Val × List BlkOut)}
    (K : FileOK e N 0 src T F total t tb outs) (key : List Val) : key ∈ F.bys ↔ (∃ p ∈ a.db, levelKey a p.2 = key) ∧ tripsSpec a key ≠ [] := by
  refine mem_bys_of he ha h (fun p L hL hp ho => ?_) K key
  obtain ⟨S, M, -⟩ := level_main he ha h hL (positional he ha hf h hL) hN hsrc ho
  unfold levelTrips
  rw [M.trips, Ne, List.map_eq_nil_iff, not_iff_not]
  have := M.perm rfl
  constructor
  · intro h0; rw [h0] at this; exact this.symm.eq_nil
  · intro h0; rw [h0] at this; exact this.eq_nil

theorem regs_perm {e : Env} (he : e.Lawful) {a : Args ρ} (ha : a.OK) (hf : Spec'.KeptFirst a) {T : Task.Task ρ} (h : init e a = .ok T)
    {N : Num} (hN : ArgsortLaw N.argsort) {threshold : Nat} {src : List Val → List Val → Nat → Src} (hsrc : ∀ k k' j, (src k k' j).Lawful)
    (hA : (∀ f ∈ a.regressors, Spec.readsA a.cols f = false) ∨ (T.filters.ops .ABX ≠ [] ∧ a.on ∈ a.cols.on ∧ a.on ∉ a.cols.by_)) {F : File} {total : Int} {t tb : IntType} {outs : List (List Val × List BlkOut)}
    (K : FileOK e N threshold src T F total t tb outs) (hne : F.bys ≠ []) : (colRegs T.regressors).Perm (allRegs e a) := by
  obtain ⟨key, hk⟩ := List.exists_mem_of_ne_nil _ hne
  rw [K.bys] at hk
  obtain ⟨p, hp, rfl⟩ := List.mem_map.mp hk
  obtain ⟨hp1, hp2⟩ := List.mem_filter.mp hp
  obtain ⟨L, hL, -, ho⟩ := forall₂_mem_right K.outs_ok p hp1
  obtain ⟨-, -, -, h3, -⟩ := aligned he ha hf h hL hN hsrc hA ho (by
    intro h0
    unfold levelTrips at hp2
    rw [h0] at hp2
    simp at hp2)
  exact h3

/-- the results are determined by the scores of the triplets -/
theorem Results.unique {labels : List (List Val)} {key : List Val} {value : Tri → List Nat} {abx abx' : Tri → ℚ} {S : List Tri} {out out' : List OutRow} (hw : ∀ t ∈ S, (value t).length = labels.length)
    (he : ∀ t ∈ S, abx t = abx' t) (h : Spec.Results labels key value abx S out) (h' : Spec.Results labels key value abx' S out') : out = out' := by
  obtain ⟨cs, s1, m1, r1⟩ := h
  obtain ⟨cs', s2, m2, r2⟩ := h'
  have hc : cs = cs' := by
    apply List.Perm.eq_of_pairwise (le := (· < ·)) (fun a b _ _ h1 h2 => (lt_asymm h1 h2).elim) s1 s2
    rw [List.perm_ext_iff_of_nodup (s1.imp (fun hlt he => by subst he; exact lt_irrefl _ hlt)) (s2.imp (fun hlt he => by subst he; exact lt_irrefl _ hlt))]
    intro r
    rw [m1, m2]
  subst hc
  apply List.ext_getElem?
  intro i
  by_cases hi : i < cs.length
  · obtain ⟨o, ho, a1, a2, a3, a4, -⟩ := Distances.forall₂_getElem r1 (List.getElem?_eq_getElem hi)
    obtain ⟨o', ho', b1, b2, b3, b4, -⟩ := Distances.forall₂_getElem r2 (List.getElem?_eq_getElem hi)
    rw [ho, ho']
    congr 1
    obtain ⟨t, ht, htc⟩ := (m1 _).mp (List.getElem_mem hi)
    have hn : o.n = o'.n := by rw [a3, b3]
    have hsc : o.score = o'.score := by
      rw [a4, b4, hn]
      have : (S.filter (fun t => value t == cs[i])).map (fun t => 2 * abx t - 1) = (S.filter (fun t => value t == cs[i])).map (fun t => 2 * abx' t - 1) := by
        apply List.map_congr_left
        intro u hu
        rw [he u (List.mem_filter.mp hu).1]
      rw [this]
    have hlab : o.labels = o'.labels := by
      apply List.ext_getElem?
      intro j
      by_cases hj : j < labels.length
      · have hjr : j < cs[i].length := by rw [← htc, hw t ht]; exact hj
        rw [a1.2 j _ _ (List.getElem?_eq_getElem hj) (List.getElem?_eq_getElem hjr), b1.2 j _ _ (List.getElem?_eq_getElem hj) (List.getElem?_eq_getElem hjr)]
      · rw [List.getElem?_eq_none (by rw [a1.1]; omega), List.getElem?_eq_none (by rw [b1.1]; omega)]
    cases o
    cases o'
    simp_all
  · rw [List.getElem?_eq_none (by rw [← r1.length_eq]; omega), List.getElem?_eq_none (by rw [← r2.length_eq]; omega)]

end ABX.Pipeline
