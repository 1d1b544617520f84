import Verif.Proofs.TaskBare
import Verif.Properties.ExtSort
/-!
Properties C01-C11 and C15: the triplets of a task.

Vocabulary.  `itemsOf a key`: the items of a 'by' level (`Spec.items` of the rows of the table).  `tripsSpec a key`:
the triples of these items that are legal (`Spec.legal`) and on which every filter holds (`Spec.holds`).
`allRegs e a`: regressors of the user and default regressors.  `os.flatMap BlkOut.trips`: the triplets written for a level,
in order.  All theorems quantify over the iteration orders `e` of python sets and pandas groups, the sorting permutation
`N.argsort` and the random numbers `src`.
-/
namespace ABX.Task
open ExtSort SideOps Sampler
variable {ρ : Type}

/-- a task whose bare filters, if any, remove the last items of the levels keeps items at their positions -/
theorem positional {e : Env} (he : e.Lawful) {a : Args ρ} (ha : a.OK) (hf : Spec'.KeptFirst a) {T : Task ρ} (h : init e a = .ok T)
    {L : Level ρ} (hL : L ∈ T.levels) : Positional L.frame := by
  obtain ⟨fr0, I⟩ := init_level he ha h hL
  exact positional_kept ha h I hf

/-- C01: every triplet written for a level of a task without filters is made of items of the level and is an ABX triplet. -/
theorem C01_legal {e : Env} (he : e.Lawful) {a : Args ρ} (ha : a.OK) (hf : a.filters = []) {T : Task ρ} (h : init e a = .ok T) {L : Level ρ} (hL : L ∈ T.levels)
    {N : Num} (hN : ArgsortLaw N.argsort) {threshold : Nat} {src : List Val → List Val → Nat → Src} (hs : ∀ k k' j, (src k k' j).Lawful)
    {os : List BlkOut} (ho : levelOut e N threshold src T L = .ok os) :
    ∀ t ∈ os.flatMap BlkOut.trips, ∃ A ∈ itemsOf a L.key, ∃ B ∈ itemsOf a L.key, ∃ X ∈ itemsOf a L.key, t = (A.1, B.1, X.1) ∧
      A.2 a.on = X.2 a.on ∧ B.2 a.on ≠ A.2 a.on ∧ (∀ c ∈ a.across, B.2 c = A.2 c) ∧ (∀ c ∈ a.across, X.2 c ≠ A.2 c) ∧ (a.across = [] → X.1 ≠ A.1) := by
  obtain ⟨S, M, -⟩ := level_main he ha h hL (positional he ha (.of_not_bare (by simp [hf])) h hL) hN hs ho
  intro t ht
  rw [M.trips] at ht
  obtain ⟨⟨A, B, X⟩, hS, rfl⟩ := List.mem_map.mp ht
  obtain ⟨hm, hl⟩ := List.mem_filter.mp (M.sub _ hS)
  obtain ⟨h1, h2, h3⟩ := mem_prod3.mp (show (A, B, X) ∈ prod3 _ _ _ from hm)
  refine ⟨A, h1, B, h2, X, h3, rfl, ?_⟩
  rw [Bool.and_eq_true] at hl
  have hl := hl.1
  unfold Spec.legal at hl
  dsimp only at hl
  simp only [Bool.and_eq_true, beq_iff_eq, bne_iff_ne, ne_eq, List.all_eq_true] at hl
  obtain ⟨⟨⟨l1, l2⟩, l3⟩, l4⟩ := hl
  refine ⟨l1, l2, l3, ?_, ?_⟩
  · intro c hc
    cases hac : a.across with
    | nil => rw [hac] at hc; simp at hc
    | cons d ds =>
      rw [hac] at l4 hc
      simp only [List.isEmpty_cons, Bool.false_eq_true, if_false, List.all_eq_true] at l4
      simpa using l4 c hc
  · intro hac
    rw [hac] at l4
    simpa using l4

/-- C02: without filters and threshold every legal triple of items of the level is written exactly once (and no other). -/
theorem C02_exactly_once {e : Env} (he : e.Lawful) {a : Args ρ} (ha : a.OK) (hf : a.filters = []) {T : Task ρ} (h : init e a = .ok T) {L : Level ρ} (hL : L ∈ T.levels)
    {N : Num} (hN : ArgsortLaw N.argsort) {src : List Val → List Val → Nat → Src} (hs : ∀ k k' j, (src k k' j).Lawful)
    {os : List BlkOut} (ho : levelOut e N 0 src T L = .ok os) {A B X : Nat × Row} (hA : A ∈ itemsOf a L.key) (hB : B ∈ itemsOf a L.key) (hX : X ∈ itemsOf a L.key) :
    (os.flatMap BlkOut.trips).count (A.1, B.1, X.1) = if Spec.legal a.on a.across A B X then 1 else 0 := by
  obtain ⟨S, M, -⟩ := level_main he ha h hL (positional he ha (.of_not_bare (by simp [hf])) h hL) hN hs ho
  have hp := (M.perm rfl).map lab
  rw [M.trips, hp.count_eq]
  have hnd : ((tripsSpec a L.key).map lab).Nodup :=
    (List.nodup_map_iff_inj_on (tripsSpec_nodup a L.key)).mpr (fun x hx y hy hxy => tripsSpec_lab hx hy hxy)
  have hm : (A.1, B.1, X.1) ∈ (tripsSpec a L.key).map lab ↔ Spec.legal a.on a.across A B X = true := by
    rw [List.mem_map]
    constructor
    · rintro ⟨⟨A', B', X'⟩, ht, hl⟩
      obtain ⟨hm, hl'⟩ := List.mem_filter.mp ht
      obtain ⟨h1, h2, h3⟩ := mem_prod3.mp (show (A', B', X') ∈ prod3 _ _ _ from hm)
      simp only [lab, Prod.mk.injEq] at hl
      have d := items_distinct a L.key
      rw [← d.inj h1 hA hl.1, ← d.inj h2 hB hl.2.1, ← d.inj h3 hX hl.2.2]
      exact (Bool.and_eq_true _ _ ▸ hl').1
    · intro hl
      refine ⟨(A, B, X), List.mem_filter.mpr ⟨mem_prod3.mpr ⟨hA, hB, hX⟩, ?_⟩, rfl⟩
      simp [hl, hf]
  by_cases hl : Spec.legal a.on a.across A B X = true
  · rw [if_pos hl]
    exact List.count_eq_one_of_mem hnd (hm.mpr hl)
  · rw [if_neg hl]
    exact List.count_eq_zero.mpr (fun h => hl (hm.mp h))

/-- the 'by' values of a row, completed by the value of the dummy column when there is no 'by' (task.py lines 213-215) -/
def levelKey (a : Args ρ) (r : Row) : List Val := if a.by_ = [] then [.int 0] else a.by_.map r

theorem levelKey_prep {a : Args ρ} (hc : checkDatabase a = .ok ()) {p : Nat × Row} (hp : p ∈ a.db) :
    ∃ q ∈ (prep a).2.2, keyOf (prep a).1 q.2 = levelKey a p.2 := by
  obtain ⟨q, hq, hpq⟩ := forall₂_mem_right (prep_sim a) p hp
  refine ⟨q, hq, ?_⟩
  unfold levelKey
  by_cases hb : a.by_ = []
  · rw [if_pos hb, (prep_by a hb).1, keyOf, List.map_cons, List.map_nil, (prep_by a hb).2 q hq]
  · rw [if_neg hb, prep_by' a hb, keyOf]
    obtain ⟨_, _, h3, h4⟩ := checkDatabase_ok hc
    apply List.map_congr_left
    intro c hc
    exact hpq.2 c (h4 c (h3 c hc)).1 (h4 c (h3 c hc)).2

/-- C02, levels: every row of the table belongs to a level of the task. -/
theorem C02_levels {e : Env} (he : e.Lawful) {a : Args ρ} (hf : a.filters = []) {T : Task ρ} (h : init e a = .ok T) {p : Nat × Row} (hp : p ∈ a.db) :
    ∃ L ∈ T.levels, L.key = levelKey a p.2 := by
  obtain ⟨hc, hon, hcols, hacr, hmf, hmr, ls, hls, hlev⟩ := init_ok h
  obtain ⟨q, hq, hk⟩ := levelKey_prep hc hp
  obtain ⟨o, ho, hprep⟩ := forall₂_mem_left (sequence_inv hls) (levelKey a p.2) ((mem_groupKeys he).mpr ⟨q, hq, hk⟩)
  have hnil : T.filters = [] := by
    rw [hf] at hmf
    exact (Except.ok.inj hmf).symm
  unfold prepareLevel at hprep
  dsimp only at hprep
  split at hprep
  · cases hprep
  rw [hnil] at hprep
  split at hprep
  · cases hprep
  · rename_i hfalse
    cases hfalse
  split at hprep
  · cases hprep
  split at hprep
  · cases hprep
  split at hprep
  · cases hprep
  split at hprep
  · cases hprep
  rename_i L' _
  cases hprep
  exact ⟨_, by rw [hlev]; simpa using ho, rfl⟩

/-- C03: the number of triplets of a level announced by the statistics is the number of triplets written without threshold,
whatever the filters. -/
theorem C03_level {e : Env} (he : e.Lawful) {a : Args ρ} (ha : a.OK) {T : Task ρ} (h : init e a = .ok T) {L : Level ρ} (hL : L ∈ T.levels)
    {N : Num} (hN : ArgsortLaw N.argsort) {src : List Val → List Val → Nat → Src}
    {n : Int} (hn : levelNbTriplets e T L = .ok n) {os : List BlkOut} (ho : levelOut e N 0 src T L = .ok os) :
    n = ((os.flatMap BlkOut.trips).length : Nat) := by
  obtain ⟨fr0, I⟩ := init_level he ha h hL
  exact level_count I.hyp I.reg hN hn ho

/-- C03: the total number of triplets is the sum over the levels of the number of triplets written. -/
theorem C03_total {e : Env} (he : e.Lawful) {a : Args ρ} (ha : a.OK) {T : Task ρ} (h : init e a = .ok T)
    {N : Num} (hN : ArgsortLaw N.argsort) {src : List Val → List Val → Nat → Src}
    {n : Int} (hn : nbTriplets e T = .ok n) {outs : List (List BlkOut)} (ho : List.Forall₂ (fun L os => levelOut e N 0 src T L = .ok os) T.levels outs) :
    n = ((outs.map (fun os => (os.flatMap BlkOut.trips).length)).sum : Nat) := by
  unfold nbTriplets at hn
  cases hs : sequence (T.levels.map (levelNbTriplets e T)) with
  | error er => rw [hs] at hn; cases hn
  | ok l =>
    rw [hs] at hn
    simp only [Except.map, Except.ok.injEq] at hn
    subst hn
    have hF := sequence_inv hs
    have key : ∀ (ls : List (Level ρ)) l, (∀ L ∈ ls, L ∈ T.levels) → List.Forall₂ (fun L n => levelNbTriplets e T L = .ok n) ls l →
        ∀ outs, List.Forall₂ (fun L os => levelOut e N 0 src T L = .ok os) ls outs →
        l.sum = (((outs.map (fun os : List BlkOut => (os.flatMap BlkOut.trips).length)).sum : Nat) : Int) := by
      intro ls l hm h1
      induction h1 with
      | nil => intro outs h2; cases h2; rfl
      | @cons L n ls l hh _ ih =>
        intro outs h2
        cases h2 with
        | @cons _ os _ outs hh' h2 =>
          rw [List.sum_cons, ih (fun L' h' => hm L' (by simp [h'])) _ h2, C03_level he ha h (hm L (by simp)) hN hh hh', List.map_cons, List.sum_cons]
          push_cast; rfl
    exact key _ _ (fun _ h => h) hF _ ho

/-- C03, block sizes: the size of an on/across/by block announced by the statistics is the number of triplets written for the block
(none if the block is filtered out). -/
theorem C03_block {e : Env} (he : e.Lawful) {a : Args ρ} (ha : a.OK) {T : Task ρ} (h : init e a = .ok T) {L : Level ρ} (hL : L ∈ T.levels)
    {N : Num} (hN : ArgsortLaw N.argsort) {src : List Val → List Val → Nat → Src} {byR : List Nat} {key : List Val}
    (hk : ∃ p ∈ L.frame, keyOf (T.on :: T.across) p.2 = key) {s : Int × Int × Int} (hst : blockStats e T L key = .ok s)
    {o : Option BlkOut} (ho : blockOut e N 0 src T L byR key = .ok o) :
    s.1 = match o with | none => 0 | some o => ((o.trips.length : Nat) : Int) := by
  obtain ⟨fr0, I⟩ := init_level he ha h hL
  rw [block_count I.hyp I.reg hN hk hst ho]
  cases o <;> rfl

/-- C03: when the filters on bare columns, if any, remove the last items of the levels (`KeptFirst`), statistics and specification agree: the statistics can be computed and the numbers are those of the legal
triples on which the filters hold. -/
theorem C03_spec {e : Env} (he : e.Lawful) {a : Args ρ} (ha : a.OK) (hf : Spec'.KeptFirst a) {T : Task ρ} (h : init e a = .ok T) :
    nbTriplets e T = .ok (((T.levels.map (fun L => (tripsSpec a L.key).length)).sum : Nat) : Int) ∧
    ∀ L ∈ T.levels, levelNbTriplets e T L = .ok ((tripsSpec a L.key).length : Nat) :=
  ⟨nbTriplets_main he ha h (fun _ hL => positional he ha hf h hL), fun _ hL => levelNb_main he ha h hL (positional he ha hf h hL)⟩

/-- C04 for tasks whose filters on bare columns, if any, remove the last items of the levels: the triplets written are, up to order, the legal
triples on which every filter holds.  Missing: filters on bare columns that remove an item that comes before one they keep, for which the claim
is false (`C04_violated`). -/
theorem C04_filters_partial {e : Env} (he : e.Lawful) {a : Args ρ} (ha : a.OK) (hf : Spec'.KeptFirst a) {T : Task ρ} (h : init e a = .ok T)
    {L : Level ρ} (hL : L ∈ T.levels) {N : Num} (hN : ArgsortLaw N.argsort) {src : List Val → List Val → Nat → Src} (hs : ∀ k k' j, (src k k' j).Lawful)
    {os : List BlkOut} (ho : levelOut e N 0 src T L = .ok os) :
    (os.flatMap BlkOut.trips).Perm (Spec.triplets a.cols a.on a.across a.filters (itemsOf a L.key)) := by
  obtain ⟨S, M, -⟩ := level_main he ha h hL (positional he ha hf h hL) hN hs ho
  rw [M.trips]
  exact (M.perm rfl).map lab

/-- C04, levels: a level that the filters remove has no triplet on which they all hold. -/
theorem C04_levels {e : Env} (he : e.Lawful) {a : Args ρ} (ha : a.OK) {T : Task ρ} (h : init e a = .ok T) {p : Nat × Row} (hp : p ∈ a.db) :
    (∃ L ∈ T.levels, L.key = levelKey a p.2) ∨
    Spec.triplets a.cols a.on a.across a.filters (itemsOf a (levelKey a p.2)) = [] := by
  obtain ⟨q, hq, hk⟩ := levelKey_prep (init_ok h).1 hp
  have := init_covers he ha h hq
  rw [hk] at this
  exact this

/-- C05: the rows of triplets/data in the interval by_index[i] are the triplets of the level bys[i] (converted to the type of the
dataset); the intervals are non-empty, consecutive, start at 0 and end at the number of triplets; the levels that do not appear
are those without triplets. -/
theorem C05_partition {e : Env} {N : Num} {threshold : Nat} {src : List Val → List Val → Nat → Src} {bl1 bl2 : Nat} (h1 : 0 < bl1) (h2 : 0 < bl2)
    {T : Task ρ} {F : File} (h : generate e N threshold src bl1 bl2 T = .ok (some F)) :
    ∃ (t : IntType) (outs : List (List Val × List BlkOut)),
      List.Forall₂ (fun L p => p.1 = L.key ∧ levelOut e N threshold src T L = .ok p.2) T.levels outs ∧
      F.bys = (outs.filter (fun p => p.2.flatMap BlkOut.trips ≠ [])).map (·.1) ∧
      F.byIndex.map (fun p => npSlice F.data p.1.toNat p.2.toNat) =
        (outs.filter (fun p => p.2.flatMap BlkOut.trips ≠ [])).map (fun p => (p.2.flatMap BlkOut.trips).map (castTrip t)) ∧
      (∀ p ∈ F.byIndex, 0 ≤ p.1 ∧ p.1 < p.2) ∧
      (∀ i x y, F.byIndex[i]? = some x → F.byIndex[i + 1]? = some y → x.2 = y.1) ∧
      (∀ x, F.byIndex[0]? = some x → x.1 = 0) ∧
      (∀ x, F.byIndex.getLast? = some x → x.2 = (F.data.length : Nat)) := by
  obtain ⟨total, t, tb, outs, K⟩ := generate_ok h1 h2 h
  have hk : kept outs = outs.filter (fun p => p.2.flatMap BlkOut.trips ≠ []) := by
    unfold kept levelTrips
    apply List.filter_congr
    intro p _
    cases h : p.2.flatMap BlkOut.trips <;> simp
  refine ⟨t, outs, K.outs_ok, by rw [K.bys, hk], ?_, ?_, ?_, ?_, ?_⟩
  · rw [← hk, K.index, K.data]
    have := intervals_slices ((kept outs).map (fun p => (levelTrips p).map (castTrip t))) []
    simp only [List.length_nil, List.map_map, List.nil_append] at this
    rw [show (fun p : List Val × List BlkOut => (p.2.flatMap BlkOut.trips).map (castTrip t)) = fun p => (levelTrips p).map (castTrip t) from rfl, ← this, List.map_map]
    have e1 : (kept outs).map (List.length ∘ fun p => (levelTrips p).map (castTrip t)) = (kept outs).map (fun p => (levelTrips p).length) := by
      apply List.map_congr_left; intro p _; simp
    rw [e1]
    apply List.map_congr_left
    intro p _
    simp only [Function.comp, Int.toNat_natCast]
    congr 1
    rw [List.flatMap_def, List.map_flatten, List.map_map]
    rfl
  · intro p hp
    rw [K.index] at hp
    obtain ⟨q, hq, rfl⟩ := List.mem_map.mp hp
    have := intervals_lt _ (fun n hn => by
      obtain ⟨x, hx, rfl⟩ := List.mem_map.mp hn
      have := (List.mem_filter.mp hx).2
      exact List.length_pos_iff.mpr (by simpa using this)) 0 q hq
    dsimp only
    omega
  · intro i x y hx hy
    rw [K.index, List.getElem?_map, Option.map_eq_some_iff] at hx hy
    obtain ⟨x', hx, rfl⟩ := hx
    obtain ⟨y', hy, rfl⟩ := hy
    have := intervals_chain _ 0 i x' y' hx hy
    dsimp only
    omega
  · intro x hx
    rw [K.index, List.getElem?_map, Option.map_eq_some_iff] at hx
    obtain ⟨x', hx, rfl⟩ := hx
    have := intervals_head _ 0 x' hx
    dsimp only
    omega
  · intro x hx
    rw [K.index, List.getLast?_map, Option.map_eq_some_iff] at hx
    obtain ⟨x', hx, rfl⟩ := hx
    have := intervals_last _ 0 x' hx
    rw [K.data, List.length_map, List.length_flatMap]
    dsimp only
    omega

/-- C06, when the type fitted to the number of triplets holds the number of items of every level: triplets/data holds the
item numbers, so that (without threshold, and when `KeptFirst`) the rows of by_index[i] are the triplets of the specification.  Missing: the
type is fitted to the number of triplets, not to the number of items, and the claim is false in general (`C06_violated`). -/
theorem C06_items_partial {e : Env} (he : e.Lawful) {a : Args ρ} (ha : a.OK) (hf : Spec'.KeptFirst a) {T : Task ρ} (h : init e a = .ok T)
    {N : Num} (hN : ArgsortLaw N.argsort) {src : List Val → List Val → Nat → Src} (hs : ∀ k k' j, (src k k' j).Lawful)
    {bl1 bl2 : Nat} (h1 : 0 < bl1) (h2 : 0 < bl2) {F : File} (hF : generate e N 0 src bl1 bl2 T = .ok (some F))
    (hfit : ∀ total t, nbTriplets e T = .ok total → fitIntegerType total = .ok t → ∀ L ∈ T.levels, ((itemsOf a L.key).length : Int) ≤ t.hi) :
    List.Forall₂ (fun key p => (npSlice F.data p.1.toNat p.2.toNat).Perm
        ((Spec.triplets a.cols a.on a.across a.filters (itemsOf a key)).map (fun t => ((t.1 : Int), (t.2.1 : Int), (t.2.2 : Int)))))
      F.bys F.byIndex := by
  obtain ⟨total, t, tb, outs, K⟩ := generate_ok h1 h2 hF
  have hfit := hfit total t K.total_ok K.t_ok
  have hsl : F.byIndex.map (fun p => npSlice F.data p.1.toNat p.2.toNat) = (kept outs).map (fun p => (levelTrips p).map (castTrip t)) := by
    rw [K.index, K.data]
    have := intervals_slices ((kept outs).map (fun p => (levelTrips p).map (castTrip t))) []
    simp only [List.length_nil, List.map_map, List.nil_append] at this
    rw [← this, List.map_map]
    have e1 : (kept outs).map (List.length ∘ fun p => (levelTrips p).map (castTrip t)) = (kept outs).map (fun p => (levelTrips p).length) := by
      apply List.map_congr_left; intro p _; simp
    rw [e1]
    apply List.map_congr_left
    intro p _
    simp only [Function.comp, Int.toNat_natCast]
    congr 1
    rw [List.flatMap_def, List.map_flatten, List.map_map]
    rfl
  have hT : ∀ p ∈ kept outs, ((levelTrips p).map (castTrip t)).Perm
      ((Spec.triplets a.cols a.on a.across a.filters (itemsOf a p.1)).map (fun t => ((t.1 : Int), (t.2.1 : Int), (t.2.2 : Int)))) := by
    intro p hp
    obtain ⟨L, hL, hk, ho⟩ := forall₂_mem_right K.outs_ok p (List.mem_filter.mp hp).1
    have hp := C04_filters_partial he ha hf h hL hN hs ho
    rw [hk]
    refine (hp.map (castTrip t)).trans (List.Perm.of_eq ?_)
    apply List.map_congr_left
    intro x hx
    obtain ⟨⟨A, B, X⟩, hS, rfl⟩ := List.mem_map.mp hx
    obtain ⟨m1, m2, m3⟩ := mem_prod3.mp (show (A, B, X) ∈ prod3 _ _ _ from (List.mem_filter.mp hS).1)
    have hlt : ∀ z ∈ itemsOf a L.key, t.cast (z.1 : Int) = z.1 := by
      intro z hz
      have hz' : z.1 < (itemsOf a L.key).length := by
        unfold itemsOf Spec.items at hz ⊢
        obtain ⟨⟨r, i⟩, hi, rfl⟩ := List.mem_map.mp hz
        rw [List.length_map, List.length_zipIdx]
        have := List.mem_zipIdx hi
        dsimp only at this ⊢
        omega
      have hfam := C43_family _ _ _ K.t_ok
      have := hfit L hL
      refine C43_cast_lossless t _ ?_ ?_ (by omega)
      · have := hfam.1
        simp at this
        omega
      · unfold IntType.lo
        rw [hfam.2]
        have : (0 : Int) ≤ 2 ^ (t.bits - 1) := by positivity
        simp only [if_true]
        omega
    unfold castTrip
    rw [hlt A m1, hlt B m2, hlt X m3]
  have hlen : F.bys.length = F.byIndex.length := by
    rw [K.bys, K.index, List.length_map, List.length_map, intervals_length, List.length_map]
  rw [List.forall₂_iff_get]
  refine ⟨hlen, ?_⟩
  intro i hi1 hi2
  have hi : i < (kept outs).length := by rw [K.bys, List.length_map] at hi1; exact hi1
  have e1 := congrArg (·[i]?) hsl
  rw [List.getElem?_map, List.getElem?_map, List.getElem?_eq_getElem hi, List.getElem?_eq_getElem hi2, Option.map_some, Option.map_some, Option.some.injEq] at e1
  have e2 : F.bys.get ⟨i, hi1⟩ = (kept outs)[i].1 := by simp [K.bys]
  rw [e2, List.get_eq_getElem, e1]
  exact hT _ (List.getElem_mem hi)

/-- C07 without threshold, with exact arithmetic (at most 2^53 combinations) and boundaries that fit the type chosen for the dataset:
on_across_block_index holds, for each block written, the boundaries of the runs of triplets with the same regressors (in the
numbering of the block), followed by zeros.  Missing: with a threshold the boundaries are those before thresholding; the type is
fitted to the number of blocks (`C07_violated_threshold`, `C07_violated_type`). -/
theorem C07_blocks_partial {e : Env} (he : e.Lawful) {a : Args ρ} (ha : a.OK) (hf : Spec'.KeptFirst a) {T : Task ρ} (h : init e a = .ok T)
    {N : Num} (hN : ArgsortLaw N.argsort) (hE : N.Exact) {src : List Val → List Val → Nat → Src} (hs : ∀ k k' j, (src k k' j).Lawful)
    (hG : ∀ L ∈ T.levels, GroupFit 0 a.cols a.on a.across (allRegs e a) (tripsSpec a L.key))
    {bl1 bl2 : Nat} (h1 : 0 < bl1) (h2 : 0 < bl2) {F : File} (hF : generate e N 0 src bl1 bl2 T = .ok (some F))
    (hfit : ∀ nb tb, fitIntegerType nb = .ok tb → nb = ((T.levels.map (fun L => (groupKeys e "stats" (T.on :: T.across) L.frame).length)).sum : Nat) →
      ∀ L ∈ T.levels, ((tripsSpec a L.key).length : Int) < tb.hi) :
    ∃ (blocks : List (List Tri)) (zeros : List Int) (t : IntType),
      blocks.flatten.Perm (T.levels.flatMap (fun L => tripsSpec a L.key)) ∧
      (∀ b ∈ blocks, ∀ t ∈ b, ∀ u ∈ b, Spec.sameBlock a.on a.across t u = true) ∧
      F.data = blocks.flatten.map (fun x => castTrip t (x.1.1, x.2.1.1, x.2.2.1)) ∧ (∀ z ∈ zeros, z = 0) ∧
      F.blockIndex = (blocks.flatMap (fun b => (Spec.runBounds (Spec.sameGroup a.cols a.on a.across (allRegs e a)) b).map (fun n : Nat => (n : Int)))) ++ zeros := by
  obtain ⟨total, t, tb, outs, K⟩ := generate_ok h1 h2 hF
  have hfit := hfit _ tb K.tb_ok rfl
  have hb0 : ∀ n : Nat, (n : Int) < tb.hi → tb.cast (n : Int) = n := by
    intro n hn
    have hfam := C43_family _ _ _ K.tb_ok
    refine C43_cast_lossless tb _ ?_ ?_ hn
    · have := hfam.1
      simp at this
      omega
    · unfold IntType.lo
      rw [hfam.2]
      have : (0 : Int) ≤ 2 ^ (tb.bits - 1) := by positivity
      simp only [if_true]
      omega
  have key : ∀ (ls : List (Level ρ)) outs, (∀ L ∈ ls, L ∈ T.levels) →
      List.Forall₂ (fun L (p : List Val × List BlkOut) => p.1 = L.key ∧ levelOut e N 0 src T L = .ok p.2) ls outs →
      ∃ blocks : List (List Tri), blocks.flatten.Perm (ls.flatMap (fun L => tripsSpec a L.key)) ∧
      (∀ b ∈ blocks, ∀ t ∈ b, ∀ u ∈ b, Spec.sameBlock a.on a.across t u = true) ∧
      outs.flatMap levelTrips = blocks.flatten.map lab ∧
      (outs.flatMap (·.2)).flatMap (fun o => o.index.map (fun n : Nat => tb.cast n)) =
        blocks.flatMap (fun b => (Spec.runBounds (Spec.sameGroup a.cols a.on a.across (allRegs e a)) b).map (fun n : Nat => (n : Int))) := by
    intro ls outs hm hF
    induction hF with
    | nil => exact ⟨[], by simp⟩
    | @cons L p ls outs hp _ ih =>
      obtain ⟨blocks, i1, i2, i3, i4⟩ := ih (fun L' h' => hm L' (by simp [h']))
      have hL := hm L (by simp)
      obtain ⟨S, M, parts, hS, hparts⟩ := level_main he ha h hL (positional he ha hf h hL) hN hs hp.2
      have hperm := M.perm rfl
      refine ⟨parts ++ blocks, ?_, ?_, ?_, ?_⟩
      · rw [List.flatten_append, List.flatMap_cons, hS]
        exact hperm.append i1
      · intro b hb
        rcases List.mem_append.mp hb with hb | hb
        · obtain ⟨o, _, ho⟩ := forall₂_mem_right hparts b hb
          exact ho.2.1
        · exact i2 b hb
      · rw [List.flatMap_cons, i3, List.flatten_append, List.map_append, hS]
        congr 1
        exact M.trips
      · rw [List.flatMap_cons, List.flatMap_append, i4, List.flatMap_append]
        congr 1
        have hle : ∀ b ∈ parts, b.length ≤ (tripsSpec a L.key).length := by
          intro b hb
          rw [← hperm.length_eq, ← hS]
          obtain ⟨s, u, rfl⟩ := List.append_of_mem hb
          simp; omega
        have hlt := hfit L hL
        clear hS hperm M i1 i2 i3 i4
        revert hle
        generalize p.2 = os at hparts
        induction hparts with
        | nil => intro _; rfl
        | @cons o b os parts ho _ ih' =>
          intro hle
          rw [List.flatMap_cons, List.flatMap_cons, ih' (fun b hb => hle b (by simp [hb])), ho.2.2 rfl hE (hG L hL)]
          congr 1
          apply List.map_congr_left
          intro n hn
          have : n ≤ b.length := by
            unfold Spec.runBounds at hn
            have := List.mem_range.mp (List.mem_filter.mp hn).1
            omega
          have := hle b (by simp)
          exact hb0 n (by omega)
  obtain ⟨blocks, i1, i2, i3, i4⟩ := key _ _ (fun _ h => h) K.outs_ok
  refine ⟨blocks, _, t, i1, i2, ?_, ?_, by rw [K.blocks, i4]⟩
  · rw [K.data, kept_flatMap, i3, List.map_map]
    rfl
  · intro z hz
    exact (List.mem_replicate.mp hz).2

/-- C08, with exact arithmetic (at most 2^53 combinations of regressors) and blocks no larger than the range of the type fitted to the number
of combinations (`GroupFit`): the triplets written are distinct triplets of the level, and of each group (same block and same
regressors of B and X) min(threshold, n) of the n triplets available are written.  Missing: larger blocks, for which the
claim is false (`C08_violated`). -/
theorem C08_threshold_partial {e : Env} (he : e.Lawful) {a : Args ρ} (ha : a.OK) (hf : Spec'.KeptFirst a) {T : Task ρ} (h : init e a = .ok T)
    {L : Level ρ} (hL : L ∈ T.levels) {N : Num} (hN : ArgsortLaw N.argsort) (hE : N.Exact)
    {threshold : Nat} (ht : 0 < threshold) {src : List Val → List Val → Nat → Src} (hs : ∀ k k' j, (src k k' j).Lawful)
    (hG : GroupFit threshold a.cols a.on a.across (allRegs e a) (tripsSpec a L.key))
    {os : List BlkOut} (ho : levelOut e N threshold src T L = .ok os) :
    ∃ S : List Tri, os.flatMap BlkOut.trips = S.map (fun t => (t.1.1, t.2.1.1, t.2.2.1)) ∧
      (os.flatMap BlkOut.trips).Nodup ∧ (∀ t ∈ S, t ∈ tripsSpec a L.key) ∧
      ∀ t ∈ tripsSpec a L.key, (S.filter (Spec.sameGroup a.cols a.on a.across (allRegs e a) t)).length =
        min threshold ((tripsSpec a L.key).filter (Spec.sameGroup a.cols a.on a.across (allRegs e a) t)).length := by
  obtain ⟨S, M, -⟩ := level_main he ha h hL (positional he ha hf h hL) hN hs ho
  refine ⟨S, M.trips, ?_, M.sub, ?_⟩
  · rw [M.trips]
    exact (List.nodup_map_iff_inj_on (M.nodup hE hG)).mpr (fun x hx y hy hxy => tripsSpec_lab (M.sub x hx) (M.sub y hy) hxy)
  · intro t htt
    rw [M.count hE hG t htt, keepCount, if_neg (by omega)]

/-- C09, one block: sorting the triplets `S` of a block by regressors `K` without threshold succeeds and is a permutation, whatever
the permutation returned by argsort; with exact arithmetic (at most 2^53 combinations) triplets with equal regressors are contiguous. -/
theorem C09_sort {N : Num} (hN : ArgsortLaw N.argsort) {src : Nat → Src} (S : List Tri) (K : List (Tri → Nat))
    (hprod : (K.map (fun k => (S.map k).foldl max 0 + 1)).prod ≤ 2 ^ 53) :
    ∃ (S' : List Tri) (p ix : List Nat), sortBlock N 0 src (S.map (fun t => (t.1.1, t.2.1.1, t.2.2.1))) (K.map (fun k => S.map k)) =
        .ok (S'.map (fun t => (t.1.1, t.2.1.1, t.2.2.1)), p, ix) ∧ S'.Perm S ∧
      (N.Exact → (∀ (i j l : Nat) (x y z : Tri), i ≤ j → j ≤ l → S'[i]? = some x → S'[j]? = some y → S'[l]? = some z →
        (∀ k ∈ K, k x = k z) → ∀ k ∈ K, k x = k y)) := by
  have hp : (nRegs (K.map (fun k => S.map k))).prod ≤ 2 ^ 53 := by
    unfold nRegs; rw [List.map_map]; exact hprod
  obtain ⟨trips, p, ix, hsort⟩ : ∃ trips p ix, sortBlock N 0 src (S.map lab) (K.map (fun k => S.map k)) = .ok (trips, p, ix) := by
    unfold sortBlock
    by_cases hr : (rowsOf (K.map (fun k => S.map k))).isEmpty = true
    · rw [if_pos hr]; exact ⟨_, _, _, rfl⟩
    · rw [if_neg hr]
      have hK : ¬ (K = [] ∨ S = []) := fun h => hr ((rowsOf_isEmpty K S).mpr h)
      rw [not_or] at hK
      split
      · rename_i er hz
        exact absurd hp (fit_err hz)
      rename_i t ht
      clear ht
      dsimp only
      rw [rowsOf_map K S hK.1]
      obtain ⟨s, e1, e2⟩ := sortAndThreshold_zero hN ((S.map (fun t => K.map (fun k => k t))).map (N.index (nRegs (K.map (fun k => S.map k))))) t src
      rw [e2]
      dsimp only
      obtain ⟨r, hr, -⟩ := gather_perm (S.map lab) (N.argsort ((S.map (fun t => K.map (fun k => k t))).map (N.index (nRegs (K.map (fun k => S.map k)))))) (by
        have := hN.perm ((S.map (fun t => K.map (fun k => k t))).map (N.index (nRegs (K.map (fun k => S.map k)))))
        simpa using this)
      rw [hr]
      exact ⟨_, _, _, rfl⟩
  obtain ⟨S', h1, h2, h3⟩ := sortBlock_zero hN hsort
  refine ⟨S', p, ix, by rw [← show S'.map lab = S'.map (fun t : Tri => (t.1.1, t.2.1.1, t.2.2.1)) from rfl, ← h2]; exact hsort, h1, ?_⟩
  intro hE
  have hcont : Contig (S'.map (keyRow K)) := by
    rcases h3 with ⟨h3 | h3, -, rfl⟩ | ⟨-, -, hs⟩
    · subst h3
      intro i j k x y _ _ hi hj _
      rw [List.getElem?_map, Option.map_eq_some_iff] at hi hj
      obtain ⟨_, _, rfl⟩ := hi
      obtain ⟨_, _, rfl⟩ := hj
      rfl
    · subst h3
      intro i j k x y _ _ hi
      simp at hi
    · exact contig_of_sorted hs (fun t ht u hu => index_inj hE K hp (h1.mem_iff.mp ht) (h1.mem_iff.mp hu)) (fun t u h => by rw [h])
  intro i j l x y z hij hjl hx hy hz hxz
  have hk : keyRow K x = keyRow K z := List.map_congr_left hxz
  have := hcont i j l (keyRow K x) (keyRow K y) hij hjl (by rw [List.getElem?_map, hx]; rfl) (by rw [List.getElem?_map, hy]; rfl)
    (by rw [List.getElem?_map, hz, hk]; rfl)
  intro k hk
  exact (List.map_inj_left.mp this k hk).symm

/-- C09, a level: without threshold the triplets written are those of the level, and triplets of the same group are contiguous. -/
theorem C09_level {e : Env} (he : e.Lawful) {a : Args ρ} (ha : a.OK) (hf : Spec'.KeptFirst a) {T : Task ρ} (h : init e a = .ok T)
    {L : Level ρ} (hL : L ∈ T.levels) {N : Num} (hN : ArgsortLaw N.argsort) {src : List Val → List Val → Nat → Src} (hs : ∀ k k' j, (src k k' j).Lawful)
    {os : List BlkOut} (ho : levelOut e N 0 src T L = .ok os) :
    ∃ S : List Tri, os.flatMap BlkOut.trips = S.map (fun t => (t.1.1, t.2.1.1, t.2.2.1)) ∧ S.Perm (tripsSpec a L.key) ∧
      (N.Exact → GroupFit 0 a.cols a.on a.across (allRegs e a) (tripsSpec a L.key) →
        ∀ (i j k : Nat) (x y z : Tri), i ≤ j → j ≤ k → S[i]? = some x → S[j]? = some y → S[k]? = some z →
          Spec.sameGroup a.cols a.on a.across (allRegs e a) x z = true → Spec.sameGroup a.cols a.on a.across (allRegs e a) x y = true) := by
  obtain ⟨S, M, -⟩ := level_main he ha h hL (positional he ha hf h hL) hN hs ho
  exact ⟨S, M.trips, M.perm rfl, M.together⟩

/-- C10, when no regressor of the user reads a column of A that is not determined by 'by' or 'on' (or there are filters on triplets, and the
'on' column is not determined by 'by'): the columns of the regressor datasets are the regressors, and row i of each column is the value
of the regressor for the i-th triplet written, for every filter, sort and threshold.  Missing: regressors of A, for which the
claim is false (`C10_violated`), and filters on bare columns that remove other items than the last ones. -/
theorem C10_aligned_partial {e : Env} (he : e.Lawful) {a : Args ρ} (ha : a.OK) (hf : Spec'.KeptFirst a) {T : Task ρ} (h : init e a = .ok T)
    {L : Level ρ} (hL : L ∈ T.levels) {N : Num} (hN : ArgsortLaw N.argsort) {threshold : Nat} {src : List Val → List Val → Nat → Src} (hs : ∀ k k' j, (src k k' j).Lawful)
    (hA : (∀ f ∈ a.regressors, Spec.readsA a.cols f = false) ∨ (T.filters.ops .ABX ≠ [] ∧ a.on ∈ a.cols.on ∧ a.on ∉ a.cols.by_))
    {os : List BlkOut} (ho : levelOut e N threshold src T L = .ok os) (hne : os ≠ []) :
    ∃ (S : List Tri) (rs : List (DBFun Nat)), os.flatMap BlkOut.trips = S.map (fun t => (t.1.1, t.2.1.1, t.2.2.1)) ∧
      (∀ t ∈ S, t ∈ tripsSpec a L.key) ∧ rs.Perm (allRegs e a) ∧
      (os.map BlkOut.regs).foldl appendCols [] = rs.map (fun f => S.map (Spec.regValue a.cols f)) := by
  obtain ⟨S, M, -⟩ := level_main he ha h hL (positional he ha hf h hL) hN hs ho
  obtain ⟨fr0, I⟩ := init_level he ha h hL
  have hreg := I.reg.mgr
  rw [I.cols] at hreg
  refine ⟨S, colRegs T.regressors, M.trips, M.sub, colRegs_perm hreg (levelOut_abx ho hne), M.regs ?_ hne⟩
  rcases hA with hA | ⟨h1, h2, h3⟩
  · left
    apply regA_nil hreg
    intro f hf
    rcases List.mem_append.mp hf with hf | hf
    · exact hA f hf
    · exact defaultRegs_readsA f hf
  · right
    refine ⟨h1, ?_⟩
    have := on2_stage (e := e) hreg (a := a) h2 h3
    intro hnil
    rw [List.append_eq_nil_iff] at hnil
    exact this hnil.1

/-- C11 when filters on bare columns, if any, remove the last items of the levels: the block of every key that occurs in a level has a row, whose 'on', 'across' and 'by' values are those of all
the items of the block.  Missing: other filters on bare columns, for which the claim is false (`C11_violated`). -/
theorem C11_labels_partial {e : Env} (he : e.Lawful) {a : Args ρ} (ha : a.OK) (hf : Spec'.KeptFirst a) {T : Task ρ} (h : init e a = .ok T)
    {L : Level ρ} (hL : L ∈ T.levels) {key : List Val} (hk : ∃ p ∈ L.frame, keyOf (T.on :: T.across) p.2 = key) :
    ∃ block row, blockRow T L key = .ok (block, row) ∧ block ≠ [] ∧ (∀ i ∈ block, ∃ A ∈ itemsOf a L.key, A.1 = i) ∧
      ∀ A ∈ itemsOf a L.key, A.1 ∈ block →
        row a.on = A.2 a.on ∧ (∀ c ∈ a.across, row c = A.2 c) ∧ ∀ c ∈ a.by_, row c = A.2 c := by
  obtain ⟨fr0, I⟩ := init_level he ha h hL
  obtain ⟨d1, d2, d3, d4⟩ := checkDatabase_ok (init_ok h).1
  have hpos := positional he ha hf h hL
  obtain ⟨p, hp, hrow⟩ := blockRow_ok hpos hk
  have hfr : ∀ q ∈ L.frame, q ∈ fr0 := by
    intro q hq
    rw [I.hyp.frame] at hq
    exact (List.mem_filter.mp hq).1
  have hap : ∀ q ∈ aItems T.on T.across L.frame key, q ∈ L.frame ∧ keyOf (T.on :: T.across) q.2 = key := by
    intro q hq
    obtain ⟨g1, g2⟩ := List.mem_filter.mp hq
    exact ⟨g1, by simpa using g2⟩
  refine ⟨_, _, hrow, ?_, ?_, ?_⟩
  · intro hnil
    rw [List.map_eq_nil_iff] at hnil
    rw [hnil] at hp
    simp at hp
  · intro i hi
    obtain ⟨q, hq, rfl⟩ := List.mem_map.mp hi
    obtain ⟨A, hA, hs⟩ := forall₂_mem_left I.sim q (hfr q (hap q hq).1)
    exact ⟨A, hA, hs.1.symm⟩
  · intro A hA hAb
    obtain ⟨q, hq, hqA⟩ := List.mem_map.mp hAb
    obtain ⟨A', hA', hs⟩ := forall₂_mem_left I.sim q (hfr q (hap q hq).1)
    have : A' = A := (items_distinct a L.key).inj hA' hA (by rw [← hs.1, hqA])
    subst this
    have hkey : keyOf (T.on :: T.across) p.2 = keyOf (T.on :: T.across) q.2 := by rw [(hap p hp).2, (hap q hq).2]
    unfold keyOf at hkey
    rw [List.map_inj_left] at hkey
    have hTa : ∀ c ∈ a.across, c ∈ T.across := by
      intro c hc
      rw [← I.across] at hc
      unfold userAcross at hc
      split at hc
      · simp at hc
      · exact hc
    refine ⟨?_, ?_, ?_⟩
    · rw [← hs.2 _ d1, ← I.on]
      exact hkey _ (by simp)
    · intro c hc
      rw [← hs.2 _ (d2 c hc)]
      exact hkey c (by simp [hTa c hc])
    · intro c hc
      obtain ⟨A2, hA2, hs2⟩ := forall₂_mem_left I.sim p (hfr p (hap p hp).1)
      rw [hs2.2 _ (d3 c hc)]
      have mem_by : ∀ A ∈ itemsOf a L.key, a.by_.map A.2 = specKey a L.key := by
        intro A hA
        unfold itemsOf Spec.items at hA
        obtain ⟨⟨r, i⟩, hi, rfl⟩ := List.mem_map.mp hA
        have := (List.mem_zipIdx hi).2.2
        rw [show r = _ from this]
        have := (List.mem_filter.mp (List.getElem_mem (l := (a.db.map (·.2)).filter (fun r => a.by_.map r == specKey a L.key)) (n := i - 0) (by have := (List.mem_zipIdx hi).2.1; omega))).2
        simpa using this
      have := (mem_by A2 hA2).trans (mem_by A' hA').symm
      exact (List.map_inj_left.mp this) c hc

/-- C15 when the index labels of the table are its positions (no row with missing values was dropped): feature records stay attached to rows,
that is item i of a level, with its record, is the i-th row of the level in the item file, with its own record.  Missing: tables with dropped
rows, for which the claim is false (`C15_violated`). -/
theorem C15_features_partial {e : Env} (he : e.Lawful) {a : Args ρ} (ha : a.OK) {T : Task ρ} (h : init e a = .ok T) {L : Level ρ} (hL : L ∈ T.levels)
    (hp : ∀ (i : Nat) (p : Nat × Row), a.db[i]? = some p → p.1 = i) (hlen : a.feat.length = a.db.length) :
    ((itemsOf a L.key).map (·.2)).zip L.feat = ((a.db.map (·.2)).zip a.feat).filter (fun p => a.by_.map p.1 == specKey a L.key) ∧
    L.feat.length = (itemsOf a L.key).length := by
  obtain ⟨fr0, I⟩ := init_level he ha h hL
  refine ⟨feat_ok (init_ok h).1 I.keyMem hp hlen I.feat, ?_⟩
  have h1 := gather_length I.feat
  have h2 := I.sim.length_eq
  rw [h1, List.length_map]
  rw [I.group] at h2
  unfold resetIndex at h2
  unfold itemsOf
  simpa using h2

#print axioms C01_legal
#print axioms C02_exactly_once
#print axioms C02_levels
#print axioms C03_level
#print axioms C03_total
#print axioms C03_block
#print axioms C03_spec
#print axioms C04_filters_partial
#print axioms C04_levels
#print axioms C05_partition
#print axioms C06_items_partial
#print axioms C07_blocks_partial
#print axioms C08_threshold_partial
#print axioms C09_sort
#print axioms C09_level
#print axioms C10_aligned_partial
#print axioms C11_labels_partial
#print axioms C15_features_partial

end ABX.Task
