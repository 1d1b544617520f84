import Verif.Properties.Analyze
import Verif.Properties.EndToEnd
import Verif.Properties.TaskWitness
/-!
Property C20 for whole files, and for the files written by `generate`; counterexamples and examples for C19, C20, C21.
-/
namespace ABX.Analyze
open ExtSort ABX.Task SideOps F64 Sampler ABX.Pairs

/-- level number `j` of a file, with key `key` and rows `R` of indices, can be analyzed -/
structure Spec.LevelOK (indexes : List (List Val)) (F : File) (scores : List Int) (j : Nat) (key : List Val) (R : List (List Nat)) : Prop where
  interval : ∃ a b : Nat, F.byIndex[j]? = some ((a : Int), (b : Int)) ∧ b ≤ scores.length ∧ a + R.length = b
  table : ∃ cols, F.regs.lookup key = some cols ∧ Spec.Table cols R ∧ indexes.length = cols.length ∧ Spec.combinations cols ≤ 2 ^ 53
  range : ∀ r ∈ R, ∀ (i : Nat) (ix : List Val) (x : Nat), indexes[i]? = some ix → r[i]? = some x → x < ix.length

theorem indexedBits_ok {indexes : List (List Val)} {dt : Nat} (h : indexedBits indexes = .ok dt) : 1 ≤ dt ∧ ∀ ix ∈ indexes, ix.length < 2 ^ dt := by
  unfold indexedBits at h
  split at h
  · cases h
  rename_i t ht
  injection h with h
  subst h
  obtain ⟨h1, h2⟩ := C43_family _ _ _ ht
  have hb : 1 ≤ t.bits := by simp at h1; omega
  refine ⟨hb, ?_⟩
  intro ix hix
  have h3 := C43_holds _ _ _ ht (((indexes.map List.length).foldl max 0 : Nat) : Int) (by omega) (le_refl _)
  have h4 := (foldl_max_le (indexes.map List.length) 0).2 ix.length (List.mem_map_of_mem hix)
  have h5 : (((indexes.map List.length).foldl max 0 : Nat) : Int) < t.hi := by
    by_contra hge
    exact C43_cast_lossy t _ (by omega) (fun hh => hge hh.2) h3
  unfold IntType.hi at h5
  rw [h2, if_neg (by decide)] at h5
  have : (indexes.map List.length).foldl max 0 < 2 ^ t.bits := by exact_mod_cast h5
  omega

/-- C20, a file: the rows of the csv file are those of the levels, in the order of the levels, each as in `C20_rows_partial`. -/
theorem C20_file_partial {argsort : List Int → List Nat} (hs : ArgsortLaw argsort) {indexes : List (List Val)} {dt : Nat} (hdt : indexedBits indexes = .ok dt) {F : File} {scores : List Int}
    (R : Nat → List (List Nat)) (hF : ∀ j key, F.bys[j]? = some key → Spec.LevelOK indexes F scores j key (R j)) :
    ∃ outs : List (List OutRow), collapse argsort indexes F scores = .ok outs.flatten ∧ outs.length = F.bys.length ∧
      ∀ j key (a b : Int), F.bys[j]? = some key → F.byIndex[j]? = some (a, b) →
        ∃ out rows, outs[j]? = some out ∧ Spec.Collapsed indexes key (R j) (npSlice scores a.toNat b.toNat) rows out := by
  obtain ⟨hd1, hd2⟩ := indexedBits_ok hdt
  have key : ∀ (bys : List (List Val)) (n : Nat), (∀ j key, bys[j]? = some key → Spec.LevelOK indexes F scores (n + j) key (R (n + j))) →
      ∃ outs, collapseLoop argsort dt indexes F scores (bys.zipIdx n) = .ok outs ∧ outs.length = bys.length ∧
        ∀ j key (a b : Int), bys[j]? = some key → F.byIndex[n + j]? = some (a, b) →
          ∃ out rows, outs[j]? = some out ∧ Spec.Collapsed indexes key (R (n + j)) (npSlice scores a.toNat b.toNat) rows out := by
    intro bys
    induction bys with
    | nil => intro n _; exact ⟨[], rfl, rfl, fun j key a b h => by simp at h⟩
    | cons k bys ih =>
      intro n hok
      obtain ⟨outs, o1, o2, o3⟩ := ih (n + 1) (fun j key hj => by
        have := hok (j + 1) key (by simpa using hj)
        rw [show n + (j + 1) = n + 1 + j by omega] at this
        exact this)
      have h0 := hok 0 k (by simp)
      rw [Nat.add_zero] at h0
      obtain ⟨a, b, i1, i2, i3⟩ := h0.interval
      obtain ⟨cols, t1, t2, t3, t4⟩ := h0.table
      have hx : ∀ r ∈ R n, ∀ x ∈ r, x + 1 < 2 ^ dt := by
        intro r hr x hxr
        obtain ⟨i, hi⟩ := List.getElem?_of_mem hxr
        have hil : i < indexes.length := by rw [t3, ← t2.width r hr]; exact (List.getElem?_eq_some_iff.mp hi).1
        have := h0.range r hr i _ x (List.getElem?_eq_getElem hil) hi
        have := hd2 _ (List.getElem_mem hil)
        omega
      obtain ⟨rows, out, c1, c2⟩ := C20_rows_partial hs t2 hd1 hx t4 (S := npSlice scores a b) (by simp [npSlice]; omega) t3 h0.range k
      refine ⟨out :: outs, ?_, by simp [o2], ?_⟩
      · rw [List.zipIdx_cons, collapseLoop]
        simp only [i1, t1]
        have : npSlice scores ((a : Int)).toNat ((b : Int)).toNat = npSlice scores a b := rfl
        rw [this, c1]
        dsimp only
        rw [o1]
      · intro j key a' b' hj hiv
        cases j with
        | zero =>
          simp at hj
          subst hj
          rw [Nat.add_zero] at hiv
          rw [i1] at hiv
          cases hiv
          exact ⟨out, rows, rfl, c2⟩
        | succ j =>
          rw [List.getElem?_cons_succ] at hj
          rw [show n + (j + 1) = n + 1 + j by omega] at hiv ⊢
          exact o3 j key a' b' hj hiv
  obtain ⟨outs, o1, o2, o3⟩ := key F.bys 0 (fun j key hj => by rw [Nat.zero_add]; exact hF j key hj)
  refine ⟨outs, ?_, o2, ?_⟩
  · unfold collapse
    rw [hdt]
    dsimp only
    rw [o1]
  · intro j key a b hj hiv
    have := o3 j key a b hj (by rw [Nat.zero_add]; exact hiv)
    rwa [Nat.zero_add] at this

/-- the columns of the level `L`, with their regressors in the order of the datasets -/
theorem aligned {e : Env} (he : e.Lawful) {a : Args ρ} (ha : a.OK) (hf : Spec'.KeptFirst a) {T : Task.Task ρ} (h : init e a = .ok T)
    {L : Level ρ} (hL : L ∈ T.levels) {N : Num} (hN : ArgsortLaw N.argsort) {threshold : Nat} {src : List Val → List Val → Nat → Src} (hs : ∀ k k' j, (src k k' j).Lawful)
    (hA : (∀ f ∈ a.regressors, Spec.readsA a.cols f = false) ∨ (T.filters.ops .ABX ≠ [] ∧ a.on ∈ a.cols.on ∧ a.on ∉ a.cols.by_))
    {os : List BlkOut} (ho : levelOut e N threshold src T L = .ok os) (hne : os ≠ []) :
    ∃ S : List Tri, os.flatMap BlkOut.trips = S.map (fun t => (t.1.1, t.2.1.1, t.2.2.1)) ∧ ((∀ t ∈ S, t ∈ tripsSpec a L.key) ∧ (threshold = 0 → S.Perm (tripsSpec a L.key)) ∧ Sampled e N threshold a L.key S) ∧ (colRegs T.regressors).Perm (allRegs e a) ∧
      (os.map BlkOut.regs).foldl appendCols [] = (colRegs T.regressors).map (fun f => S.map (Spec.regValue a.cols f)) := by
  obtain ⟨S, M, -⟩ := level_main he ha h hL (positional he ha hf h hL) hN hs ho
  obtain ⟨fr0, I⟩ := init_level he ha h hL
  have hreg := I.reg.mgr
  rw [I.cols] at hreg
  refine ⟨S, M.trips, ⟨M.sub, M.perm, ⟨fun hE hG => ⟨M.nodup hE hG, M.count hE hG⟩, M.cut⟩⟩, colRegs_perm hreg (levelOut_abx ho hne), M.regs ?_ hne⟩
  rcases hA with hA | ⟨h1, h2, h3⟩
  · left
    apply regA_nil hreg
    intro f hf
    rcases List.mem_append.mp hf with hf | hf
    · exact hA f hf
    · exact defaultRegs_readsA f hf
  · right
    refine ⟨h1, ?_⟩
    have := on2_stage (e := e) hreg (a := a) h2 h3
    intro hnil
    rw [List.append_eq_nil_iff] at hnil
    exact this hnil.1

theorem table_map {K : List (Tri → Nat)} (hK : K ≠ []) (S : List Tri) : Spec.Table (K.map (fun k => S.map k)) (S.map (fun t => K.map (fun k => k t))) where
  ne := by simpa using hK
  width := by intro r hr; obtain ⟨t, _, rfl⟩ := List.mem_map.mp hr; simp
  height := by intro c hc; obtain ⟨k, _, rfl⟩ := List.mem_map.mp hc; simp
  cell := by
    intro i j c r hc hr
    rw [List.getElem?_map, Option.map_eq_some_iff] at hc hr
    obtain ⟨k, hk, rfl⟩ := hc
    obtain ⟨t, ht, rfl⟩ := hr
    rw [List.getElem?_map, List.getElem?_map, ht, hk]
    rfl

theorem combinations_le (K : List (Tri → Nat)) (S : List Tri) (n : (Tri → Nat) → Nat) (hn : ∀ k ∈ K, 0 < n k ∧ ∀ t ∈ S, k t < n k) :
    Spec.combinations (K.map (fun k => S.map k)) ≤ (K.map n).prod := by
  unfold Spec.combinations
  rw [List.map_map]
  induction K with
  | nil => simp
  | cons k K ih =>
    rw [List.map_cons, List.map_cons, List.prod_cons, List.prod_cons]
    apply Nat.mul_le_mul
    · obtain ⟨h1, h2⟩ := hn k (by simp)
      have key : ∀ (l : List Nat) (m : Nat), m < n k → (∀ x ∈ l, x < n k) → l.foldl max m + 1 ≤ n k := by
        intro l
        induction l with
        | nil => intro m hm _; exact hm
        | cons x l ihl =>
          intro m hm hl
          rw [List.foldl_cons]
          apply ihl
          · have := hl x (by simp); omega
          · intro y hy; exact hl y (by simp [hy])
      apply key _ 0 h1
      intro x hx
      obtain ⟨t, ht, rfl⟩ := List.mem_map.mp hx
      exact h2 t ht
    · exact ih (fun k hk => hn k (by simp [hk]))

/-- `Q` are the triplets that `_compute_triplets` writes for the level `key` -/
def Written (e : Env) (N : Num) (threshold : Nat) (src : List Val → List Val → Nat → Src) (T : Task.Task ρ) (key : List Val) (Q : List Tri) : Prop :=
  ∃ L ∈ T.levels, L.key = key ∧ ∃ os, levelOut e N threshold src T L = .ok os ∧ os.flatMap BlkOut.trips = Q.map (fun t => (t.1.1, t.2.1.1, t.2.2.1))

/-- the levels of a task: their rows, scores and columns -/
theorem task_levels {e : Env} (he : e.Lawful) {a : Args ρ} (ha : a.OK) (hf : Spec'.KeptFirst a) {T : Task.Task ρ} (h : init e a = .ok T)
    {N : Num} (hN : ArgsortLaw N.argsort) {threshold : Nat} {src : List Val → List Val → Nat → Src} (hsrc : ∀ k k' j, (src k k' j).Lawful)
    (hA : (∀ f ∈ a.regressors, Spec.readsA a.cols f = false) ∨ (T.filters.ops .ABX ≠ [] ∧ a.on ∈ a.cols.on ∧ a.on ∉ a.cols.by_))
    {bl1 bl2 : Nat} (h1 : 0 < bl1) (h2 : 0 < bl2) {F : File} (hF : generate e N threshold src bl1 bl2 T = .ok (some F)) (hbne : F.bys ≠ []) {idx : DBFun Nat → List Val}
    (hidx : ∀ f ∈ allRegs e a, 0 < (idx f).length ∧ ∀ L ∈ T.levels, ∀ t ∈ tripsSpec a L.key, Spec.regValue a.cols f t < (idx f).length)
    (hc : ((allRegs e a).map (fun f => (idx f).length)).prod ≤ 2 ^ 53) {dt : Nat} (hdt : indexedBits ((colRegs T.regressors).map idx) = .ok dt)
    {scores : List Int} (hlen : scores.length = F.data.length) {argsort : List Int → List Nat} (hs : ArgsortLaw argsort) :
    ∃ (rs : List (DBFun Nat)) (S : Nat → List Tri) (outs : List (List OutRow)), rs = colRegs T.regressors ∧ rs.Perm (allRegs e a) ∧ collapse argsort (rs.map idx) F scores = .ok outs.flatten ∧ outs.length = F.bys.length ∧
      ∀ j key (x y : Int), F.bys[j]? = some key → F.byIndex[j]? = some (x, y) → (∀ t ∈ S j, t ∈ tripsSpec a key) ∧ (threshold = 0 → (S j).Perm (tripsSpec a key)) ∧
        Sampled e N threshold a key (S j) ∧
        (∃ total t, nbTriplets e T = .ok total ∧ fitIntegerType total = .ok t ∧ npSlice F.data x.toNat y.toNat = (S j).map (fun u => castTrip t (u.1.1, u.2.1.1, u.2.2.1))) ∧
        (∃ out rows, outs[j]? = some out ∧ Spec.Collapsed (rs.map idx) key ((S j).map (fun t => rs.map (fun f => Spec.regValue a.cols f t))) (npSlice scores x.toNat y.toNat) rows out) ∧
        (∃ x' y' : Nat, x = x' ∧ y = y' ∧ x' + (S j).length = y' ∧ y' ≤ scores.length) ∧ F.regs.lookup key = some (rs.map (fun f => (S j).map (Spec.regValue a.cols f))) ∧
        Written e N threshold src T key (S j) := by
  obtain ⟨total, t, tb, bouts, K⟩ := generate_ok h1 h2 hF
  have hkl := K.kept_levels (init_keys_nodup he ha h)
  have hkeys : bouts.map (·.1) = T.levels.map (·.key) := forall₂_keys (Q := fun L os => levelOut e N threshold src T L = .ok os) K.outs_ok
  have hlev : ∀ (j : Nat) (p : List Val × List BlkOut), (kept bouts)[j]? = some p → ∃ L ∈ T.levels, p.1 = L.key ∧ levelOut e N threshold src T L = .ok p.2 ∧ p.2 ≠ [] := by
    intro j p hp
    have hm := List.mem_of_getElem? hp
    obtain ⟨hm1, hm2⟩ := List.mem_filter.mp hm
    obtain ⟨i, hi⟩ := List.getElem?_of_mem hm1
    have hfl := K.outs_ok
    rw [List.forall₂_iff_get] at hfl
    have hil := (List.getElem?_eq_some_iff.mp hi).1
    have := hfl.2 i (by rw [hfl.1]; exact hil) hil
    have hpe : bouts.get ⟨i, hil⟩ = p := by
      rw [List.getElem?_eq_getElem hil] at hi
      exact Option.some.inj hi
    rw [hpe] at this
    refine ⟨_, List.get_mem _ _, this.1, this.2, ?_⟩
    intro h0
    unfold levelTrips at hm2
    rw [h0] at hm2
    simp at hm2
  have hS : ∀ (j : Nat), ∃ S : List Tri, ∀ p, (kept bouts)[j]? = some p → levelTrips p = S.map (fun t => (t.1.1, t.2.1.1, t.2.2.1)) ∧ ((∀ t ∈ S, t ∈ tripsSpec a p.1) ∧ (threshold = 0 → S.Perm (tripsSpec a p.1)) ∧
      Sampled e N threshold a p.1 S) ∧
      (colRegs T.regressors).Perm (allRegs e a) ∧ (p.2.map BlkOut.regs).foldl appendCols [] = (colRegs T.regressors).map (fun f => S.map (Spec.regValue a.cols f)) := by
    intro j
    cases hp : (kept bouts)[j]? with
    | none => exact ⟨[], fun p hp => by cases hp⟩
    | some p =>
      obtain ⟨L, hL, k1, k2, k3⟩ := hlev j p hp
      obtain ⟨S, s1, s2, s3, s4⟩ := aligned he ha hf h hL hN hsrc hA k2 k3
      refine ⟨S, fun p' hp' => ?_⟩
      cases hp'
      exact ⟨s1, by rw [k1]; exact s2, s3, s4⟩
  choose S hS using hS
  have hne : ∃ p, (kept bouts)[0]? = some p := by
    cases hk : (kept bouts)[0]? with
    | some p => exact ⟨p, rfl⟩
    | none =>
      exfalso
      have : kept bouts = [] := by simpa using hk
      exact hbne (by rw [K.bys, this]; rfl)
  obtain ⟨p0, hp0⟩ := hne
  have hperm := (hS 0 p0 hp0).2.2.1
  have hregne : colRegs T.regressors ≠ [] := by
    intro h0
    rw [h0] at hperm
    have := hperm.symm.eq_nil
    unfold allRegs at this
    simp [defaultRegs] at this
  have hbys : ∀ (j : Nat) (key : List Val), F.bys[j]? = some key → ∃ p, (kept bouts)[j]? = some p ∧ p.1 = key := by
    intro j key hj
    rw [K.bys, List.getElem?_map, Option.map_eq_some_iff] at hj
    exact hj
  have hiv : ∀ (j : Nat) (p : List Val × List BlkOut), (kept bouts)[j]? = some p → ∃ x y : Nat, F.byIndex[j]? = some ((x : Int), (y : Int)) ∧ x + (S j).length = y ∧ y ≤ F.data.length ∧
      npSlice F.data x y = (levelTrips p).map (castTrip t) := by
    intro j p hp
    have hjl := (List.getElem?_eq_some_iff.mp hp).1
    have hil : j < (intervals 0 ((kept bouts).map (fun p => (levelTrips p).length))).length := by rw [intervals_length, List.length_map]; exact hjl
    obtain ⟨q, hq⟩ : ∃ q, (intervals 0 ((kept bouts).map (fun p => (levelTrips p).length)))[j]? = some q := ⟨_, List.getElem?_eq_getElem hil⟩
    have hb := Distances.intervals_bounds _ 0 q (List.mem_of_getElem? hq)
    have hsz := Distances.intervals_size ((kept bouts).map (fun p => (levelTrips p).length)) 0
    have hsz' : q.2 - q.1 = (levelTrips p).length := by
      have := congrArg (fun l => l[j]?) hsz
      simp only [List.getElem?_map, hq, hp, Option.map_some] at this
      exact Option.some.inj this
    have hd : F.data.length = ((kept bouts).map (fun p => (levelTrips p).length)).sum := by
      rw [K.data, List.length_map, List.length_flatMap]
    have hsl := intervals_slices ((kept bouts).map (fun p => (levelTrips p).map (castTrip t))) []
    simp only [List.length_nil, List.map_map, List.nil_append] at hsl
    have e1 : (kept bouts).map (List.length ∘ fun p => (levelTrips p).map (castTrip t)) = (kept bouts).map (fun p => (levelTrips p).length) := by
      apply List.map_congr_left; intro p _; simp
    rw [e1] at hsl
    have hsl' := congrArg (fun l => l[j]?) hsl
    simp only [List.getElem?_map, hq, hp, Option.map_some] at hsl'
    refine ⟨q.1, q.2, ?_, ?_, by omega, ?_⟩
    · rw [K.index, List.getElem?_map, hq]; rfl
    · have := congrArg List.length (hS j p hp).1
      rw [List.length_map] at this
      omega
    · have := Option.some.inj hsl'
      rw [← this, K.data, List.map_flatMap]
      rfl
  have hlook : ∀ j key p, (kept bouts)[j]? = some p → p.1 = key → F.regs.lookup key = some ((colRegs T.regressors).map (fun f => (S j).map (Spec.regValue a.cols f))) := by
    intro j key p hp hpk
    obtain ⟨s1, s2, s3, s4⟩ := hS j p hp
    rw [K.regs, ← hpk, ← s4]
    refine Score.lookup_of_nodup (l := bouts.map (fun p => (p.1, (p.2.map BlkOut.regs).foldl appendCols []))) (p := (p.1, (p.2.map BlkOut.regs).foldl appendCols [])) ?_ ?_
    · rw [List.map_map]
      have : bouts.map ((fun x : List Val × List (List Nat) => x.1) ∘ fun p => (p.1, (p.2.map BlkOut.regs).foldl appendCols [])) = T.levels.map (·.key) := hkeys
      rw [this]
      exact init_keys_nodup he ha h
    · exact List.mem_map.mpr ⟨p, (List.mem_filter.mp (List.mem_of_getElem? hp)).1, rfl⟩
  have hR : ∀ j key, F.bys[j]? = some key → Spec.LevelOK ((colRegs T.regressors).map idx) F scores j key ((S j).map (fun t => (colRegs T.regressors).map (fun f => Spec.regValue a.cols f t))) := by
    intro j key hj
    obtain ⟨p, hp, hpk⟩ := hbys j key hj
    obtain ⟨x, y, i1, i2, i3, -⟩ := hiv j p hp
    obtain ⟨s1, s2, s3, s4⟩ := hS j p hp
    obtain ⟨L, hL, k1, k2, k3⟩ := hlev j p hp
    have hval : ∀ f ∈ colRegs T.regressors, ∀ u ∈ S j, Spec.regValue a.cols f u < (idx f).length := by
      intro f hf u hu
      refine (hidx f (hperm.mem_iff.mp hf)).2 L hL u ?_
      rw [← k1]
      exact s2.1 u hu
    refine ⟨⟨x, y, i1, by omega, by rw [List.length_map]; omega⟩, ⟨(colRegs T.regressors).map (fun f => (S j).map (Spec.regValue a.cols f)), ?_, ?_, ?_, ?_⟩, ?_⟩
    · exact hlook j key p hp hpk
    · have := table_map (K := (colRegs T.regressors).map (Spec.regValue a.cols)) (by simpa using hregne) (S j)
      rw [List.map_map] at this
      simpa only [Function.comp_def, List.map_map] using this
    · simp
    · have := combinations_le ((colRegs T.regressors).map (Spec.regValue a.cols)) (S j)
      have hle : ∀ (l : List (DBFun Nat)), (∀ f ∈ l, f ∈ colRegs T.regressors) → Spec.combinations (l.map (fun f => (S j).map (Spec.regValue a.cols f))) ≤ (l.map (fun f => (idx f).length)).prod := by
        intro l
        induction l with
        | nil => intro _; simp [Spec.combinations]
        | cons f l ih =>
          intro hl
          have h1 := combinations_le [Spec.regValue a.cols f] (S j) (fun _ => (idx f).length) (by
            intro k hk
            simp at hk
            subst hk
            exact ⟨(hidx f (hperm.mem_iff.mp (hl f (by simp)))).1, hval f (hl f (by simp))⟩)
          have h2 := ih (fun g hg => hl g (by simp [hg]))
          unfold Spec.combinations at h1 h2 ⊢
          simp only [List.map_cons, List.map_nil, List.prod_cons, List.prod_nil, Nat.mul_one] at h1 h2 ⊢
          exact Nat.mul_le_mul h1 h2
      refine (hle _ (fun f hf => hf)).trans ?_
      rw [(hperm.map _).prod_eq]
      exact hc
    · intro r hr i ix v hix hv
      obtain ⟨u, hu, rfl⟩ := List.mem_map.mp hr
      rw [List.getElem?_map, Option.map_eq_some_iff] at hix hv
      obtain ⟨f, hf, rfl⟩ := hix
      obtain ⟨g, hg, rfl⟩ := hv
      rw [hf] at hg
      cases hg
      exact hval f (List.mem_of_getElem? hf) u hu
  obtain ⟨outs, o1, o2, o3⟩ := C20_file_partial hs hdt (fun j => (S j).map (fun t => (colRegs T.regressors).map (fun f => Spec.regValue a.cols f t))) hR
  refine ⟨colRegs T.regressors, S, outs, rfl, hperm, o1, o2, ?_⟩
  intro j key x y hj hxy
  obtain ⟨p, hp, hpk⟩ := hbys j key hj
  obtain ⟨x', y', i1, i2, i3, i4⟩ := hiv j p hp
  obtain ⟨s1, s2, s3, s4⟩ := hS j p hp
  rw [i1] at hxy
  cases hxy
  refine ⟨by rw [← hpk]; exact s2.1, by rw [← hpk]; exact s2.2.1, by rw [← hpk]; exact s2.2.2, ⟨total, t, K.total_ok, K.t_ok, ?_⟩, o3 j key _ _ hj i1, ⟨x', y', rfl, rfl, i2, by omega⟩, hlook j key p hp hpk, ?_⟩
  rotate_left
  · obtain ⟨L, hL, k1, k2, -⟩ := hlev j p hp
    exact ⟨L, hL, k1.symm.trans hpk, p.2, k2, s1⟩
  rw [show npSlice F.data ((x' : Int)).toNat ((y' : Int)).toNat = npSlice F.data x' y' from rfl, i4, s1, List.map_map]
  rfl

/-- C20 for a task: the csv file of the scores of the triplets written by `generate`.  `idx f` are the values of regressor `f`; at most 2^53 combinations of values;
restrictions of C10.  For every level the rows are the combinations of regressors of its triplets `S`, with the number of triplets and the score;
without threshold these are all the triplets of the level, with a threshold the given number of each group (C08). -/
theorem C20_task_partial {e : Env} (he : e.Lawful) {a : Args ρ} (ha : a.OK) (hf : Spec'.KeptFirst a) {T : Task.Task ρ} (h : init e a = .ok T)
    {N : Num} (hN : ArgsortLaw N.argsort) {threshold : Nat} {src : List Val → List Val → Nat → Src} (hsrc : ∀ k k' j, (src k k' j).Lawful)
    (hA : (∀ f ∈ a.regressors, Spec.readsA a.cols f = false) ∨ (T.filters.ops .ABX ≠ [] ∧ a.on ∈ a.cols.on ∧ a.on ∉ a.cols.by_))
    {bl1 bl2 : Nat} (h1 : 0 < bl1) (h2 : 0 < bl2) {F : File} (hF : generate e N threshold src bl1 bl2 T = .ok (some F)) (hbne : F.bys ≠ []) {idx : DBFun Nat → List Val}
    (hidx : ∀ f ∈ allRegs e a, 0 < (idx f).length ∧ ∀ L ∈ T.levels, ∀ t ∈ tripsSpec a L.key, Spec.regValue a.cols f t < (idx f).length)
    (hc : ((allRegs e a).map (fun f => (idx f).length)).prod ≤ 2 ^ 53) {dt : Nat} (hdt : indexedBits ((colRegs T.regressors).map idx) = .ok dt)
    {scores : List Int} (hlen : scores.length = F.data.length) {argsort : List Int → List Nat} (hs : ArgsortLaw argsort) :
    ∃ (rs : List (DBFun Nat)) (S : Nat → List Tri) (outs : List (List OutRow)), rs = colRegs T.regressors ∧ rs.Perm (allRegs e a) ∧ collapse argsort (rs.map idx) F scores = .ok outs.flatten ∧ outs.length = F.bys.length ∧
      ∀ j key (x y : Int), F.bys[j]? = some key → F.byIndex[j]? = some (x, y) → (∀ t ∈ S j, t ∈ tripsSpec a key) ∧ (threshold = 0 → (S j).Perm (tripsSpec a key)) ∧
        Sampled e N threshold a key (S j) ∧
        (∃ total t, nbTriplets e T = .ok total ∧ fitIntegerType total = .ok t ∧ npSlice F.data x.toNat y.toNat = (S j).map (fun u => castTrip t (u.1.1, u.2.1.1, u.2.2.1))) ∧
        ∃ out rows, outs[j]? = some out ∧ Spec.Collapsed (rs.map idx) key ((S j).map (fun t => rs.map (fun f => Spec.regValue a.cols f t))) (npSlice scores x.toNat y.toNat) rows out := by
  obtain ⟨rs, S, outs, h1, h2, h3, h4, h5⟩ := task_levels he ha hf h hN hsrc hA h1 h2 hF hbne hidx hc hdt hlen hs
  refine ⟨rs, S, outs, h1, h2, h3, h4, fun j key x y hj hxy => ?_⟩
  obtain ⟨d1, d2, d3, d4, d5, -⟩ := h5 j key x y hj hxy
  exact ⟨d1, d2, d3, d4, d5⟩

/-! ### counterexamples -/

/-- 54 columns of two values each -/
def binary (n : Nat) : List (List Val) := List.replicate n [.int 0, .int 1]

theorem decode_bad : npdecode (2 ^ 54 - 1) (List.replicate 54 2) = 2 :: (List.replicate 52 0 ++ [1]) := by decide +kernel

/-- C19 is false beyond 2^53 combinations: 54 regressors of two values, one triplet with the second value everywhere; the key is decoded to other indices. -/
theorem C19_violated : Spec.Table (List.replicate 54 [1]) [List.replicate 54 1] ∧ Spec.combinations (List.replicate 54 [1]) = 2 ^ 54 ∧ nIndices 8 (List.replicate 54 [1]) = List.replicate 54 2 ∧
    encode 8 64 (List.replicate 54 2) (List.replicate 54 1) = 2 ^ 54 - 1 ∧ npdecode (2 ^ 54 - 1) (List.replicate 54 2) ≠ (List.replicate 54 1).map (fun x : Nat => (x : ℚ)) := by
  refine ⟨⟨by decide, by decide, by decide, ?_⟩, by decide +kernel, by decide +kernel, by decide +kernel, ?_⟩
  · intro i j c r hc hr
    rw [List.getElem?_replicate] at hc
    split at hc
    · rename_i hi
      cases hc
      cases i with
      | zero =>
        rw [List.getElem?_cons_zero] at hr
        rw [← Option.some.inj hr, List.getElem?_replicate, if_pos hi]
        rfl
      | succ i => simp at hr
    · cases hc
  · rw [decode_bad]; decide +kernel

/-- C20 is false beyond 2^53 combinations: for that triplet `collapse` ends in an IndexError. -/
theorem C20_violated_decode : collapseLevel insArgsort 8 (binary 54) [] (List.replicate 54 [1]) [1] = .error .indexError := by decide +kernel

/-- 64 regressors of two values, three triplets -/
def wrap : List (List Nat) := [1, 0, 1] :: List.replicate 63 [0, 0, 1]

/-- C20 is false from 2^64 combinations on: the number of combinations wraps to 0, the keys are computed in eight bits, and the triplets with regressors (1, 0, …, 0) and (0, 0, …, 0)
are counted together: a file with two rows instead of three. -/
theorem C20_violated_wrap : (rowsOf wrap).Nodup ∧ (rowsOf wrap).length = 3 ∧ (collapseLevel insArgsort 8 (binary 64) [] wrap [1, -1, 1]).map (fun o => o.map (fun r => r.n)) = .ok [2, 1] := by
  decide +kernel

/-! ### examples -/

/-- C19, C20, C21, example: two regressors with three and two values, four triplets: the combinations (0, 1), (2, 0), (2, 1) -/
example : Spec.Table [[2, 0, 2, 2], [1, 1, 0, 1]] [[2, 1], [0, 1], [2, 0], [2, 1]] ∧ Spec.combinations [[2, 0, 2, 2], [1, 1, 0, 1]] ≤ 2 ^ 53 ∧
    collapseLevel insArgsort 8 [[.int 5, .int 6, .int 7], [.str "x", .str "y"]] [.int 0] [[2, 0, 2, 2], [1, 1, 0, 1]] [1, -1, 0, -1] =
      .ok [⟨[.int 5, .str "y"], [.int 0], 0, 1⟩, ⟨[.int 7, .str "x"], [.int 0], 1 / 2, 1⟩, ⟨[.int 7, .str "y"], [.int 0], 1 / 2, 2⟩] := by
  refine ⟨⟨by decide, by decide, by decide, ?_⟩, by decide +kernel, by decide +kernel⟩
  intro i j c r hc hr
  match j, hc with
  | 0, hc => match i, hr with
    | 0, hr | 1, hr | 2, hr | 3, hr => cases hc; cases hr; rfl
    | i + 4, hr => simp at hr
  | 1, hc => match i, hr with
    | 0, hr | 1, hr | 2, hr | 3, hr => cases hc; cases hr; rfl
    | i + 4, hr => simp at hr
  | j + 2, hc => simp at hc

/-- the values of every regressor of `ex2` are below 10 -/
theorem ex2_regs {T : Task.Task Nat} (hT : init E0 ex2 = .ok T) : ∀ f ∈ allRegs E0 ex2, ∀ L ∈ T.levels, ∀ t ∈ tripsSpec ex2 L.key, Spec.regValue ex2.cols f t < 10 := by
  have h : (match init E0 ex2 with | .ok T => (allRegs E0 ex2).all (fun f => T.levels.all (fun L => (tripsSpec ex2 L.key).all (fun t => decide (Spec.regValue ex2.cols f t < 10)))) | _ => true) = true := by
    decide +kernel
  rw [hT] at h
  simp only [List.all_eq_true, decide_eq_true_eq] at h
  exact h

theorem ex2_bits {T : Task.Task Nat} (hT : init E0 ex2 = .ok T) (v : List Val) (hv : v.length = 10) : indexedBits ((colRegs T.regressors).map (fun _ => v)) = .ok 8 := by
  have h : (match init E0 ex2 with | .ok T => decide ((colRegs T.regressors).length = 4) | _ => true) = true := by decide +kernel
  rw [hT] at h
  simp only [decide_eq_true_eq] at h
  unfold indexedBits
  have he : ((colRegs T.regressors).map (fun _ => v)).map List.length = List.replicate 4 10 := by
    rw [List.map_map, ← h, ← hv]
    exact List.map_const'
  rw [he]
  decide +kernel

/-- C20, example of a task: `ex2`, two levels, ten values for every regressor, five scores -/
example : ∃ (T : Task.Task Nat) (F : File) (rs : List (DBFun Nat)) (outs : List OutRow), init E0 ex2 = .ok T ∧ generate E0 N0 0 (fun _ _ _ => src0) 1000 1000 T = .ok (some F) ∧ F.bys.length = 2 ∧
    collapse insArgsort (rs.map (fun _ : DBFun Nat => (List.range 10).map (fun i => Val.int (i : Int)))) F [1, -1, 0, 1, 1] = .ok outs := by
  obtain ⟨F, hF, d1, d2⟩ := ex2_file
  obtain ⟨T, h1, h2⟩ := run_ok hF
  obtain ⟨total, t, tb, bouts, K⟩ := generate_ok (by omega) (by omega) h2
  have hb : F.bys.length = 2 := by
    have := congrArg List.length d2
    rw [K.index] at this
    rw [K.bys]
    simpa [intervals_length] using this
  obtain ⟨rs, S, outs, -, -, hc, -⟩ := C20_task_partial E0_lawful ex2_ok (.of_not_bare (by intro f hf; cases hf)) h1 insArgsort_law (fun _ _ _ => src0_lawful) (.inl (by intro f hf; cases hf)) (by omega) (by omega) h2
    (by intro h0; rw [h0] at hb; cases hb) (idx := fun _ => (List.range 10).map (fun i => Val.int (i : Int)))
    (fun f hf => ⟨by simp, fun L hL t ht => by simpa using ex2_regs h1 f hf L hL t ht⟩) (by decide +kernel) (ex2_bits h1 _ (by simp))
    (scores := [1, -1, 0, 1, 1]) (by simp [d1]) insArgsort_law
  exact ⟨T, F, rs, _, h1, h2, hb, hc⟩

#print axioms C19_keys_partial
#print axioms C19_roundtrip_partial
#print axioms C19_violated
#print axioms C20_rows_partial
#print axioms C20_counts_partial
#print axioms C20_file_partial
#print axioms C20_task_partial
#print axioms C20_violated_decode
#print axioms C20_violated_wrap
#print axioms C21_range
#print axioms C21_order_partial

end ABX.Analyze
