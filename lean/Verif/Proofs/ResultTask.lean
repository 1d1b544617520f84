import Verif.Proofs.ResultFile
/-!
The task file and the results of an experiment.
-/
namespace ABX.ResultFile
open ExtSort ABX.Task SideOps RegInfo Analyze
variable {ρ φ δ : Type}

/-- the groups of the file for the levels of `F`: the columns that are read are those of `F`, each once -/
theorem groups_written {e : Env} (he : e.Lawful) {a : Args ρ} (ha : a.OK) (hf : Spec'.KeptFirst a) {T : Task.Task ρ} (h : Task.init e a = .ok T)
    {N : Num} (hN : ArgsortLaw N.argsort) {threshold : Nat} {src : List Val → List Val → Nat → Sampler.Src} (hs : ∀ k k' j, (src k k' j).Lawful)
    (hA : (∀ f ∈ a.regressors, ABX.Spec.readsA a.cols f = false) ∨ (T.filters.ops .ABX ≠ [] ∧ a.on ∈ a.cols.on ∧ a.on ∉ a.cols.by_))
    {kind : DBFun Nat → Kind} (hc : IsColumn e a kind) (hascii : Ascii e a) (hw : (allRegs e a).length < 2500) (hp : (T.levels.map (fun L => groupName L.key)).Nodup)
    {bl1 bl2 : Nat} (h1 : 0 < bl1) (h2 : 0 < bl2) {F : Task.File} (hF : generate e N threshold src bl1 bl2 T = .ok (some F)) (hbne : F.bys ≠ []) :
    ∃ (f : H5IO.File Val) (vars : List Var), regFile kind groupName e N threshold src ⟨[], []⟩ T = .ok f ∧
      vars = uniq (Pipeline.varsOf (colRegs T.regressors)) ∧ colRegs T.regressors = (Pipeline.varsOf (colRegs T.regressors)).map (columnReg e a.db) ∧
      vars.Nodup ∧ (∀ v, v ∈ vars ↔ columnReg e a.db v ∈ allRegs e a) ∧ (vars.map extName).Nodup ∧
      (∀ first g, f.groups.lookup first = some g → readNames f first = .ok (vars.map extName)) ∧
      (∀ L ∈ T.levels, ∃ g, f.groups.lookup (groupName L.key) = some g) ∧
      ∀ key ∈ F.bys, (∃ L ∈ T.levels, L.key = key) ∧ readIndexes f (groupName key) = .ok (vars.map (ixOf e a)) ∧
        ∀ Q : List Tri, F.regs.lookup key = some ((colRegs T.regressors).map (fun f => Q.map (ABX.Spec.regValue a.cols f))) →
          readRows f (groupName key) = .ok (Q.map (fun t => vars.map (fun v => ABX.Spec.regValue a.cols (columnReg e a.db v) t))) := by
  obtain ⟨total, t, tb, bouts, K⟩ := generate_ok h1 h2 hF
  have hch : ∀ L : Level ρ, ∃ o : List BlkOut, L ∈ T.levels → levelOut e N threshold src T L = .ok o ∧ (L.key, o) ∈ bouts := by
    intro L
    by_cases hL : L ∈ T.levels
    · obtain ⟨p, hp, e1, e2⟩ := forall₂_mem_left K.outs_ok L hL
      exact ⟨p.2, fun _ => ⟨e2, by rw [← e1]; exact hp⟩⟩
    · exact ⟨[], fun h => absurd h hL⟩
  obtain ⟨outs, ho⟩ := Classical.axiomOfChoice hch
  have hkeys : bouts.map (·.1) = T.levels.map (·.key) := (forall₂_map_eq K.outs_ok (fun L p hp => hp.1.symm)).symm
  have hnd : (bouts.map (·.1)).Nodup := by rw [hkeys]; exact init_keys_nodup he ha h
  have hby : ∀ key ∈ F.bys, ∃ L ∈ T.levels, L.key = key ∧ outs L ≠ [] := by
    intro key hk
    rw [K.bys] at hk
    obtain ⟨p, hp, rfl⟩ := List.mem_map.mp hk
    obtain ⟨hp1, hp2⟩ := List.mem_filter.mp hp
    obtain ⟨L, hL, e1, e2⟩ := forall₂_mem_right K.outs_ok p hp1
    have e3 := (ho L hL).1
    rw [e2] at e3
    refine ⟨L, hL, e1.symm, ?_⟩
    rw [← Except.ok.inj e3]
    intro h0
    unfold levelTrips at hp2
    rw [h0] at hp2
    simp at hp2
  have hne : ∃ L ∈ T.levels, outs L ≠ [] := by
    obtain ⟨key, hk⟩ := List.exists_mem_of_ne_nil _ hbne
    obtain ⟨L, hL, -, hne⟩ := hby key hk
    exact ⟨L, hL, hne⟩
  obtain ⟨f, vars, r1, r2, r3, r4, r5, r6, r7, r8, -⟩ := file_columns he ha hf h hN hs hA hc hascii hw (place := groupName) (f0 := ⟨[], []⟩) hp (fun _ _ => ⟨by simp [H5IO.keysOf], by simp [H5IO.keysOf]⟩)
    (fun L hL => (ho L hL).1) hne
  have hvne : vars ≠ [] := by
    have : columnReg e a.db (a.on, .one) ∈ allRegs e a := by unfold allRegs defaultRegs; simp
    exact List.ne_nil_of_mem ((r5 _).mpr this)
  refine ⟨f, vars, r1, r2, r3, r4, r5, r6, ?_, ?_, ?_⟩
  · intro first g hg
    by_cases hfirst : ∀ L ∈ T.levels, first ≠ groupName L.key
    · rw [r8 first hfirst] at hg
      cases hg
    · push Not at hfirst
      obtain ⟨L, hL, rfl⟩ := hfirst
      exact (r7 L hL).1
  · intro L hL
    have := (r7 L hL).1
    unfold readNames at this
    cases hg : f.groups.lookup (groupName L.key) with
    | none => rw [hg] at this; cases this
    | some g => exact ⟨g, rfl⟩
  · intro key hk
    obtain ⟨L, hL, rfl, hne⟩ := hby key hk
    obtain ⟨-, d2, P, -, -, -, -, d6⟩ := r7 L hL
    obtain ⟨d7, d8⟩ := d6 hne
    refine ⟨⟨L, hL, rfl⟩, d2, fun Q hQ => ?_⟩
    have hlook : F.regs.lookup L.key = some (((outs L).map BlkOut.regs).foldl appendCols []) := by
      rw [K.regs]
      refine Score.lookup_of_nodup (l := bouts.map (fun p => (p.1, (p.2.map BlkOut.regs).foldl appendCols []))) (p := (L.key, ((outs L).map BlkOut.regs).foldl appendCols [])) ?_
        (List.mem_map.mpr ⟨_, (ho L hL).2, rfl⟩)
      rw [List.map_map]
      exact hnd
    rw [hlook, d7] at hQ
    have hcols := List.map_inj_left.mp (Option.some.inj hQ)
    rw [d8, rows_congr hvne (Q := Q)]
    intro v hv
    refine hcols _ ?_
    rw [r3]
    rw [r2] at hv
    exact List.mem_map_of_mem (mem_uniq.mp hv)

/-- the results of an experiment, as they are read from the task file -/
theorem file_results {e : Env} (he : e.Lawful) {a : Args ρ} (ha : a.OK) (hf : Spec'.KeptFirst a) {T : Task.Task ρ} (h : Task.init e a = .ok T)
    (hpos : ∀ (i : Nat) (p : Nat × Row), a.db[i]? = some p → p.1 = i) (hfeat : a.feat.length = a.db.length)
    (hA : (∀ f ∈ a.regressors, ABX.Spec.readsA a.cols f = false) ∨ (T.filters.ops .ABX ≠ [] ∧ a.on ∈ a.cols.on ∧ a.on ∉ a.cols.by_))
    {kind : DBFun Nat → Kind} (hc : IsColumn e a kind) (hascii : Ascii e a) (hw : (allRegs e a).length < 2500) (hp : (T.levels.map (fun L => groupName L.key)).Nodup) (hfew : FewCombinations e a)
    (hz : Pipeline.Sizes a T) {threshold : Nat} {c : Pipeline.Choices} (hl : c.Lawful)
    {getFeat : ρ → Except Err φ} {distance : φ → φ → Except Err δ} {lt : δ → δ → Bool} (hlt : ∀ x y, lt x y = true → lt y x = false) {F : Task.File} {S : List Int}
    (hr : Pipeline.RanT threshold c e T getFeat distance lt F S) (hS : Pairs.Small e T F) :
    ∃ (f : H5IO.File Val) (vars : List Var) (outs : List (List OutRow)), regFile kind groupName e c.num threshold c.src ⟨[], []⟩ T = .ok f ∧
      vars = uniq (Pipeline.varsOf (colRegs T.regressors)) ∧ vars.Nodup ∧ (∀ v, v ∈ vars ↔ columnReg e a.db v ∈ allRegs e a) ∧ (vars.map extName).Nodup ∧
      (∀ first g, f.groups.lookup first = some g → readNames f first = .ok (vars.map extName)) ∧ (∀ L ∈ T.levels, ∃ g, f.groups.lookup (groupName L.key) = some g) ∧
      collapse c.sortRows f F.bys F.byIndex S = .ok outs.flatten ∧ F.bys.Nodup ∧ (∀ key ∈ F.bys, ∃ L ∈ T.levels, L.key = key) ∧
      List.Forall₂ (fun key out => ∃ (Q : List Tri) (abx : Tri → ℚ), (∀ t ∈ Q, t ∈ tripsSpec a key) ∧ (threshold = 0 → Q.Perm (tripsSpec a key)) ∧
        Sampled e c.num threshold a key Q ∧
        (∀ t ∈ Q, ABX.Spec.IsAbx lt (ABX.Spec.recDist getFeat distance) (ABX.Spec.records a.by_ (a.db.map (·.2)) a.feat (specKey a key)) t (abx t)) ∧
        ∀ Q' : List Tri, Q.Perm Q' → ABX.Spec.LabelResults (fun t => vars.map (fun v => ABX.Spec.sem a.cols t.1.2 t.2.1.2 t.2.2.2 v)) key abx Q' out) F.bys outs ∧
      (vars = Pipeline.varsOf (colRegs T.regressors) → collapse c.sortRows f F.bys F.byIndex S = Analyze.collapse c.sortRows (vars.map (ixOf e a)) F S) := by
  have hcol := allRegs_columns hc.1
  have hbne : F.bys ≠ [] := by
    obtain ⟨-, P, jobs, load, zero, s, -, hj, -⟩ := hr
    intro h0
    rw [h0] at hj
    cases hj
  obtain ⟨f, vars, g1, g2, g3, g4, g5, g6, g7, g8, g9⟩ := groups_written he ha hf h hl.num hl.src hA hc hascii hw hp hl.bl1 hl.bl2 hr.file hbne
  have hdb : a.db ≠ [] := by
    obtain ⟨key, hk⟩ := List.exists_mem_of_ne_nil _ hbne
    obtain ⟨⟨L, hL, -⟩, -⟩ := g9 key hk
    obtain ⟨fr0, I0⟩ := init_level he ha h hL
    obtain ⟨p, hp, -⟩ := I0.keyMem
    intro hnil
    have := RegInfo.prep_length a
    rw [hnil, List.length_nil, List.length_eq_zero_iff] at this
    rw [this] at hp
    cases hp
  have hix : ∀ v, 0 < (ixOf e a v).length := by
    intro v
    obtain ⟨p, hp⟩ := List.exists_mem_of_ne_nil _ hdb
    exact List.length_pos_of_mem ((mem_ixOf he).mpr ⟨p, hp, rfl⟩)
  have hidx : ∀ f ∈ allRegs e a, 0 < (Pipeline.idxOf e a f).length ∧ ∀ L ∈ T.levels, ∀ t ∈ tripsSpec a L.key, ABX.Spec.regValue a.cols f t < (Pipeline.idxOf e a f).length := by
    intro f hf
    obtain ⟨v, rfl⟩ := hcol f hf
    rw [idxOf_column]
    exact ⟨hix v, fun L _ t ht => (List.getElem?_eq_some_iff.mp (ixOf_value he ht v)).1⟩
  obtain ⟨outs0, l1, l2, l3, l4⟩ := Pipeline.level_scores he ha hf h hpos hfeat hA hidx (few_idx he hcol hfew) hz hl hlt hr hS
  have hvsub : ∀ v ∈ vars, v ∈ Pipeline.varsOf (colRegs T.regressors) := fun v hv => mem_uniq.mp (by rw [← g2]; exact hv)
  have hprod : ((vars.map (ixOf e a)).map List.length).prod ≤ 2 ^ 53 := by
    have h1 : vars.Subperm (Pipeline.varsOf (colRegs T.regressors)) := List.subperm_of_subset g4 hvsub
    obtain ⟨l, hl1, hl2⟩ := h1
    have h2 : ((vars.map (ixOf e a)).map List.length).prod = (l.map (fun v => (ixOf e a v).length)).prod := by
      rw [List.map_map]
      exact ((hl1.map _).prod_eq).symm
    have h3 : ∀ (l m : List Var), l.Sublist m → (l.map (fun v => (ixOf e a v).length)).prod ≤ (m.map (fun v => (ixOf e a v).length)).prod := by
      intro l m hs
      induction hs with
      | slnil => exact le_refl _
      | cons x _ ih =>
        rw [List.map_cons, List.prod_cons]
        exact ih.trans (Nat.le_mul_of_pos_left _ (hix x))
      | cons_cons x _ ih =>
        rw [List.map_cons, List.prod_cons, List.map_cons, List.prod_cons]
        exact Nat.mul_le_mul_left _ ih
    have h4 := few_idx he hcol hfew
    rw [← (l2.map _).prod_eq, g3, List.map_map] at h4
    rw [h2]
    exact (h3 _ _ hl2).trans h4
  obtain ⟨dt, hdt⟩ := Pipeline.bits_ok (indexes := vars.map (ixOf e a)) (by
    intro ix hix'
    obtain ⟨v, -, rfl⟩ := List.mem_map.mp hix'
    exact hix v) hprod
  have hvne : vars ≠ [] := by
    have : columnReg e a.db (a.on, .one) ∈ allRegs e a := by unfold allRegs defaultRegs; simp
    exact List.ne_nil_of_mem ((g5 _).mpr this)
  -- the triplets of the levels
  have hch : ∀ key : List Val, ∃ (X : List Tri × (Tri → ℚ) × (Tri → Int)), key ∈ F.bys → (∀ t ∈ X.1, t ∈ tripsSpec a key) ∧ (threshold = 0 → X.1.Perm (tripsSpec a key)) ∧
        Sampled e c.num threshold a key X.1 ∧
        (∀ t ∈ X.1, ABX.Spec.IsAbx lt (ABX.Spec.recDist getFeat distance) (ABX.Spec.records a.by_ (a.db.map (·.2)) a.feat (specKey a key)) t (X.2.1 t)) ∧
        F.regs.lookup key = some ((colRegs T.regressors).map (fun f => X.1.map (ABX.Spec.regValue a.cols f))) ∧
        ∃ (j x y : Nat), (∀ t ∈ X.1, |X.2.2 t| ≤ 1 ∧ X.2.1 t = ((X.2.2 t : ℚ) + 1) / 2) ∧ F.bys[j]? = some key ∧ F.byIndex[j]? = some ((x : Int), (y : Int)) ∧ x + X.1.length = y ∧ y ≤ S.length ∧ npSlice S x y = X.1.map X.2.2 := by
    intro key
    by_cases hk : key ∈ F.bys
    · obtain ⟨out, -, Q, abx, d1, d2, d3, d4, -, d6, w, j, x, y, d7, d8, d9, d10, d11, d12, -⟩ := forall₂_mem_left l4 key hk
      exact ⟨(Q, abx, w), fun _ => ⟨d1, d2, d3, d4, d6, j, x, y, d7, d8, d9, d10, d11, d12⟩⟩
    · exact ⟨([], fun _ => 0, fun _ => 0), fun h => absurd h hk⟩
  obtain ⟨X, hX⟩ := Classical.axiomOfChoice hch
  let val : Var → Tri → Nat := fun v t => ABX.Spec.regValue a.cols (columnReg e a.db v) t
  let F' : Task.File := { F with regs := F.bys.map (fun key => (key, vars.map (fun v => (X key).1.map (val v)))) }
  have hlook : ∀ key ∈ F.bys, F'.regs.lookup key = some (vars.map (fun v => (X key).1.map (val v))) := by
    intro key hk
    refine Score.lookup_of_nodup (l := F.bys.map (fun key => (key, vars.map (fun v => (X key).1.map (val v))))) (p := (key, vars.map (fun v => (X key).1.map (val v)))) ?_ (List.mem_map.mpr ⟨key, hk, rfl⟩)
    rw [List.map_map]
    exact (List.map_id F.bys).symm ▸ l3
  have hrows : ∀ key ∈ F.bys, readRows f (groupName key) = .ok ((X key).1.map (fun t => vars.map (fun v => val v t))) := by
    intro key hk
    exact (g9 key hk).2.2 _ (hX key hk).2.2.2.2.1
  have hsame : Same f (vars.map (ixOf e a)) F' := by
    intro key hk
    refine ⟨(g9 key hk).2.1, Tri, (X key).1, vars.map val, ?_, ?_⟩
    · rw [hrows key hk]; simp only [List.map_map, Function.comp_def]
    · rw [hlook key hk, List.map_map]; rfl
  have hcollapse := collapse_eq (argsort := c.sortRows) hdt hsame S
  have hlab : ∀ key, ∀ t ∈ tripsSpec a key, ∀ v, (ixOf e a v)[val v t]? = some (ABX.Spec.sem a.cols t.1.2 t.2.1.2 t.2.2.2 v) := fun key t ht v => ixOf_value he ht v
  have hR : ∀ j key, F'.bys[j]? = some key → Spec.LevelOK (vars.map (ixOf e a)) F' S j key (((F.bys[j]?).elim [] (fun key => (X key).1)).map (fun t => vars.map (fun v => val v t))) := by
    intro j key hj
    have hj' : F.bys[j]? = some key := hj
    have hk := List.mem_of_getElem? hj'
    rw [hj', Option.elim_some]
    obtain ⟨d1, -, -, -, -, j', x, y, d5, d6, d7, d8, d9, d10⟩ := hX key hk
    have hjj : j' = j := (List.getElem?_inj (List.getElem?_eq_some_iff.mp d6).1 l3).mp (d6.trans hj'.symm)
    subst hjj
    refine ⟨⟨x, y, d7, d9, by simpa using d8⟩, ⟨vars.map (fun v => (X key).1.map (val v)), hlook key hk, ?_, by simp, ?_⟩, ?_⟩
    · have := table_map (K := vars.map val) (by simpa using hvne) (X key).1
      simpa only [List.map_map, Function.comp_def] using this
    · refine le_trans ?_ hprod
      have hle : ∀ (l : List Var), Analyze.Spec.combinations (l.map (fun v => (X key).1.map (val v))) ≤ ((l.map (ixOf e a)).map List.length).prod := by
        intro l
        induction l with
        | nil => simp [Analyze.Spec.combinations]
        | cons v l ih =>
          have h1 := combinations_le [val v] (X key).1 (fun _ => (ixOf e a v).length) (by
            intro k hk
            simp at hk
            subst hk
            exact ⟨hix v, fun t ht => (List.getElem?_eq_some_iff.mp (hlab key t (d1 t ht) v)).1⟩)
          unfold Analyze.Spec.combinations at h1 ih ⊢
          simp only [List.map_cons, List.map_nil, List.prod_cons, List.prod_nil, Nat.mul_one] at h1 ih ⊢
          exact Nat.mul_le_mul h1 ih
      exact hle vars
    · intro r hr i ix x hix' hx
      obtain ⟨t, ht, rfl⟩ := List.mem_map.mp hr
      rw [List.getElem?_map, Option.map_eq_some_iff] at hix' hx
      obtain ⟨v, hv, rfl⟩ := hix'
      obtain ⟨v', hv', rfl⟩ := hx
      rw [hv] at hv'
      cases hv'
      exact (List.getElem?_eq_some_iff.mp (hlab key t (d1 t ht) v)).1
  obtain ⟨outs, o1, o2, o3⟩ := C20_file_partial hl.sortRows hdt _ hR
  refine ⟨f, vars, outs, g1, g2, g4, g5, g6, g7, g8, hcollapse.trans o1, l3, fun key hk => (g9 key hk).1, ?_, ?_⟩
  · rw [List.forall₂_iff_get]
    refine ⟨o2.symm, fun j hj1 hj2 => ?_⟩
    have hj' : F.bys[j]? = some F.bys[j] := List.getElem?_eq_getElem hj1
    have hk := List.mem_of_getElem? hj'
    rw [List.get_eq_getElem, List.get_eq_getElem]
    obtain ⟨d1, d2, d3, d4, -, j', x, y, d5, d6, d7, d8, d9, d10⟩ := hX _ hk
    have hjj : j' = j := (List.getElem?_inj (List.getElem?_eq_some_iff.mp d6).1 l3).mp (d6.trans hj'.symm)
    subst hjj
    obtain ⟨out, rows, p1, p2⟩ := o3 j' _ x y hj' d7
    rw [List.getElem?_eq_getElem hj2] at p1
    cases p1
    rw [hj'] at p2
    refine ⟨(X F.bys[j']).1, (X F.bys[j']).2.1, d1, d2, d3, d4, fun Q' hQ => ?_⟩
    simp only [Option.elim_some] at p2
    have hsl : npSlice S ((x : Int)).toNat ((y : Int)).toNat = (X F.bys[j']).1.map (X F.bys[j']).2.2 := d10
    rw [hsl] at p2
    have hres := Pipeline.results_of (value := fun t => vars.map (fun v => val v t)) hQ (fun t ht => (d5 t (hQ.mem_iff.mpr ht)).1) p2
    have hres' := labelResults (val := val) (lab := fun v t => ABX.Spec.sem a.cols t.1.2 t.2.1.2 t.2.2.2 v) hres (fun v _ => ixOf_nodup he a v) (fun v _ t ht => hlab _ t (d1 t (hQ.mem_iff.mpr ht)) v)
    refine { hres' with score := ?_ }
    intro o ho
    have := hres'.score o ho
    have hm : (Q'.filter (fun t => vars.map (fun v => ABX.Spec.sem a.cols t.1.2 t.2.1.2 t.2.2.2 v) == o.labels)).map (X F.bys[j']).2.1 =
        (Q'.filter (fun t => vars.map (fun v => ABX.Spec.sem a.cols t.1.2 t.2.1.2 t.2.2.2 v) == o.labels)).map (fun t => (((X F.bys[j']).2.2 t : ℚ) + 1) / 2) := by
      apply List.map_congr_left
      intro t ht
      exact (d5 t (hQ.mem_iff.mpr (List.mem_filter.mp ht).1)).2
    rw [hm]
    exact this
  · intro hv
    refine collapse_eq (argsort := c.sortRows) hdt ?_ S
    intro key hk
    refine ⟨(g9 key hk).2.1, Tri, (X key).1, vars.map val, ?_, ?_⟩
    · rw [hrows key hk]; simp only [List.map_map, Function.comp_def]
    · rw [(hX key hk).2.2.2.2.1, g3, ← hv]
      simp only [List.map_map, Function.comp_def]
      rfl

end ABX.ResultFile
