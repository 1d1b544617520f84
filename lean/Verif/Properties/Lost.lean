import Verif.Proofs.Lost
import Verif.Properties.LinesThreshold
/-!
C95: rows of the results of experiments with a threshold, whatever the size of the blocks.
-/
namespace ABX.ResultFile
open ABX.Task SideOps Analyze Names Names.Spec ExtSort RegInfo Database ABX.Database.Spec ABX.Spec
variable {ρ φ δ : Type}

/-- the triplets of the block of `t`: those with the same 'on' and 'across' labels of A -/
def blockOf (a : Args ρ) (key : List Val) (t : Tri) : List Tri := (tripsSpec a key).filter (ABX.Spec.sameBlock a.on a.across t)

/-- C95: the rows of an experiment with a threshold, whatever the size of the blocks (tasks with across columns; the positions of the triplets of a block are kept in the smallest type that holds the number of combinations of
regressors, line 1181).  All rows are about triplets of the level and every block has a row, but if the positions are kept in a type of `hi` values and each combination of labels of the block has at least `g` triplets, more than the
threshold, then the rows of the block are at most (hi - 1)/g + 1: those of the combinations that the first `hi` sorted triplets have. -/
theorem C95_rows {e : Env} (he : e.Lawful) {a : Args ρ} (ha : a.OK) (hf : Spec'.KeptFirst a) {T : Task.Task ρ} (h : Task.init e a = .ok T)
    (hpos : ∀ (i : Nat) (p : Nat × Row), a.db[i]? = some p → p.1 = i) (hfeat : a.feat.length = a.db.length)
    (hA : ∀ f ∈ a.regressors, ABX.Spec.readsA a.cols f = false) (hac : a.across ≠ []) (hsub : ∀ c ∈ a.across, c ∈ a.cols.across)
    {kind : DBFun Nat → Kind} (hc : IsColumn e a kind) (hascii : Ascii e a) (hw : (allRegs e a).length < 2500) (hsep : Separate a) (hfew : FewCombinations e a)
    (hz : Pipeline.Sizes a T) {threshold : Nat} (hthr : 0 < threshold) (hG : CombosFit e a T)
    {c : Pipeline.Choices} (hl : c.Lawful) (hE : c.num.Exact)
    {getFeat : ρ → Except Err φ} {distance : φ → φ → Except Err δ} {lt : δ → δ → Bool} (hlt : ∀ x y, lt x y = true → lt y x = false) {F : Task.File} {S : List Int}
    (hr : Pipeline.RanT threshold c e T getFeat distance lt F S) :
    ∃ (f : H5IO.File Val) (vars : List Var) (outs : List (List OutRow)), regFile kind groupName e c.num threshold c.src ⟨[], []⟩ T = .ok f ∧
      vars.Nodup ∧ (∀ v, v ∈ vars ↔ columnReg e a.db v ∈ allRegs e a) ∧ (vars.map extName).Nodup ∧
      collapse c.sortRows f F.bys F.byIndex S = .ok outs.flatten ∧ F.bys.Nodup ∧ (∀ key, key ∈ F.bys ↔ (∃ p ∈ a.db, levelKey a p.2 = key) ∧ tripsSpec a key ≠ []) ∧
      List.Forall₂ (fun key out =>
        (∃ (Q : List Tri) (abx : Tri → ℚ), (∀ t ∈ Q, t ∈ tripsSpec a key) ∧
          (∀ t ∈ Q, ABX.Spec.IsAbx lt (ABX.Spec.recDist getFeat distance) (ABX.Spec.records a.by_ (a.db.map (·.2)) a.feat (specKey a key)) t (abx t)) ∧
          ABX.Spec.LabelResults (fun t => vars.map (fun v => ABX.Spec.sem a.cols t.1.2 t.2.1.2 t.2.2.2 v)) key abx Q out) ∧
        ∀ t ∈ tripsSpec a key,
          (∃ o ∈ out, ∃ u ∈ blockOf a key t, o.labels = vars.map (fun v => ABX.Spec.sem a.cols u.1.2 u.2.1.2 u.2.2.2 v)) ∧
          ∀ ty, fitIntegerType (ABX.Spec.combinations a.cols (allRegs e a) (blockOf a key t) : Nat) false = .ok ty →
            ∀ g, threshold < g →
              (∀ u ∈ blockOf a key t, g ≤ ((tripsSpec a key).filter (fun w => vars.map (fun v => ABX.Spec.sem a.cols w.1.2 w.2.1.2 w.2.2.2 v) == vars.map (fun v => ABX.Spec.sem a.cols u.1.2 u.2.1.2 u.2.2.2 v))).length) →
              (out.filter (fun o => (blockOf a key t).any (fun u => vars.map (fun v => ABX.Spec.sem a.cols u.1.2 u.2.1.2 u.2.2.2 v) == o.labels))).length ≤ (ty.hi.toNat - 1) / g + 1) F.bys outs ∧
      (∃ first g, f.groups.lookup first = some g) ∧
      (Readable e a → ∀ num : ℚ → Text, (∀ q, Clean (num q)) → ∀ first g, f.groups.lookup first = some g →
        ∃ t, analyze num c.sortRows f first F.bys F.byIndex S = .ok t ∧
          Reads t ((vars.map (fun v => (extName v).toList) ++ ["by".toList, "score".toList, "n".toList]) :: outs.flatten.map (Names.Spec.cells num))) := by
  obtain ⟨f, vars, outs, g1, -, g3, g4, g5, g8, g9, g10, g11, -, g13, g14⟩ := file_text he ha hf h hpos hfeat (.inl hA) hc hascii hw hsep hfew hz hl hlt hr
    (Pipeline.small_ofC he ha hf h hA hz hl.num hl.src hl.bl1 hl.bl2 hr.file)
  obtain ⟨total, t, tb, bouts, K⟩ := generate_ok hl.bl1 hl.bl2 hr.file
  refine ⟨f, vars, outs, g1, g3, g4, g5, g8, g9, Pipeline.mem_bysC he ha hf h hl.num hE hthr hG hl.src K, ?_, g13, g14⟩
  have hcol := allRegs_columns hc.1
  have hmem : List.Forall₂ (fun (key : List Val) (out : List OutRow) => key ∈ F.bys ∧ _) F.bys outs := (List.forall₂_and_left F.bys outs).mpr ⟨fun k hk => hk, g11⟩
  refine hmem.imp ?_
  rintro key out ⟨hk, Q, abx, q1, -, q3, q4, q5⟩
  obtain ⟨L, hL, rfl⟩ := g10 key hk
  have R := q5 _ (.refl _)
  refine ⟨⟨Q, abx, q1, q4, R⟩, ?_⟩
  have hgrp : ∀ u ∈ tripsSpec a L.key, ∀ w ∈ tripsSpec a L.key, ABX.Spec.sameGroup a.cols a.on a.across (allRegs e a) u w =
      (vars.map (fun v => ABX.Spec.sem a.cols w.1.2 w.2.1.2 w.2.2.2 v) == vars.map (fun v => ABX.Spec.sem a.cols u.1.2 u.2.1.2 u.2.2.2 v)) := by
    intro u hu w hw
    rw [Bool.eq_iff_iff, beq_iff_eq, Pipeline.sameGroup_iff he ha h hL hA hac hsub (.refl _) hu hw, List.map_inj_left, List.map_inj_left]
    constructor
    · intro heq v hv
      have e1 := ixOf_value he hu v
      rw [← heq _ ((g4 v).mp hv), ixOf_value he hw v] at e1
      exact Option.some.inj e1
    · intro heq f hf
      obtain ⟨v, rfl⟩ := hcol f hf
      have e1 := ixOf_value he hu v
      rw [← heq _ ((g4 v).mpr hf), ← ixOf_value he hw v] at e1
      exact ((List.getElem?_inj (List.getElem?_eq_some_iff.mp (ixOf_value he hu v)).1 (ixOf_nodup he a v)).mp e1).symm
  exact fun t ht => rows_cut (label := fun t => vars.map (fun v => ABX.Spec.sem a.cols t.1.2 t.2.1.2 t.2.2.2 v)) q1 hgrp R (q3.cut hE (by omega)) ht (hG L hL t ht)

/-- C95 (partial): every combination of labels that triplets have has a row, when the groups fit (C79), as they do when blocks have at most 256 triplets.  Missing: larger blocks, of which it is false (`C95_violated`). -/
theorem C95_all_partial {e : Env} (he : e.Lawful) {a : Args ρ} (ha : a.OK) (hf : Spec'.KeptFirst a) {T : Task.Task ρ} (h : Task.init e a = .ok T)
    (hpos : ∀ (i : Nat) (p : Nat × Row), a.db[i]? = some p → p.1 = i) (hfeat : a.feat.length = a.db.length)
    (hA : ∀ f ∈ a.regressors, ABX.Spec.readsA a.cols f = false) (hac : a.across ≠ []) (hsub : ∀ c ∈ a.across, c ∈ a.cols.across)
    {kind : DBFun Nat → Kind} (hc : IsColumn e a kind) (hascii : Ascii e a) (hw : (allRegs e a).length < 2500) (hsep : Separate a) (hfew : FewCombinations e a)
    (hz : Pipeline.Sizes a T) {threshold : Nat} (hthr : 0 < threshold) (hG : ∀ L ∈ T.levels, GroupFit threshold a.cols a.on a.across (allRegs e a) (tripsSpec a L.key))
    {c : Pipeline.Choices} (hl : c.Lawful) (hE : c.num.Exact)
    {getFeat : ρ → Except Err φ} {distance : φ → φ → Except Err δ} {lt : δ → δ → Bool} (hlt : ∀ x y, lt x y = true → lt y x = false) {F : Task.File} {S : List Int}
    (hr : Pipeline.RanT threshold c e T getFeat distance lt F S) :
    ∃ (f : H5IO.File Val) (vars : List Var) (outs : List (List OutRow)), regFile kind groupName e c.num threshold c.src ⟨[], []⟩ T = .ok f ∧
      vars.Nodup ∧ (∀ v, v ∈ vars ↔ columnReg e a.db v ∈ allRegs e a) ∧ collapse c.sortRows f F.bys F.byIndex S = .ok outs.flatten ∧
      (∀ key, key ∈ F.bys ↔ (∃ p ∈ a.db, levelKey a p.2 = key) ∧ tripsSpec a key ≠ []) ∧
      List.Forall₂ (fun key out => ∀ t ∈ tripsSpec a key, ∃ o ∈ out, o.by_ = key ∧ o.labels = vars.map (fun v => ABX.Spec.sem a.cols t.1.2 t.2.1.2 t.2.2.2 v)) F.bys outs := by
  obtain ⟨f, vars, outs, g1, g2, g3, -, g5, -, g7, g8, -⟩ := C91_sample_partial he ha hf h hpos hfeat hA hac hsub hc hascii hw hsep hfew hz hthr hG hl hE hlt hr
  refine ⟨f, vars, outs, g1, g2, g3, g5, g7, g8.imp ?_⟩
  rintro key out ⟨Q, abx, q1, -, R⟩ t ht
  have hc := q1.counts (vars.map (fun v => ABX.Spec.sem a.cols t.1.2 t.2.1.2 t.2.2.2 v))
  have hpos : 0 < (Q.filter (fun u => vars.map (fun v => ABX.Spec.sem a.cols u.1.2 u.2.1.2 u.2.2.2 v) == vars.map (fun v => ABX.Spec.sem a.cols t.1.2 t.2.1.2 t.2.2.2 v))).length := by
    rw [hc]
    exact lt_min hthr (List.length_pos_of_mem (a := t) (List.mem_filter.mpr ⟨ht, by simp⟩))
  obtain ⟨u, hu⟩ := List.exists_mem_of_length_pos hpos
  obtain ⟨hu1, hu2⟩ := List.mem_filter.mp hu
  obtain ⟨o, ho, h1⟩ := (R.all _).mpr ⟨u, hu1, rfl⟩
  exact ⟨o, ho, R.by_ o ho, h1.trans (by simpa using hu2)⟩

section
variable {fs : Text → Option (Raw Val)} {file : Text} {r : Raw Val} {loc : List Text} {x : Text} {lab : List Text} {on : String} {across by_ : List String}

/-- the number of combinations of one label of each of the columns `on` and `across` -/
def labelCombos (r : Raw Val) (loc : List Text) (x : Text) (lab : List Text) (on : String) (across : List String) : Nat :=
  ((on :: across).map (fun c => ((complete r (3 + loc.length)).map (fun p => lineLabel loc x lab p c)).dedup.length)).prod

theorem combos_lines {e : Env} (he : e.Lawful) (hI : ItemFile fs file r loc x lab) (hC : Columns (x :: lab) on across by_) {key : List Val} {t : Tri}
    (ht : t ∈ tripsSpec (plainArgs r (3 + loc.length) (x :: lab) on across by_) key) (p : Tri → Bool) :
    ABX.Spec.combinations (plainArgs r (3 + loc.length) (x :: lab) on across by_).cols (allRegs e (plainArgs r (3 + loc.length) (x :: lab) on across by_))
      ((tripsSpec (plainArgs r (3 + loc.length) (x :: lab) on across by_) key).filter p) ≤ labelCombos r loc x lab on across := by
  refine (Pipeline.combinations_two he ⟨rfl, rfl, rfl⟩ ht p).trans (le_of_eq (congrArg List.prod (List.map_congr_left fun c hc => ?_)))
  have hc' : c.toList ∈ x :: lab := by
    rcases List.mem_cons.mp hc with rfl | hc
    · exact hC.on
    · exact hC.across c hc
  have h1 : (complete r (3 + loc.length)).map (fun p => lineLabel loc x lab p c) = ((plainArgs r (3 + loc.length) (x :: lab) on across by_).db.map (fun p => p.2 c)).map some := by
    show _ = (((complete r (3 + loc.length)).map _).map _).map _
    rw [List.map_map, List.map_map]
    exact List.map_congr_left fun p hp => label_toRow (hlen hI) hp (mem_ofList.mpr hc')
  rw [h1, List.dedup_map_of_injective (Option.some_injective _), List.length_map]

/-- C95, from the lines of the item file: the rows of a plain experiment with a threshold, across columns, whatever the size of the blocks.  The text of the results reads back as a table of rows; in each level the labels of the rows are
different and are those of triplets of lines, and for all labels of A that triplets have there is a row.  But when the 'on' and 'across' columns have at most 255 combinations of labels, and all combinations of labels with these labels
of A that triplets have are those of at least `g` triplets, more than the threshold, then there are at most 255/g + 1 such rows. -/
theorem C95_lines {e : Env} (he : e.Lawful) (hI : ItemFile fs file r loc x lab) (hs : r.rows.length ^ 3 < 2 ^ 64) {T : Task.Task (Nat × List (Option Val))}
    (h : fromFile e fs file on across by_ [] [] = .ok T) (hfew : FewLineLabels r loc x lab on across) (hn : (on :: across).Nodup) (hac : across ≠ [])
    (hw : across.length < 1249) (hp : PrintableLines r loc x lab on across by_) {kind : DBFun Nat → Kind} (hk : IsColumn e (plainArgs r (3 + loc.length) (x :: lab) on across by_) kind)
    (hz : Pipeline.Sizes (plainArgs r (3 + loc.length) (x :: lab) on across by_) T) {threshold : Nat} (hthr : 0 < threshold) (hb : labelCombos r loc x lab on across < 256)
    {c : Pipeline.Choices} (hl : c.Lawful) (hE : c.num.Exact)
    {getFeat : Nat × List (Option Val) → Except Err φ} {distance : φ → φ → Except Err δ} {lt : δ → δ → Bool} (hlt : ∀ x y, lt x y = true → lt y x = false) {F : Task.File} {S : List Int}
    (hr : Pipeline.RanT threshold c e T getFeat distance lt F S) :
    ∃ (f : H5IO.File Val) (vars : List Var) (outs : List (List OutRow)), regFile kind groupName e c.num threshold c.src ⟨[], []⟩ T = .ok f ∧ vars.Perm (plainVars on across) ∧
      (∃ first g, f.groups.lookup first = some g) ∧
      (∀ num : ℚ → Text, (∀ q, Clean (num q)) → ∀ first g, f.groups.lookup first = some g → ∃ t, analyze num c.sortRows f first F.bys F.byIndex S = .ok t ∧
        Reads t ((vars.map (fun v => (extName v).toList) ++ ["by".toList, "score".toList, "n".toList]) :: outs.flatten.map (Names.Spec.cells num))) ∧
      F.bys.Nodup ∧ (∀ key, key ∈ F.bys ↔ (∃ p ∈ complete r (3 + loc.length), lineLevel loc x lab by_ p key) ∧
        ∃ l : Labels, l.Possible across ∧ lineGroup (lineLabel loc x lab) on across (levelLines r (3 + loc.length) (x :: lab) by_ key) l ≠ []) ∧
      List.Forall₂ (fun key out => (out.map OutRow.labels).Nodup ∧ (∀ o ∈ out, o.by_ = key) ∧
        (∀ o ∈ out, ∃ l : Labels, l.Possible across ∧ lineGroup (lineLabel loc x lab) on across (levelLines r (3 + loc.length) (x :: lab) by_ key) l ≠ [] ∧ o.labels = vars.map (l.at on)) ∧
        ∀ l : Labels, l.Possible across → lineGroup (lineLabel loc x lab) on across (levelLines r (3 + loc.length) (x :: lab) by_ key) l ≠ [] →
          (∃ o ∈ out, ∃ l' : Labels, (l'.on1 = l.on1 ∧ ∀ c ∈ across, l'.across1 c = l.across1 c) ∧ o.labels = vars.map (l'.at on)) ∧
          ∀ g, threshold < g →
            (∀ l' : Labels, l'.Possible across → (l'.on1 = l.on1 ∧ ∀ c ∈ across, l'.across1 c = l.across1 c) → lineGroup (lineLabel loc x lab) on across (levelLines r (3 + loc.length) (x :: lab) by_ key) l' ≠ [] →
              g ≤ (lineGroup (lineLabel loc x lab) on across (levelLines r (3 + loc.length) (x :: lab) by_ key) l').length) →
            ∀ D : List OutRow, D.Nodup → (∀ o ∈ D, o ∈ out ∧ ∃ l' : Labels, (l'.on1 = l.on1 ∧ ∀ c ∈ across, l'.across1 c = l.across1 c) ∧ o.labels = vars.map (l'.at on)) → D.length ≤ 255 / g + 1) F.bys outs := by
  have hO : Ops (x :: lab) on across by_ [] [] := ⟨by simp, by simp, by simp, by simp⟩
  obtain ⟨hC, -, hg⟩ := (C61_file_created_iff he hI hO hs).mp ⟨T, h⟩
  rw [fromFile_args hI hC] at h
  have ha := argsOf_ok (r := r) (3 + loc.length) hC hO hs
  have hpl : Pipeline.Plain (plainArgs r (3 + loc.length) (x :: lab) on across by_) := ⟨rfl, rfl, rfl⟩
  have hf : Spec'.KeptFirst (plainArgs r (3 + loc.length) (x :: lab) on across by_) := .of_not_bare (by intro g hg; cases hg)
  obtain ⟨hpos, hfeat, hascii, hwide, hsep, hcomb, hread⟩ := lines_ready he hI hC hg hfew hw hp hk
  have hcl : ∀ key, ∀ t ∈ tripsSpec (plainArgs r (3 + loc.length) (x :: lab) on across by_) key, ABX.Spec.combinations (plainArgs r (3 + loc.length) (x :: lab) on across by_).cols (allRegs e (plainArgs r (3 + loc.length) (x :: lab) on across by_))
      (blockOf (plainArgs r (3 + loc.length) (x :: lab) on across by_) key t) < 256 := fun key t ht => lt_of_le_of_lt (combos_lines he hI hC ht _) hb
  obtain ⟨f, vars, outs, g1, g2, g3, -, -, g6, g7, g8, g9, g10⟩ := C95_rows he ha hf h hpos hfeat (by intro f hf; cases hf) hac (fun _ h => h) hk hascii hwide hsep hcomb hz hthr
    (fun L _ t ht => (hcl L.key t ht).le.trans (by norm_num)) hl hE hlt hr
  have hv : vars.Perm (plainVars on across) := Pipeline.vars_plain he hpl hn g2 g3
  have hgrp := fun key l => group_in_lines hI hC key l
  have hlab : ∀ t : Tri, vars.map (fun v => ABX.Spec.sem (plainArgs r (3 + loc.length) (x :: lab) on across by_).cols t.1.2 t.2.1.2 t.2.2.2 v) = vars.map ((Pipeline.labelsOfTrip on t).at on) := by
    intro t
    exact List.map_congr_left fun v hm => Pipeline.sem_at hpl t (hv.mem_iff.mp hm)
  have hne : ∀ key l, lineGroup (lineLabel loc x lab) on across (levelLines r (3 + loc.length) (x :: lab) by_ key) l ≠ [] ↔ group on across (itemsOf (plainArgs r (3 + loc.length) (x :: lab) on across by_) key) l ≠ [] := by
    intro key l
    rw [hgrp, ne_eq, List.map_eq_nil_iff]
  have htrip : ∀ key, ∀ t ∈ tripsSpec (plainArgs r (3 + loc.length) (x :: lab) on across by_) key, (Pipeline.labelsOfTrip on t).Possible across ∧
      lineGroup (lineLabel loc x lab) on across (levelLines r (3 + loc.length) (x :: lab) by_ key) (Pipeline.labelsOfTrip on t) ≠ [] := by
    intro key t ht
    obtain ⟨p1, p2⟩ := Pipeline.trip_possible hpl ht
    have p3 : t ∈ group on across (Task.itemsOf (plainArgs r (3 + loc.length) (x :: lab) on across by_) key) (Pipeline.labelsOfTrip on t) := p2
    exact ⟨p1, (hne key _).mpr (List.ne_nil_of_mem p3)⟩
  refine ⟨f, vars, outs, g1, hv, g9, g10 hread, g6, ?_, g8.imp ?_⟩
  · intro key
    rw [g7, level_lines hI hC]
    refine and_congr_right fun _ => ⟨fun h0 => ?_, ?_⟩
    · obtain ⟨t, ht⟩ := List.exists_mem_of_ne_nil _ h0
      exact ⟨_, htrip key t ht⟩
    · rintro ⟨l, p1, p2⟩
      obtain ⟨t, ht⟩ := List.exists_mem_of_ne_nil _ ((hne key l).mp p2)
      exact List.ne_nil_of_mem (Pipeline.group_trips hpl p1 ht)
  · rintro key out ⟨⟨Q, abx, q1, -, R⟩, hblk⟩
    simp only [hlab] at R hblk
    refine ⟨R.once, R.by_, ?_, ?_⟩
    · intro o ho
      obtain ⟨t, ht, h1⟩ := (R.all o.labels).mp ⟨o, ho, rfl⟩
      exact ⟨_, (htrip key t (q1 t ht)).1, (htrip key t (q1 t ht)).2, h1.symm⟩
    · intro l hl hlne
      obtain ⟨t, htg⟩ := List.exists_mem_of_ne_nil _ ((hne key l).mp hlne)
      have ht := Pipeline.group_trips hpl hl htg
      obtain ⟨-, -, -, e1, e2, -⟩ := Pipeline.mem_group.mp htg
      have hblock : ∀ u, u ∈ blockOf (plainArgs r (3 + loc.length) (x :: lab) on across by_) key t ↔ u ∈ tripsSpec (plainArgs r (3 + loc.length) (x :: lab) on across by_) key ∧
          (Pipeline.labelsOfTrip on u).on1 = l.on1 ∧ ∀ c ∈ across, (Pipeline.labelsOfTrip on u).across1 c = l.across1 c := by
        intro u
        unfold blockOf
        rw [List.mem_filter]
        refine and_congr_right fun _ => ?_
        have he : across.isEmpty = false := by simpa using hac
        unfold ABX.Spec.sameBlock
        show (_ && if across.isEmpty = true then _ else _) = true ↔ _
        simp only [he, Bool.false_eq_true, if_false, Bool.and_eq_true, beq_iff_eq, List.all_eq_true]
        refine and_congr ⟨fun h => h.symm.trans e1, fun h => e1.trans h.symm⟩ (forall₂_congr fun c hc => ⟨fun h => h.symm.trans (e2 c hc), fun h => (e2 c hc).trans h.symm⟩)
      obtain ⟨⟨o, ho, u, hu, hou⟩, hfew'⟩ := hblk t ht
      refine ⟨⟨o, ho, _, ((hblock u).mp hu).2, hou⟩, ?_⟩
      intro g hg hmany D hD hDm
      have hty : fitIntegerType (ABX.Spec.combinations (plainArgs r (3 + loc.length) (x :: lab) on across by_).cols (allRegs e (plainArgs r (3 + loc.length) (x :: lab) on across by_))
          (blockOf (plainArgs r (3 + loc.length) (x :: lab) on across by_) key t) : Nat) false = .ok ⟨8, false⟩ := by
        have := hcl key t ht
        unfold fitIntegerType
        simp only [Bool.false_eq_true, if_false]
        rw [if_pos (by norm_num; exact_mod_cast this)]
      have hrs : (vars.map (columnReg e (plainArgs r (3 + loc.length) (x :: lab) on across by_).db)).Perm (allRegs e (plainArgs r (3 + loc.length) (x :: lab) on across by_)) := (hv.map _).trans (Pipeline.allRegs_perm he hpl).symm
      have hcnt : ∀ u ∈ tripsSpec (plainArgs r (3 + loc.length) (x :: lab) on across by_) key, ((tripsSpec (plainArgs r (3 + loc.length) (x :: lab) on across by_) key).filter
          (fun w => vars.map ((Pipeline.labelsOfTrip on w).at on) == vars.map ((Pipeline.labelsOfTrip on u).at on))).length =
          (lineGroup (lineLabel loc x lab) on across (levelLines r (3 + loc.length) (x :: lab) by_ key) (Pipeline.labelsOfTrip on u)).length := by
        intro u hu
        have := Pipeline.filter_group hpl he hrs hu
        rw [hgrp, List.length_map]
        refine Eq.trans ?_ (congrArg List.length this)
        refine congrArg List.length (List.filter_congr fun w hw => ?_)
        rw [Bool.eq_iff_iff, beq_iff_eq, beq_iff_eq, Pipeline.value_iff hpl he hrs hw, Pipeline.varsOf_columnRegs]
        exact Iff.rfl
      have := hfew' ⟨8, false⟩ hty g hg (by
        intro u hu
        obtain ⟨hu1, hu2⟩ := (hblock u).mp hu
        rw [hcnt u hu1]
        exact hmany _ (htrip key u hu1).1 hu2 (htrip key u hu1).2)
      refine le_trans ?_ (le_of_le_of_eq this (by rfl))
      refine (List.subperm_of_subset hD ?_).length_le
      intro o ho
      obtain ⟨ho1, l', hl', hol⟩ := hDm o ho
      obtain ⟨w, hw, hwo⟩ := (R.all o.labels).mp ⟨o, ho1, rfl⟩
      refine List.mem_filter.mpr ⟨ho1, List.any_eq_true.mpr ⟨w, (hblock w).mpr ⟨q1 w hw, ?_⟩, by simpa using hwo⟩⟩
      have := (Pipeline.at_iff hv (List.nodup_cons.mp hn).1).mp (hwo.trans hol)
      exact ⟨this.1.trans hl'.1, fun c hc => (this.2.2.1 c hc).trans (hl'.2 c hc)⟩

/-- C95: the experiment can be carried out: as in C93, for at most 255 combinations of labels, when the samplings into 8-bit positions end. -/
theorem C95_ends {e : Env} (he : e.Lawful) (hI : ItemFile fs file r loc x lab) (hC : Columns (x :: lab) on across by_) (hg : NoGap r (3 + loc.length)) (hN : r.rows.length ≤ 3535)
    (hac : across ≠ []) {p : Line} (hp : p ∈ complete r (3 + loc.length)) {key : List Val} (hk : lineLevel loc x lab by_ p key) {l : Labels} (hl : l.Possible across)
    (hne : lineGroup (lineLabel loc x lab) on across (levelLines r (3 + loc.length) (x :: lab) by_ key) l ≠ [])
    (hfit : r.rows.length ≤ 128 ∨ r.rows.length ≤ (lineGroup (lineLabel loc x lab) on across (levelLines r (3 + loc.length) (x :: lab) by_ key) l).length)
    {threshold : Nat} (hthr : 0 < threshold) (hb256 : labelCombos r loc x lab on across < 256) {B : Nat} (hb : SmallBlocks B r loc x lab on across by_) {c : Pipeline.Choices} (hc : c.Lawful) (hE : c.num.Exact) (hcpu : 0 < c.nCpu)
    (hend : ∀ key k j n, threshold < n → n ≤ B → ∃ s, sampleT ⟨8, false⟩ threshold n (c.src key k j) = .ok s)
    {getFeat : Nat × List (Option Val) → Except Err φ} {distance : φ → φ → Except Err δ}
    (hf : ∀ p ∈ complete r (3 + loc.length), ∃ v, getFeat (record (3 + loc.length) p) = .ok v) (hd : ∀ p ∈ complete r (3 + loc.length), ∀ p' ∈ complete r (3 + loc.length), ∀ v w, getFeat (record (3 + loc.length) p) = .ok v → getFeat (record (3 + loc.length) p') = .ok w → ∃ d, distance v w = .ok d) (zero : δ) {lt : δ → δ → Bool} (hlt : ∀ x y, lt x y = true → lt y x = false) :
    ∃ T F S, fromFile e fs file on across by_ [] [] = .ok T ∧ Pipeline.Sizes (plainArgs r (3 + loc.length) (x :: lab) on across by_) T ∧ Pipeline.RanT threshold c e T getFeat distance lt F S := by
  obtain ⟨T, -, -, hT, hz, -⟩ := C84_ends_partial he hI hC hg hN hp hk hl hne hfit hc hcpu hf hd zero hlt
  have hO : Ops (x :: lab) on across by_ [] [] := ⟨by simp, by simp, by simp, by simp⟩
  have hs : r.rows.length ^ 3 < 2 ^ 64 := lt_of_le_of_lt (Nat.pow_le_pow_left hN 3) (by norm_num)
  have h := hT
  rw [fromFile_args hI hC] at h
  have ha := argsOf_ok (r := r) (3 + loc.length) hC hO hs
  have hpl : Pipeline.Plain (plainArgs r (3 + loc.length) (x :: lab) on across by_) := ⟨rfl, rfl, rfl⟩
  obtain ⟨q, hq, hqk⟩ := (level_lines hI hC key).mpr ⟨p, hp, hk⟩
  have hit : ∀ key, (Task.itemsOf (plainArgs r (3 + loc.length) (x :: lab) on across by_) key).length ≤ 3535 := by
    intro key
    rw [items_lines hI hC, List.length_map, List.length_zipIdx]
    refine le_trans ?_ hN
    unfold levelLines complete
    exact (List.length_filter_le _ _).trans ((List.length_filter_le _ _).trans (by simp))
  obtain ⟨F, S, hr⟩ := Pipeline.completesC he ha (.of_not_bare (by intro g hg; cases hg)) h
    ⟨q, hq, by
      rw [hqk]
      rw [group_in_lines hI hC] at hne
      rw [ne_eq, List.map_eq_nil_iff] at hne
      obtain ⟨t, ht⟩ := List.exists_mem_of_ne_nil _ hne
      exact List.ne_nil_of_mem (Pipeline.group_trips hpl hl ht)⟩ (by intro g hg; cases hg) (by intro g hg; cases hg) hz hthr
    (fun L _ t ht => (combos_lines he hI hC ht _).trans (hb256.le.trans (by norm_num))) (.inr fun L _ => hit L.key) hc hE hcpu
    (fun L _ t ht ty k j n h0 h1 h2 => by
      have hty : ty = ⟨8, false⟩ := by
        have := lt_of_le_of_lt (combos_lines he hI hC ht (ABX.Spec.sameBlock on across t)) hb256
        unfold fitIntegerType at h0
        simp only [Bool.false_eq_true, if_false] at h0
        rw [if_pos (by norm_num; exact_mod_cast this)] at h0
        exact (Except.ok.inj h0).symm
      rw [hty]
      exact hend L.key k j n h1 (h2.trans (block_lines hI hC hac hb L.key t))) (getFeat := getFeat) (distance := distance)
    (by
      intro ρ hρ
      obtain ⟨p', hp', rfl⟩ := List.mem_map.mp hρ
      exact hf p' hp')
    (by
      intro ρ hρ ρ' hρ'
      obtain ⟨p', hp', rfl⟩ := List.mem_map.mp hρ
      obtain ⟨p'', hp'', rfl⟩ := List.mem_map.mp hρ'
      exact hd p' hp' p'' hp'') zero hlt
  exact ⟨T, F, S, hT, hz, hr⟩

end

#print axioms C95_rows
#print axioms C95_all_partial
#print axioms C95_lines
#print axioms C95_ends

end ABX.ResultFile

namespace ABX.Task
open Sampler ExtSort

/-- a random source whose draws are 0, 1, 2, …: samplings end -/
def srcR : Src := ⟨fun _ => (0, true), 0, fun _ => 0, fun N _ k => (List.range k).map (· % N), 1000000⟩

theorem srcR_lawful : srcR.Lawful :=
  ⟨fun _ => by show (0 : Nat) < 2 ^ 53; norm_num, fun _ _ _ => by simp [srcR], fun N _ _ hN x hx => by
    obtain ⟨y, -, rfl⟩ := List.mem_map.mp hx
    exact Nat.mod_lt _ hN⟩

theorem srcR_ends {threshold n : Nat} (h : threshold < n) (hn : n ≤ 1000000) (ht : threshold ≤ 256) : ∃ s, sampleT ⟨8, false⟩ threshold n srcR = .ok s := by
  unfold sampleT
  split
  · unfold rejection
    split
    · exact ⟨_, rfl⟩
    · rename_i h0
      rw [if_neg (by omega)]
      have hd : ((srcR.draw n 0 threshold).map (castNat ⟨8, false⟩)) = List.range threshold := by
        show (((List.range threshold).map (· % n)).map (castNat ⟨8, false⟩)) = _
        rw [List.map_map]
        conv_rhs => rw [← List.map_id (List.range threshold)]
        refine List.map_congr_left fun x hx => ?_
        have hx' := List.mem_range.mp hx
        simp only [Function.comp_apply, Nat.mod_eq_of_lt (hx'.trans h), id]
        exact castNat_lt rfl (by show (x : Int) < 256; omega)
      have hlen := union1d_fresh (List.range threshold) [] List.Pairwise.nil List.nodup_range (by simp)
      show ∃ s, rejectionLoop threshold _ (999999 + 1) 0 [] = .ok s
      unfold rejectionLoop
      rw [if_pos (by simp; omega)]
      dsimp only
      rw [show threshold - ([] : List Nat).length = threshold from rfl, hd]
      unfold rejectionLoop
      rw [if_neg (by rw [hlen]; simp)]
      exact ⟨_, rfl⟩
  · obtain ⟨s, hs, -⟩ := C39_knuth_sample threshold n (by omega) srcR.u srcR_lawful.u 1000000 hn
    refine ⟨s.map (castNat ⟨8, false⟩), ?_⟩
    show (knuth threshold n srcR.u 1000000).map _ = _
    rw [hs]
    rfl

end ABX.Task

namespace ABX.Items
open Database Database.Spec ABX.Spec SideOps Analyze RegInfo ABX.Names.Spec Spec
variable {φ δ : Type}

section
variable {parse : Text → Val} (hparse : ∀ t, parse ('c' :: t) = .str (String.ofList ('c' :: t))) {base n repeats : Nat}
include hparse

theorem named_combos (hn : 3 ≤ n) (hb : base ≤ 15) : ResultFile.labelCombos (rawOf parse (namedTestitems base n repeats)) [] "item".toList (colNames n) "c0" ["c1"] < 256 := by
  unfold ResultFile.labelCombos
  have h : ∀ c j, (∀ p ∈ complete (rawOf parse (namedTestitems base n repeats)) 3, ∃ d < base, lineLabel [] "item".toList (colNames n) p c = some (named j d)) →
      ((complete (rawOf parse (namedTestitems base n repeats)) 3).map (fun p => lineLabel [] "item".toList (colNames n) p c)).dedup.length ≤ 15 := by
    intro c j hc
    refine le_trans (List.subperm_of_subset (List.nodup_dedup _) (l₂ := (List.range base).map (fun d => some (named j d))) ?_).length_le (by simpa using hb)
    intro v hv
    obtain ⟨p, hp, rfl⟩ := List.mem_map.mp (List.mem_dedup.mp hv)
    obtain ⟨d, hd, h1⟩ := hc p hp
    rw [h1]
    exact List.mem_map.mpr ⟨d, by simpa using hd, rfl⟩
  have hp0 : ∀ p ∈ complete (rawOf parse (namedTestitems base n repeats)) 3, 0 < base := by
    intro p hp
    obtain ⟨i, hi, -⟩ := mem_named hparse hp hn
    rcases Nat.eq_zero_or_pos base with h0 | h0
    · rw [h0, zero_pow (by omega)] at hi
      omega
    · exact h0
  have h0 := h "c0" 0 (fun p hp => by
    obtain ⟨i, -, -, e0, -, -⟩ := mem_named hparse hp hn
    exact ⟨_, Nat.mod_lt _ (hp0 p hp), e0⟩)
  have h1 := h "c1" 1 (fun p hp => by
    obtain ⟨i, -, -, -, e1, -⟩ := mem_named hparse hp hn
    exact ⟨_, Nat.mod_lt _ (hp0 p hp), e1⟩)
  simp only [List.map_cons, List.map_nil, List.prod_cons, List.prod_nil, Nat.mul_one]
  exact lt_of_le_of_lt (Nat.mul_le_mul h0 h1) (by norm_num)

/-- C95 is false of generated files: `base` values, at most 15, in each of `n` label columns, every line repeated `repeats` times, and a threshold below the (base^(n-3) (repeats+1))^3 triplets of each combination of labels: a task on 'c0'
across 'c1' by 'c2' is created, the experiment can be run (when the samplings end), and in every run each of the `base` levels has between base^2 and base^2 (255/(base^(n-3) (repeats+1))^3 + 1) rows, while (base (base - 1))^2
combinations of labels have triplets: if this is more, some combination with triplets has no row. -/
theorem C95_violated (name : Text) (hb : 2 ≤ base) (hb15 : base ≤ 15) (hn : 3 ≤ n) (hN : base ^ n * (repeats + 1) ≤ 3535)
    (hfit : base ^ n * (repeats + 1) ≤ 128 ∨ base ^ n * (repeats + 1) ≤ (base ^ (n - 3) * (repeats + 1)) ^ 3)
    {threshold : Nat} (hthr : 0 < threshold) (hg3 : threshold < (base ^ (n - 3) * (repeats + 1)) ^ 3) {e : Task.Env} (he : e.Lawful)
    {kind : DBFun Nat → Kind} (hk : IsColumn e (plainArgs (rawOf parse (namedTestitems base n repeats)) 3 ("item".toList :: colNames n) "c0" ["c1"] ["c2"]) kind)
    {c : Pipeline.Choices} (hc : c.Lawful) (hE : c.num.Exact) (hcpu : 0 < c.nCpu)
    (hend : ∀ key k j N, threshold < N → N ≤ (base - 1) ^ 2 * (base ^ (n - 3) * (repeats + 1)) ^ 3 → ∃ s, Task.sampleT ⟨8, false⟩ threshold N (c.src key k j) = .ok s)
    {getFeat : Nat × List (Option Val) → Except Err φ} {distance : φ → φ → Except Err δ}
    (hf : ∀ i < base ^ n * (repeats + 1), ∃ v, getFeat (lineRecord parse i) = .ok v)
    (hd : ∀ i < base ^ n * (repeats + 1), ∀ j < base ^ n * (repeats + 1), ∀ v w, getFeat (lineRecord parse i) = .ok v → getFeat (lineRecord parse j) = .ok w → ∃ d, distance v w = .ok d) (zero : δ)
    {lt : δ → δ → Bool} (hlt : ∀ x y, lt x y = true → lt y x = false) :
    ∃ T, fromFile e (oneFile (addExt name) (rawOf parse (namedTestitems base n repeats))) name "c0" ["c1"] ["c2"] [] [] = .ok T ∧ (∃ F S, Pipeline.RanT threshold c e T getFeat distance lt F S) ∧
      ∀ F S, Pipeline.RanT threshold c e T getFeat distance lt F S → ∃ (f : H5IO.File Val) (vars : List Var) (outs : List (List OutRow)),
        regFile kind ResultFile.groupName e c.num threshold c.src ⟨[], []⟩ T = .ok f ∧ vars.Perm (plainVars "c0" ["c1"]) ∧ (∃ first g, f.groups.lookup first = some g) ∧
        (∀ num : ℚ → Text, (∀ q, Clean (num q)) → ∀ first g, f.groups.lookup first = some g → ∃ t, ResultFile.analyze num c.sortRows f first F.bys F.byIndex S = .ok t ∧
          Reads t ((vars.map (fun v => (extName v).toList) ++ ["by".toList, "score".toList, "n".toList]) :: outs.flatten.map (cells num))) ∧
        F.bys.Perm ((List.range base).map (fun z => [named 2 z])) ∧
        List.Forall₂ (fun key out => base ^ 2 ≤ out.length ∧ out.length ≤ base ^ 2 * (255 / (base ^ (n - 3) * (repeats + 1)) ^ 3 + 1) ∧ (∀ o ∈ out, o.by_ = key) ∧ (out.map OutRow.labels).Nodup ∧
          (∀ o ∈ out, ∃ a < base, ∃ b < base, ∃ x < base, ∃ y < base, a ≠ b ∧ x ≠ y ∧ o.labels = vars.map ((combo a b x y).at "c0")) ∧
          (255 / (base ^ (n - 3) * (repeats + 1)) ^ 3 + 1 < (base - 1) ^ 2 → ∃ a < base, ∃ b < base, ∃ x < base, ∃ y < base, a ≠ b ∧ x ≠ y ∧
            (lineGroup (lineLabel [] "item".toList (colNames n)) "c0" ["c1"] (levelLines (rawOf parse (namedTestitems base n repeats)) 3 ("item".toList :: colNames n) ["c2"] key) (combo a b x y)).length =
              (base ^ (n - 3) * (repeats + 1)) ^ 3 ∧ ¬ ∃ o ∈ out, o.labels = vars.map ((combo a b x y).at "c0"))) F.bys outs := by
  obtain ⟨hI, hC, hg⟩ := named_file (parse := parse) name (base := base) (repeats := repeats) hn
  have hrl := named_length (parse := parse) base n repeats
  have hM0 : 0 < base ^ n * (repeats + 1) := by positivity
  have hgl := fun z (hz : z < base) => named_group hparse (repeats := repeats) hb hn hz
  have hposs : (combo 0 1 0 1).Possible ["c1"] := combo_possible.mpr ⟨by omega, by omega⟩
  have hrec : ∀ p ∈ complete (rawOf parse (namedTestitems base n repeats)) 3, ∃ v, getFeat (record 3 p) = .ok v := by
    intro p hp
    obtain ⟨i, hi, -, hr⟩ := record_named hp
    rw [hr]
    exact hf i hi
  have hdist : ∀ p ∈ complete (rawOf parse (namedTestitems base n repeats)) 3, ∀ p' ∈ complete (rawOf parse (namedTestitems base n repeats)) 3, ∀ v w,
      getFeat (record 3 p) = .ok v → getFeat (record 3 p') = .ok w → ∃ d, distance v w = .ok d := by
    intro p hp p' hp' v w
    obtain ⟨i, hi, -, hr⟩ := record_named hp
    obtain ⟨i', hi', -, hr'⟩ := record_named hp'
    rw [hr, hr']
    exact hd i hi i' hi' v w
  obtain ⟨T, F0, S0, hT, hz, hran⟩ := ResultFile.C95_ends he hI hC hg (by rw [← hrl] at hN; exact hN) (by simp) (named_line hM0) (named_level hparse hn 0) hposs
    (hgl _ (Nat.mod_lt _ (by omega))).2
    (by rw [← hrl] at hfit; rw [← (hgl (0 / base ^ 2 % base) (Nat.mod_lt _ (by omega))).1] at hfit; exact hfit) hthr (named_combos hparse hn hb15) (named_blocks hparse hn (by omega)) hc hE hcpu hend hrec hdist zero hlt
  refine ⟨T, hT, ⟨F0, S0, hran⟩, ?_⟩
  intro F S hr
  obtain ⟨f, vars, outs, o1, o2, o3, o4, o5, o6, o7⟩ := ResultFile.C95_lines he hI
    (by rw [← hrl] at hN; exact lt_of_le_of_lt (Nat.pow_le_pow_left hN 3) (by norm_num)) hT (named_few hN) (by decide) (by simp) (by decide) (named_printable hparse hn) hk hz hthr (named_combos hparse hn hb15) hc hE hlt hr
  have hbys : ∀ key, key ∈ F.bys ↔ ∃ z < base, key = [named 2 z] := by
    intro key
    rw [o6]
    exact named_levels hparse hb hn key
  have hperm : F.bys.Perm ((List.range base).map (fun z => [named 2 z])) := by
    rw [List.perm_ext_iff_of_nodup o5 (List.nodup_range.map (by intro a b h; simpa [named_iff] using h))]
    intro key
    rw [hbys key]
    simp [eq_comm]
  refine ⟨f, vars, outs, o1, o2, o3, o4, hperm, forall₂_imp_mem o7 ?_⟩
  rintro key hkey out ⟨r1, r2, r3, r4⟩
  obtain ⟨z, hz', rfl⟩ := (hbys key).mp hkey
  have hK : 0 < (base ^ (n - 3) * (repeats + 1)) ^ 3 := by positivity
  have hcomb : ∀ o ∈ out, ∃ a < base, ∃ b < base, ∃ x < base, ∃ y < base, a ≠ b ∧ x ≠ y ∧ o.labels = vars.map ((combo a b x y).at "c0") := by
    intro o ho
    obtain ⟨l, hl, hne, hlab⟩ := r3 o ho
    obtain ⟨a, ha, b, hb', x, hx, y, hy, e1, e2, e3, e4⟩ := group_combo hparse hn (by omega) hne
    refine ⟨a, ha, b, hb', x, hx, y, hy, ?_, ?_, hlab.trans (at_congr o2 e1 e2 e3 e4)⟩
    · rintro rfl; exact hl.1 (e1.trans e2.symm)
    · rintro rfl; exact hl.2 "c1" (by simp) (e3.trans e4.symm)
  choose! fa hfa fb hfb fx hfx fy hfy hab hxy hfl using hcomb
  have hlen : ∀ a < base, ∀ b < base, ∀ x < base, ∀ y < base, (lineGroup (lineLabel [] "item".toList (colNames n)) "c0" ["c1"] (levelLines (rawOf parse (namedTestitems base n repeats)) 3 ("item".toList :: colNames n) ["c2"] [named 2 z]) (combo a b x y)).length =
      (base ^ (n - 3) * (repeats + 1)) ^ 3 := fun a ha b hb' x hx y hy => combo_group hparse (repeats := repeats) hn ha hb' hx hy hz' (l := combo a b x y) rfl rfl rfl rfl
  have hne : ∀ a < base, ∀ b < base, ∀ x < base, ∀ y < base, lineGroup (lineLabel [] "item".toList (colNames n)) "c0" ["c1"] (levelLines (rawOf parse (namedTestitems base n repeats)) 3 ("item".toList :: colNames n) ["c2"] [named 2 z]) (combo a b x y) ≠ [] := by
    intro a ha b hb' x hx y hy h0
    have := hlen a ha b hb' x hx y hy
    rw [h0] at this
    simp at this
    omega
  -- the rows of a block
  have hblk : ∀ a < base, ∀ x < base, 1 ≤ (out.filter (fun o => fa o * base + fx o == a * base + x)).length ∧ (out.filter (fun o => fa o * base + fx o == a * base + x)).length ≤ 255 / (base ^ (n - 3) * (repeats + 1)) ^ 3 + 1 := by
    intro a ha x hx
    obtain ⟨b, hb', hab'⟩ : ∃ b < base, a ≠ b := if h0 : a = 0 then ⟨1, by omega, by omega⟩ else ⟨0, by omega, h0⟩
    obtain ⟨y, hy, hxy'⟩ : ∃ y < base, x ≠ y := if h0 : x = 0 then ⟨1, by omega, by omega⟩ else ⟨0, by omega, h0⟩
    obtain ⟨⟨o, ho, l', ⟨h1, h2⟩, h3⟩, hfew⟩ := r4 (combo a b x y) (combo_possible.mpr ⟨hab', hxy'⟩) (hne a ha b hb' x hx y hy)
    have hat := fun {o : OutRow} (ho : o ∈ out) {l' : Labels} (h3 : o.labels = vars.map (l'.at "c0")) => (Pipeline.at_iff o2 (by decide)).mp ((hfl o ho).symm.trans h3)
    refine ⟨?_, ?_⟩
    · refine List.length_pos_of_mem (a := o) (List.mem_filter.mpr ⟨ho, ?_⟩)
      obtain ⟨e1, -, e3, -⟩ := hat ho h3
      have e1' : named 0 (fa o) = named 0 a := e1.trans h1
      have e3' : named 1 (fx o) = named 1 x := (e3 "c1" (by simp)).trans (h2 "c1" (by simp))
      rw [named_iff.mp e1', named_iff.mp e3', beq_self_eq_true]
    · refine hfew _ hg3 ?_ _ ((List.Nodup.of_map _ r1).filter _) ?_
      · intro l'' _ _ hne''
        obtain ⟨a', ha', b', hb'', x', hx', y', hy', e1, e2, e3, e4⟩ := group_combo hparse hn (by omega) hne''
        exact le_of_eq (combo_group hparse (repeats := repeats) hn ha' hb'' hx' hy' hz' e1 e2 e3 e4).symm
      · intro o ho
        obtain ⟨ho, hc⟩ := List.mem_filter.mp ho
        rw [beq_iff_eq] at hc
        have hx2 : fx o = x := by
          have := congrArg (· % base) hc
          simpa [Nat.mul_add_mod, Nat.mod_eq_of_lt hx, Nat.mod_eq_of_lt (hfx o ho)] using this
        have ha2 : fa o = a := by
          rw [hx2] at hc
          exact Nat.eq_of_mul_eq_mul_right (by omega) (Nat.add_right_cancel hc)
        refine ⟨ho, combo (fa o) (fb o) (fx o) (fy o), ⟨?_, ?_⟩, hfl o ho⟩
        · show named 0 (fa o) = named 0 a
          rw [ha2]
        · intro _ _
          show named 1 (fx o) = named 1 x
          rw [hx2]
  have hkeys : (List.range (base * base)).Nodup := List.nodup_range
  have hsum := Database.length_by (fun o : OutRow => fa o * base + fx o) hkeys (Q := out) (by
    intro o ho
    rw [List.mem_range]
    have h1 := hfa o ho
    have h2 := hfx o ho
    calc fa o * base + fx o < fa o * base + base := by omega
      _ = (fa o + 1) * base := by ring
      _ ≤ base * base := Nat.mul_le_mul_right _ h1)
  have hq : ∀ q ∈ List.range (base * base), 1 ≤ (out.filter (fun o => fa o * base + fx o == q)).length ∧ (out.filter (fun o => fa o * base + fx o == q)).length ≤ 255 / (base ^ (n - 3) * (repeats + 1)) ^ 3 + 1 := by
    intro q hq
    rw [List.mem_range] at hq
    have := hblk (q / base) (Nat.div_lt_of_lt_mul hq) (q % base) (Nat.mod_lt _ (by omega))
    rwa [Nat.div_add_mod'] at this
  have hlow : base * base * 1 ≤ out.length := by
    rw [hsum]
    have := List.card_nsmul_le_sum ((List.range (base * base)).map (fun k => (out.filter (fun o => fa o * base + fx o == k)).length)) 1 (by
      intro m hm
      obtain ⟨q, hq', rfl⟩ := List.mem_map.mp hm
      exact (hq q hq').1)
    rwa [List.length_map, List.length_range, Nat.nsmul_eq_mul] at this
  have hup : out.length ≤ base * base * (255 / (base ^ (n - 3) * (repeats + 1)) ^ 3 + 1) := by
    rw [hsum]
    have := List.sum_le_card_nsmul ((List.range (base * base)).map (fun k => (out.filter (fun o => fa o * base + fx o == k)).length)) (255 / (base ^ (n - 3) * (repeats + 1)) ^ 3 + 1) (by
      intro m hm
      obtain ⟨q, hq', rfl⟩ := List.mem_map.mp hm
      exact (hq q hq').2)
    rwa [List.length_map, List.length_range, Nat.nsmul_eq_mul] at this
  have hrows : ∀ o ∈ out, ∃ a < base, ∃ b < base, ∃ x < base, ∃ y < base, a ≠ b ∧ x ≠ y ∧ o.labels = vars.map ((combo a b x y).at "c0") :=
    fun o ho => ⟨_, hfa o ho, _, hfb o ho, _, hfx o ho, _, hfy o ho, hab o ho, hxy o ho, hfl o ho⟩
  refine ⟨by rw [pow_two]; omega, by rw [pow_two]; exact hup, r2, r1, hrows, ?_⟩
  intro hmiss
  by_contra hno
  have hall : ∀ a < base, ∀ b < base, ∀ x < base, ∀ y < base, a ≠ b → x ≠ y → ∃ o ∈ out, o.labels = vars.map ((combo a b x y).at "c0") := by
    intro a ha b hb' x hx y hy h1 h2
    by_contra h3
    exact hno ⟨a, ha, b, hb', x, hx, y, hy, h1, h2, hlen a ha b hb' x hx y hy, h3⟩
  have := count_rows o2 r1 hrows hall
  have h1 : base * base * (255 / (base ^ (n - 3) * (repeats + 1)) ^ 3 + 1) < base * base * (base - 1) ^ 2 := Nat.mul_lt_mul_of_pos_left hmiss (by positivity)
  rw [mul_pow, pow_two base] at this
  omega

end

/-- C95, example: three values in each of three columns, every line seven times (189 lines), so that each of the 36 combinations of labels of each of the three levels has 343 triplets, and a threshold of 100: the task is created,
the experiment can be run, and its results have 9 rows for each level, 27 instead of 108 -/
example (parse : Text → Val) (hparse : ∀ t, parse ('c' :: t) = .str (String.ofList ('c' :: t))) (k m : Nat) (feat : Nat × List (Option Val) → Nat) (dist : Nat → Nat → Nat) :
    ∃ T, fromFile Task.E0 (oneFile (addExt "data.item".toList) (rawOf parse (namedTestitems 3 3 6))) "data.item".toList "c0" ["c1"] ["c2"] [] [] = .ok T ∧
      ∃ F S, Pipeline.RanT 100 { Pipeline.choices0 (k + 1) (m + 1) with src := fun _ _ _ => Task.srcR } Task.E0 T (fun ρ => .ok (feat ρ)) (fun v w => .ok (dist v w)) (fun x y => decide (x < y)) F S ∧ ∃ rows : List OutRow,
        (∃ (f : H5IO.File Val) (first : String) (t : Text) (head : List Text), ResultFile.analyze (fun _ => []) Task.insArgsort f first F.bys F.byIndex S = .ok t ∧ Reads t (head :: rows.map (cells (fun _ => [])))) ∧
        rows.length = 27 := by
  have hlt : ∀ x y : Nat, decide (x < y) = true → decide (y < x) = false := by intro x y h; simp at h ⊢; omega
  have hl := Pipeline.choices0_lawful (n := k + 1) (m := m + 1) (Nat.zero_lt_succ _)
  obtain ⟨T, hT, ⟨F, S, hr⟩, h⟩ := C95_violated hparse (base := 3) (n := 3) (repeats := 6) "data.item".toList (by omega) (by omega) (by omega) (by norm_num) (.inr (by norm_num)) (threshold := 100) (by norm_num) (by norm_num) Task.E0_lawful
    (kind := kind0 Task.E0 (plainArgs (rawOf parse (namedTestitems 3 3 6)) 3 ("item".toList :: colNames 3) "c0" ["c1"] ["c2"])) ⟨by (intro f hf; cases hf), fun _ => rfl⟩
    (c := { Pipeline.choices0 (k + 1) (m + 1) with src := fun _ _ _ => Task.srcR }) { hl with src := fun _ _ _ => Task.srcR_lawful } Task.N0_exact (Nat.zero_lt_succ _)
    (fun _ _ _ N h1 h2 => Task.srcR_ends h1 (h2.trans (by norm_num)) (by norm_num)) (getFeat := fun ρ => .ok (feat ρ)) (distance := fun v w => .ok (dist v w))
    (fun _ _ => ⟨_, rfl⟩) (fun _ _ _ _ _ _ _ _ => ⟨_, rfl⟩) 0 (lt := fun x y => decide (x < y)) hlt
  obtain ⟨f, vars, outs, -, -, ⟨first, g, o3⟩, o4, o5, o6⟩ := h F S hr
  obtain ⟨t, t1, t2⟩ := o4 (fun _ => []) (fun _ => ⟨by simp, by simp⟩) first g o3
  refine ⟨T, hT, F, S, hr, outs.flatten, ⟨f, first, t, _, t1, t2⟩, ?_⟩
  have hlen : F.bys.length = 3 := by rw [o5.length_eq, List.length_map, List.length_range]
  have hsum : ∀ {ks : List (List Val)} {os : List (List OutRow)}, List.Forall₂ (fun (_ : List Val) (o : List OutRow) => o.length = 9) ks os → os.flatten.length = ks.length * 9 := by
    intro ks os h
    induction h with
    | nil => simp
    | cons h1 _ ih => rw [List.flatten_cons, List.length_append, h1, ih, List.length_cons]; omega
  rw [hsum (o6.imp fun key out h => by
    have h1 := h.1
    have h2 := h.2.1
    norm_num at h1 h2
    omega), hlen]

#print axioms C95_violated

end ABX.Items
