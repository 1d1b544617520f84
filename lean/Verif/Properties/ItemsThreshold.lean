import Verif.Proofs.ItemsThreshold
import Verif.Properties.LinesThreshold
/-!
C94: the results of an experiment with a threshold and without across columns.
-/
namespace ABX.ResultFile
open ABX.Task SideOps Analyze Names Names.Spec ExtSort RegInfo Database ABX.Database.Spec ABX.Spec
variable {ρ φ δ : Type}

/-- C94 (partial): as C91 with a threshold, for tasks without across columns: the sample has, for each item A and each combination of labels of the regressors, `threshold` triplets or all of them.  Missing as in C91 and C79. -/
theorem C94_sample_partial {e : Env} (he : e.Lawful) {a : Args ρ} (ha : a.OK) (hf : Spec'.KeptFirst a) {T : Task.Task ρ} (h : Task.init e a = .ok T)
    (hpos : ∀ (i : Nat) (p : Nat × Row), a.db[i]? = some p → p.1 = i) (hfeat : a.feat.length = a.db.length)
    (hA : ∀ f ∈ a.regressors, ABX.Spec.readsA a.cols f = false) (hac : a.across = [])
    {kind : DBFun Nat → Kind} (hc : IsColumn e a kind) (hascii : Ascii e a) (hw : (allRegs e a).length < 2500) (hsep : Separate a) (hfew : FewCombinations e a)
    (hz : Pipeline.Sizes a T) {threshold : Nat} (hthr : 0 < threshold) (hG : ∀ L ∈ T.levels, GroupFit threshold a.cols a.on a.across (allRegs e a) (tripsSpec a L.key))
    {c : Pipeline.Choices} (hl : c.Lawful) (hE : c.num.Exact)
    {getFeat : ρ → Except Err φ} {distance : φ → φ → Except Err δ} {lt : δ → δ → Bool} (hlt : ∀ x y, lt x y = true → lt y x = false) {F : Task.File} {S : List Int}
    (hr : Pipeline.RanT threshold c e T getFeat distance lt F S) :
    ∃ (f : H5IO.File Val) (vars : List Var) (outs : List (List OutRow)), regFile kind groupName e c.num threshold c.src ⟨[], []⟩ T = .ok f ∧
      vars.Nodup ∧ (∀ v, v ∈ vars ↔ columnReg e a.db v ∈ allRegs e a) ∧ (vars.map extName).Nodup ∧
      collapse c.sortRows f F.bys F.byIndex S = .ok outs.flatten ∧ F.bys.Nodup ∧ (∀ key, key ∈ F.bys ↔ (∃ p ∈ a.db, levelKey a p.2 = key) ∧ tripsSpec a key ≠ []) ∧
      List.Forall₂ (fun key out => ∃ (Q : List Tri) (abx : Tri → ℚ),
        ABX.Spec.LabelSampled threshold (fun t => Val.int t.1.1 :: vars.map (fun v => ABX.Spec.sem a.cols t.1.2 t.2.1.2 t.2.2.2 v)) (tripsSpec a key) Q ∧
        (∀ t ∈ Q, ABX.Spec.IsAbx lt (ABX.Spec.recDist getFeat distance) (ABX.Spec.records a.by_ (a.db.map (·.2)) a.feat (specKey a key)) t (abx t)) ∧
        ABX.Spec.LabelResults (fun t => vars.map (fun v => ABX.Spec.sem a.cols t.1.2 t.2.1.2 t.2.2.2 v)) key abx Q out) F.bys outs ∧
      (∃ first g, f.groups.lookup first = some g) ∧
      (Readable e a → ∀ num : ℚ → Text, (∀ q, Clean (num q)) → ∀ first g, f.groups.lookup first = some g →
        ∃ t, analyze num c.sortRows f first F.bys F.byIndex S = .ok t ∧
          Reads t ((vars.map (fun v => (extName v).toList) ++ ["by".toList, "score".toList, "n".toList]) :: outs.flatten.map (Names.Spec.cells num))) := by
  obtain ⟨f, vars, outs, g1, -, g3, g4, g5, g8, g9, g10, g11, -, g13, g14⟩ := file_text he ha hf h hpos hfeat (.inl hA) hc hascii hw hsep hfew hz hl hlt hr
    (Pipeline.small_ofT he ha hf h hz hl.num hE hG hl.src hl.bl1 hl.bl2 hr.file)
  obtain ⟨total, t, tb, bouts, K⟩ := generate_ok hl.bl1 hl.bl2 hr.file
  refine ⟨f, vars, outs, g1, g3, g4, g5, g8, g9, Pipeline.mem_bysT he ha hf h hl.num hE hG hl.src K, ?_, g13, g14⟩
  have hcol := allRegs_columns hc.1
  have hmem : List.Forall₂ (fun (key : List Val) (out : List OutRow) => key ∈ F.bys ∧ _) F.bys outs := (List.forall₂_and_left F.bys outs).mpr ⟨fun k hk => hk, g11⟩
  refine hmem.imp ?_
  rintro key out ⟨hk, Q, abx, q1, -, q3, q4, q5⟩
  obtain ⟨L, hL, rfl⟩ := g10 key hk
  obtain ⟨n1, n2⟩ := q3.fit hE (hG L hL)
  refine ⟨Q, abx, ⟨n1, q1, fun c => ?_⟩, q4, q5 _ (.refl _)⟩
  have hgrp : ∀ u ∈ tripsSpec a L.key, ∀ w ∈ tripsSpec a L.key, ABX.Spec.sameGroup a.cols a.on a.across (allRegs e a) u w =
      (Val.int w.1.1 :: vars.map (fun v => ABX.Spec.sem a.cols w.1.2 w.2.1.2 w.2.2.2 v) == Val.int u.1.1 :: vars.map (fun v => ABX.Spec.sem a.cols u.1.2 u.2.1.2 u.2.2.2 v)) := by
    intro u hu w hw
    rw [Bool.eq_iff_iff, beq_iff_eq, Pipeline.sameGroup_item he ha h hL hA hac (.refl _) hu hw, List.cons.injEq, List.map_inj_left, List.map_inj_left, Val.int.injEq, Int.natCast_inj]
    refine and_congr_right fun _ => ?_
    constructor
    · intro heq v hv
      have e1 := ixOf_value he hu v
      rw [← heq _ ((g4 v).mp hv), ixOf_value he hw v] at e1
      exact Option.some.inj e1
    · intro heq f hf
      obtain ⟨v, rfl⟩ := hcol f hf
      have e1 := ixOf_value he hu v
      rw [← heq _ ((g4 v).mpr hf), ← ixOf_value he hw v] at e1
      exact ((List.getElem?_inj (List.getElem?_eq_some_iff.mp (ixOf_value he hu v)).1 (ixOf_nodup he a v)).mp e1).symm
  by_cases hv : ∃ u ∈ tripsSpec a L.key, Val.int u.1.1 :: vars.map (fun v => ABX.Spec.sem a.cols u.1.2 u.2.1.2 u.2.2.2 v) = c
  · obtain ⟨u, hu, rfl⟩ := hv
    have := n2 u hu
    rw [List.filter_congr (fun w hw => hgrp u hu w (q1 w hw)), List.filter_congr (hgrp u hu), keepCount, if_neg (by omega)] at this
    exact this
  · have e1 : ∀ w ∈ tripsSpec a L.key, (Val.int w.1.1 :: vars.map (fun v => ABX.Spec.sem a.cols w.1.2 w.2.1.2 w.2.2.2 v) == c) = false := by
      intro w hw
      rw [beq_eq_false_iff_ne]
      exact fun h0 => hv ⟨w, hw, h0⟩
    rw [List.filter_congr (fun w hw => e1 w (q1 w hw)), List.filter_congr e1]
    simp

section
variable {fs : Text → Option (Raw Val)} {file : Text} {r : Raw Val} {loc : List Text} {x : Text} {lab : List Text} {on : String} {by_ : List String}

/-- C94 (partial): the results of a plain experiment with a threshold and without across columns, from the lines of the item file to the text of the results.  The task is created from the file and the experiment runs to its end with
any choices; each line has at most 256 triplets as A.  Then the text of the results reads back as a table with, for each level that has triplets, one line for each pair of different labels for which the level has complete lines: with
these labels, the level and the text of the mean score, up to 2^-52, of a sample of different triplets of lines; the sample has for each line A all triplets with these labels, or `threshold` if there are more, so the
number of triplets is the number of lines A times the smaller of the threshold and the number of triplets of one A.  The scores are thus means with the same weight for all lines A.
Missing: larger blocks (C08), and sizes as in C83. -/
theorem C94_lines_partial {e : Env} (he : e.Lawful) (hI : ItemFile fs file r loc x lab) (hs : r.rows.length ^ 3 < 2 ^ 64) {T : Task.Task (Nat × List (Option Val))}
    (h : fromFile e fs file on [] by_ [] [] = .ok T) (hfew : FewLineLabels r loc x lab on [])
    (hp : PrintableLines r loc x lab on [] by_) {kind : DBFun Nat → Kind} (hk : IsColumn e (plainArgs r (3 + loc.length) (x :: lab) on [] by_) kind)
    (hz : Pipeline.Sizes (plainArgs r (3 + loc.length) (x :: lab) on [] by_) T) {threshold : Nat} (hthr : 0 < threshold) {B : Nat} (hB : B ≤ 256) (hb : SmallItems B r loc x lab on by_)
    {c : Pipeline.Choices} (hl : c.Lawful) (hE : c.num.Exact)
    {getFeat : Nat × List (Option Val) → Except Err φ} {distance : φ → φ → Except Err δ} {lt : δ → δ → Bool} (hlt : ∀ x y, lt x y = true → lt y x = false) {F : Task.File} {S : List Int}
    (hr : Pipeline.RanT threshold c e T getFeat distance lt F S) :
    ∃ (f : H5IO.File Val) (vars : List Var) (outs : List (List OutRow)), regFile kind groupName e c.num threshold c.src ⟨[], []⟩ T = .ok f ∧ vars.Perm (plainVars on []) ∧
      (∃ first g, f.groups.lookup first = some g) ∧
      (∀ num : ℚ → Text, (∀ q, Clean (num q)) → ∀ first g, f.groups.lookup first = some g → ∃ t, analyze num c.sortRows f first F.bys F.byIndex S = .ok t ∧
        Reads t ((vars.map (fun v => (extName v).toList) ++ ["by".toList, "score".toList, "n".toList]) :: outs.flatten.map (Names.Spec.cells num))) ∧
      F.bys.Nodup ∧ (∀ key, key ∈ F.bys ↔ (∃ p ∈ complete r (3 + loc.length), lineLevel loc x lab by_ p key) ∧
        ∃ l : Labels, l.Possible [] ∧ lineGroup (lineLabel loc x lab) on [] (levelLines r (3 + loc.length) (x :: lab) by_ key) l ≠ []) ∧
      List.Forall₂ (fun key out => EachResults threshold on vars key (lineGroup (lineLabel loc x lab) on [] (levelLines r (3 + loc.length) (x :: lab) by_ key)) (fun t => t.1.2)
          (IsLineAbx lt (fun p p' => recDist getFeat distance (record (3 + loc.length) p) (record (3 + loc.length) p'))) out ∧
        ∀ (l : Labels), ∀ o ∈ out, o.labels = vars.map (l.at on) →
          o.n = (lineOn (lineLabel loc x lab) on (levelLines r (3 + loc.length) (x :: lab) by_ key) l.on1).length *
            min threshold ((lineOn (lineLabel loc x lab) on (levelLines r (3 + loc.length) (x :: lab) by_ key) l.on2).length *
              ((lineOn (lineLabel loc x lab) on (levelLines r (3 + loc.length) (x :: lab) by_ key) l.on1).length - 1))) F.bys outs := by
  have hO : Ops (x :: lab) on [] by_ [] [] := ⟨by simp, by simp, by simp, by simp⟩
  obtain ⟨hC, -, hg⟩ := (C61_file_created_iff he hI hO hs).mp ⟨T, h⟩
  rw [fromFile_args hI hC] at h
  have ha := argsOf_ok (r := r) (3 + loc.length) hC hO hs
  have hpl : Pipeline.Plain (plainArgs r (3 + loc.length) (x :: lab) on [] by_) := ⟨rfl, rfl, rfl⟩
  have hf : Spec'.KeptFirst (plainArgs r (3 + loc.length) (x :: lab) on [] by_) := .of_not_bare (by intro g hg; cases hg)
  obtain ⟨hpos, hfeat, hascii, hwide, hsep, hcomb, hread⟩ := lines_ready he hI hC hg hfew (by simp) hp hk
  obtain ⟨f, vars, outs, g1, g2, g3, -, -, g6, g7, g8, g9, g10⟩ := C94_sample_partial he ha hf h hpos hfeat (by intro f hf; cases hf) rfl hk hascii hwide hsep hcomb hz hthr
    (fun L _ => fit_items he hI hC hfew hB hb threshold L.key) hl hE hlt hr
  have hv : vars.Perm (plainVars on []) := Pipeline.vars_plain he hpl (List.nodup_singleton _) g2 g3
  have hgrp := fun key l => group_in_lines hI hC key l
  refine ⟨f, vars, outs, g1, hv, g9, g10 hread, g6, ?_, g8.imp ?_⟩
  · intro key
    rw [g7, level_lines hI hC]
    refine and_congr_right fun _ => ⟨fun h0 => ?_, ?_⟩
    · obtain ⟨t, ht⟩ := List.exists_mem_of_ne_nil _ h0
      obtain ⟨p1, p2⟩ := Pipeline.trip_possible hpl ht
      refine ⟨_, p1, ?_⟩
      rw [hgrp]
      intro h1
      rw [List.map_eq_nil_iff] at h1
      have p3 : t ∈ group on [] (Task.itemsOf (plainArgs r (3 + loc.length) (x :: lab) on [] by_) key) (Pipeline.labelsOfTrip on t) := p2
      exact List.ne_nil_of_mem p3 h1
    · rintro ⟨l, p1, p2⟩
      rw [hgrp] at p2
      rw [ne_eq, List.map_eq_nil_iff] at p2
      obtain ⟨t, ht⟩ := List.exists_mem_of_ne_nil _ p2
      exact List.ne_nil_of_mem (Pipeline.group_trips hpl p1 ht)
  · rintro key out ⟨Q, abx, q1, q2, q3⟩
    have hres : EachResults threshold on vars key (lineGroup (lineLabel loc x lab) on [] (levelLines r (3 + loc.length) (x :: lab) by_ key)) (fun t => t.1.2)
        (IsLineAbx lt (fun p p' => recDist getFeat distance (record (3 + loc.length) p) (record (3 + loc.length) p'))) out := by
      refine EachResults.transfer (lineTri (levelLines r (3 + loc.length) (x :: lab) by_ key)) (hgrp key) ?_ ?_ ?_ (Pipeline.each_plain he hpl rfl hv hthr q1 q2 q3)
      · intro l t ht u hu
        obtain ⟨t1, t2, t3, -⟩ := Pipeline.mem_group.mp ht
        obtain ⟨u1, u2, u3, -⟩ := Pipeline.mem_group.mp hu
        rw [items_lines hI hC] at t1 t2 t3 u1 u2 u3
        refine lineTri_inj (g := rowOfLine (3 + loc.length) (x :: lab)) (levelLines_nodup ..) ?_ ?_
        · rintro i (rfl | rfl | rfl) <;> assumption
        · rintro i (rfl | rfl | rfl) <;> assumption
      · intro l t ht u hu
        obtain ⟨t1, -⟩ := Pipeline.mem_group.mp ht
        obtain ⟨u1, -⟩ := Pipeline.mem_group.mp hu
        rw [items_lines hI hC] at t1 u1
        obtain ⟨t2, -⟩ := item_line t1
        obtain ⟨u2, -⟩ := item_line u1
        have hnd := levelLines_nodup r (3 + loc.length) (x :: lab) by_ key
        constructor
        · intro heq
          have heq : (lineAt (levelLines r (3 + loc.length) (x :: lab) by_ key) t.1.1).2 = (lineAt (levelLines r (3 + loc.length) (x :: lab) by_ key) u.1.1).2 := heq
          have e1 : ((levelLines r (3 + loc.length) (x :: lab) by_ key).map (·.2))[t.1.1]? = ((levelLines r (3 + loc.length) (x :: lab) by_ key).map (·.2))[u.1.1]? := by
            rw [List.getElem?_map, List.getElem?_map, t2, u2, Option.map_some, Option.map_some, heq]
          refine (List.getElem?_inj ?_ hnd).mp e1
          rw [List.length_map]
          exact (List.getElem?_eq_some_iff.mp t2).1
        · intro heq
          show (lineAt (levelLines r (3 + loc.length) (x :: lab) by_ key) t.1.1).2 = (lineAt (levelLines r (3 + loc.length) (x :: lab) by_ key) u.1.1).2
          rw [heq]
      · intro t q hq
        have hrec := records_lines hI hC key
        have hq' : IsAbx lt (recDist getFeat distance) (records by_ ((plainArgs r (3 + loc.length) (x :: lab) on [] by_).db.map (·.2)) (plainArgs r (3 + loc.length) (x :: lab) on [] by_).feat
          (specKey (plainArgs r (3 + loc.length) (x :: lab) on [] by_) key)) t q := hq
        rw [hrec] at hq'
        exact abx_lines hq'
    refine ⟨hres, fun l o ho hlab => ?_⟩
    obtain ⟨l', -, -, row⟩ := hres.rows o ho
    have hat := hlab.symm.trans row.labels
    obtain ⟨e1, e2, -⟩ := (Pipeline.at_iff hv (by simp)).mp hat
    rw [e1, e2]
    exact EachRow.number (levelLines_nodup ..) row

/-- C94 (partial): such an experiment can be carried out: the file has at most 3535 lines, the conditions of C84 and at most 256 triplets for each line A, and the samplings end, as they do for all but exceptional random numbers (C24).
Missing as above. -/
theorem C94_ends_partial {e : Env} (he : e.Lawful) (hI : ItemFile fs file r loc x lab) (hC : Columns (x :: lab) on [] by_) (hg : NoGap r (3 + loc.length)) (hN : r.rows.length ≤ 3535)
    (hfew : FewLineLabels r loc x lab on []) {p : Line} (hp : p ∈ complete r (3 + loc.length)) {key : List Val} (hk : lineLevel loc x lab by_ p key) {l : Labels} (hl : l.Possible [])
    (hne : lineGroup (lineLabel loc x lab) on [] (levelLines r (3 + loc.length) (x :: lab) by_ key) l ≠ [])
    (hfit : r.rows.length ≤ 128 ∨ r.rows.length ≤ (lineGroup (lineLabel loc x lab) on [] (levelLines r (3 + loc.length) (x :: lab) by_ key) l).length)
    {threshold : Nat} (hthr : 0 < threshold) {B : Nat} (hB : B ≤ 256) (hb : SmallItems B r loc x lab on by_) {c : Pipeline.Choices} (hc : c.Lawful) (hE : c.num.Exact) (hcpu : 0 < c.nCpu)
    (hend : ∀ key k j n, threshold < n → n ≤ B → ∃ s, Sampler.sampleWithoutReplacement threshold n (c.src key k j) = .ok s)
    {getFeat : Nat × List (Option Val) → Except Err φ} {distance : φ → φ → Except Err δ}
    (hf : ∀ p ∈ complete r (3 + loc.length), ∃ v, getFeat (record (3 + loc.length) p) = .ok v) (hd : ∀ p ∈ complete r (3 + loc.length), ∀ p' ∈ complete r (3 + loc.length), ∀ v w, getFeat (record (3 + loc.length) p) = .ok v → getFeat (record (3 + loc.length) p') = .ok w → ∃ d, distance v w = .ok d) (zero : δ) {lt : δ → δ → Bool} (hlt : ∀ x y, lt x y = true → lt y x = false) :
    ∃ T F S, fromFile e fs file on [] by_ [] [] = .ok T ∧ Pipeline.Sizes (plainArgs r (3 + loc.length) (x :: lab) on [] by_) T ∧ Pipeline.RanT threshold c e T getFeat distance lt F S := by
  obtain ⟨T, -, -, hT, hz, -⟩ := C84_ends_partial he hI hC hg hN hp hk hl hne hfit hc hcpu hf hd zero hlt
  have hO : Ops (x :: lab) on [] by_ [] [] := ⟨by simp, by simp, by simp, by simp⟩
  have hs : r.rows.length ^ 3 < 2 ^ 64 := lt_of_le_of_lt (Nat.pow_le_pow_left hN 3) (by norm_num)
  have h := hT
  rw [fromFile_args hI hC] at h
  have ha := argsOf_ok (r := r) (3 + loc.length) hC hO hs
  have hpl : Pipeline.Plain (plainArgs r (3 + loc.length) (x :: lab) on [] by_) := ⟨rfl, rfl, rfl⟩
  obtain ⟨q, hq, hqk⟩ := (level_lines hI hC key).mpr ⟨p, hp, hk⟩
  have hit : ∀ key, (Task.itemsOf (plainArgs r (3 + loc.length) (x :: lab) on [] by_) key).length ≤ 3535 := by
    intro key
    rw [items_lines hI hC, List.length_map, List.length_zipIdx]
    refine le_trans ?_ hN
    unfold levelLines complete
    exact (List.length_filter_le _ _).trans ((List.length_filter_le _ _).trans (by simp))
  obtain ⟨F, S, hr⟩ := Pipeline.C79_completes_partial he ha (.of_not_bare (by intro g hg; cases hg)) h
    ⟨q, hq, by
      rw [hqk]
      rw [group_in_lines hI hC] at hne
      rw [ne_eq, List.map_eq_nil_iff] at hne
      obtain ⟨t, ht⟩ := List.exists_mem_of_ne_nil _ hne
      exact List.ne_nil_of_mem (Pipeline.group_trips hpl hl ht)⟩ (by intro g hg; cases hg) (.inl (by intro g hg; cases hg)) hz hthr
    (fun L _ => fit_items he hI hC hfew hB hb threshold L.key) (.inr fun L _ => hit L.key) hc hE hcpu
    (fun L _ t ht k j n h1 h2 => hend L.key k j n h1 (h2.trans (item_lines hI hC hb L.key ht))) (getFeat := getFeat) (distance := distance)
    (by
      intro ρ hρ
      obtain ⟨p', hp', rfl⟩ := List.mem_map.mp hρ
      exact hf p' hp')
    (by
      intro ρ hρ ρ' hρ'
      obtain ⟨p', hp', rfl⟩ := List.mem_map.mp hρ
      obtain ⟨p'', hp'', rfl⟩ := List.mem_map.mp hρ'
      exact hd p' hp' p'' hp'') zero hlt
  exact ⟨T, F, S, hT, hz, hr⟩

end

#print axioms C94_sample_partial
#print axioms C94_lines_partial
#print axioms C94_ends_partial

end ABX.ResultFile

namespace ABX.Items
open Database Database.Spec ABX.Spec SideOps Analyze RegInfo ABX.Names.Spec Spec
variable {φ δ : Type}

section
variable {parse : Text → Val} (hparse : ∀ t, parse ('c' :: t) = .str (String.ofList ('c' :: t))) {base n repeats : Nat}
include hparse

/-- the lines of a level with a label -/
theorem named_on (hn : 3 ≤ n) {a z : Nat} (ha : a < base) (hz : z < base) :
    (lineOn (lineLabel [] "item".toList (colNames n)) "c0" (levelLines (rawOf parse (namedTestitems base n repeats)) 3 ("item".toList :: colNames n) ["c2"] [named 2 z]) (named 0 a)).length = base ^ (n - 2) * (repeats + 1) := by
  rw [length_by (fun p : Line => p.2 / base ^ 1 % base) (ks := List.range base) List.nodup_range (fun p _ => List.mem_range.mpr (Nat.mod_lt _ (by omega)))]
  have h : ∀ y ∈ List.range base, ((lineOn (lineLabel [] "item".toList (colNames n)) "c0" (levelLines (rawOf parse (namedTestitems base n repeats)) 3 ("item".toList :: colNames n) ["c2"] [named 2 z]) (named 0 a)).filter
      (fun p : Line => p.2 / base ^ 1 % base == y)).length = base ^ (n - 3) * (repeats + 1) := by
    intro y hy
    rw [← named_cell hparse (repeats := repeats) hn ha (List.mem_range.mp hy) hz (s := fun _ => named 1 y) rfl]
    unfold lineOn lineCell
    rw [List.filter_filter]
    congr 1
    refine List.filter_congr fun p hp => ?_
    unfold levelLines at hp
    obtain ⟨i, -, rfl, e0, e1, -⟩ := mem_named hparse (List.mem_filter.mp hp).1 hn
    rw [Bool.eq_iff_iff, e0]
    simp only [List.all_cons, List.all_nil, Bool.and_true, Bool.and_eq_true, beq_iff_eq, e1, Option.some.injEq, named_iff]
    exact and_comm
  rw [List.map_congr_left h, List.map_const', List.sum_replicate, List.length_range, Nat.nsmul_eq_mul, ← mul_assoc, ← pow_succ', show n - 3 + 1 = n - 2 by omega]

/-- and with another label -/
theorem named_off (hn : 3 ≤ n) {a z : Nat} (ha : a < base) (hz : z < base) :
    (lineOff (lineLabel [] "item".toList (colNames n)) "c0" (levelLines (rawOf parse (namedTestitems base n repeats)) 3 ("item".toList :: colNames n) ["c2"] [named 2 z]) (named 0 a)).length =
      (base - 1) * (base ^ (n - 2) * (repeats + 1)) := by
  have hlab : ∀ p ∈ levelLines (rawOf parse (namedTestitems base n repeats)) 3 ("item".toList :: colNames n) ["c2"] [named 2 z],
      lineLabel [] "item".toList (colNames n) p "c0" = some (named 0 (p.2 / base ^ 0 % base)) := by
    intro p hp
    unfold levelLines at hp
    obtain ⟨i, -, rfl, e0, -⟩ := mem_named hparse (List.mem_filter.mp hp).1 hn
    exact e0
  rw [length_by (fun p : Line => p.2 / base ^ 0 % base) (ks := (List.range base).erase a) (List.nodup_range.erase _)]
  · have h : ∀ b ∈ (List.range base).erase a, ((lineOff (lineLabel [] "item".toList (colNames n)) "c0" (levelLines (rawOf parse (namedTestitems base n repeats)) 3 ("item".toList :: colNames n) ["c2"] [named 2 z]) (named 0 a)).filter
        (fun p : Line => p.2 / base ^ 0 % base == b)).length = base ^ (n - 2) * (repeats + 1) := by
      intro b hb
      obtain ⟨hba, hb⟩ := (List.Nodup.mem_erase_iff List.nodup_range).mp hb
      rw [← named_on hparse (repeats := repeats) hn (List.mem_range.mp hb) hz]
      unfold lineOn lineOff
      rw [List.filter_filter]
      congr 1
      refine List.filter_congr fun p hp => ?_
      rw [hlab p hp, Bool.eq_iff_iff]
      simp only [Bool.and_eq_true, beq_iff_eq, bne_iff_ne, ne_eq, Option.some.injEq, named_iff]
      exact ⟨fun h => h.1, fun h => ⟨h, fun h' => hba (h.symm.trans h')⟩⟩
    rw [List.map_congr_left h, List.map_const', List.sum_replicate, List.length_erase_of_mem (List.mem_range.mpr ha), List.length_range, Nat.nsmul_eq_mul]
  · intro p hp
    obtain ⟨h1, h2⟩ := List.mem_filter.mp hp
    rw [hlab p h1] at h2
    simp only [bne_iff_ne, ne_eq, Option.some.injEq, named_iff] at h2
    exact (List.Nodup.mem_erase_iff List.nodup_range).mpr ⟨h2, List.mem_range.mpr (Nat.mod_lt _ (by omega))⟩

theorem on_label (hn : 3 ≤ n) (hb0 : 0 < base) {key : List Val} {v : Val} (h : lineOn (lineLabel [] "item".toList (colNames n)) "c0" (levelLines (rawOf parse (namedTestitems base n repeats)) 3 ("item".toList :: colNames n) ["c2"] key) v ≠ []) :
    ∃ a < base, v = named 0 a ∧ ∃ z < base, key = [named 2 z] := by
  obtain ⟨p, hp⟩ := List.exists_mem_of_ne_nil _ h
  obtain ⟨hp1, hp2⟩ := List.mem_filter.mp hp
  obtain ⟨a, ha, -, -, z, hz, rfl, e0, -⟩ := mem_cell_named hparse hn hb0 hp1
  rw [e0, beq_iff_eq, Option.some.injEq] at hp2
  exact ⟨a, ha, hp2.symm, z, hz, rfl⟩

theorem named_items (hn : 3 ≤ n) (hb0 : 0 < base) : SmallItems ((base - 1) * (base ^ (n - 2) * (repeats + 1)) * (base ^ (n - 2) * (repeats + 1) - 1)) (rawOf parse (namedTestitems base n repeats)) [] "item".toList (colNames n) "c0" ["c2"] := by
  intro key v
  show (lineOff (lineLabel [] "item".toList (colNames n)) "c0" (levelLines (rawOf parse (namedTestitems base n repeats)) 3 ("item".toList :: colNames n) ["c2"] key) v).length *
    ((lineOn (lineLabel [] "item".toList (colNames n)) "c0" (levelLines (rawOf parse (namedTestitems base n repeats)) 3 ("item".toList :: colNames n) ["c2"] key) v).length - 1) ≤ _
  by_cases h0 : lineOn (lineLabel [] "item".toList (colNames n)) "c0" (levelLines (rawOf parse (namedTestitems base n repeats)) 3 ("item".toList :: colNames n) ["c2"] key) v = []
  · rw [h0]; simp
  · obtain ⟨a, ha, rfl, z, hz, rfl⟩ := on_label hparse hn hb0 h0
    rw [named_on hparse hn ha hz, named_off hparse hn ha hz]

/-- the triplets of a pair of labels without across columns -/
theorem pair_group (hn : 3 ≤ n) {a b z : Nat} (ha : a < base) (hb : b < base) (hz : z < base) {l : Labels} (h1 : l.on1 = named 0 a) (h2 : l.on2 = named 0 b) :
    (lineGroup (lineLabel [] "item".toList (colNames n)) "c0" [] (levelLines (rawOf parse (namedTestitems base n repeats)) 3 ("item".toList :: colNames n) ["c2"] [named 2 z]) l).length =
      (base ^ (n - 2) * (repeats + 1)) ^ 2 * (base ^ (n - 2) * (repeats + 1) - 1) := by
  have hnd := levelLines_nodup (rawOf parse (namedTestitems base n repeats)) 3 ("item".toList :: colNames n) ["c2"] [named 2 z]
  have hnA : ((lineOn (lineLabel [] "item".toList (colNames n)) "c0" (levelLines (rawOf parse (namedTestitems base n repeats)) 3 ("item".toList :: colNames n) ["c2"] [named 2 z]) l.on1).map (·.2)).Nodup :=
    hnd.sublist (List.Sublist.map _ List.filter_sublist)
  rw [length_by (fun t : Line × Line × Line => t.1.2) hnA]
  · have h : ∀ k ∈ (lineOn (lineLabel [] "item".toList (colNames n)) "c0" (levelLines (rawOf parse (namedTestitems base n repeats)) 3 ("item".toList :: colNames n) ["c2"] [named 2 z]) l.on1).map (·.2),
        ((lineGroup (lineLabel [] "item".toList (colNames n)) "c0" [] (levelLines (rawOf parse (namedTestitems base n repeats)) 3 ("item".toList :: colNames n) ["c2"] [named 2 z]) l).filter (fun t => t.1.2 == k)).length =
        (base ^ (n - 2) * (repeats + 1)) * (base ^ (n - 2) * (repeats + 1) - 1) := by
      intro k hk
      obtain ⟨p, hp, rfl⟩ := List.mem_map.mp hk
      rw [lineGroup_first hnd hp, h1, h2, named_on hparse hn ha hz, named_on hparse hn hb hz]
    rw [List.map_congr_left h, List.map_const', List.sum_replicate, List.length_map, Nat.nsmul_eq_mul, h1, named_on hparse hn ha hz]
    ring
  · intro t ht
    unfold lineGroup at ht
    obtain ⟨A, hA, h1⟩ := List.mem_flatMap.mp ht
    obtain ⟨B, -, h2⟩ := List.mem_flatMap.mp h1
    obtain ⟨X, -, h3⟩ := List.mem_map.mp h2
    rw [← h3]
    refine List.mem_map_of_mem ?_
    unfold lineCell at hA
    unfold lineOn
    rw [List.mem_filter] at hA ⊢
    simpa using hA

theorem group_pair (hn : 3 ≤ n) (hb0 : 0 < base) {key : List Val} {l : Labels}
    (h : lineGroup (lineLabel [] "item".toList (colNames n)) "c0" [] (levelLines (rawOf parse (namedTestitems base n repeats)) 3 ("item".toList :: colNames n) ["c2"] key) l ≠ []) :
    ∃ a < base, ∃ b < base, l.on1 = named 0 a ∧ l.on2 = named 0 b := by
  obtain ⟨⟨A, B, X⟩, ht⟩ := List.exists_mem_of_ne_nil _ h
  unfold lineGroup at ht
  simp only [List.mem_flatMap, List.mem_map, List.mem_filter] at ht
  obtain ⟨A', hA, B', hB, -⟩ := ht
  have hcell : ∀ v s, lineCell (lineLabel [] "item".toList (colNames n)) "c0" [] (levelLines (rawOf parse (namedTestitems base n repeats)) 3 ("item".toList :: colNames n) ["c2"] key) v s =
      lineOn (lineLabel [] "item".toList (colNames n)) "c0" (levelLines (rawOf parse (namedTestitems base n repeats)) 3 ("item".toList :: colNames n) ["c2"] key) v := by
    intro v s
    unfold lineCell lineOn
    refine List.filter_congr fun q _ => ?_
    rw [List.all_nil, Bool.and_true]
  rw [hcell] at hA hB
  obtain ⟨a, ha, e1, -⟩ := on_label hparse hn hb0 (List.ne_nil_of_mem hA)
  obtain ⟨b, hb, e2, -⟩ := on_label hparse hn hb0 (List.ne_nil_of_mem hB)
  exact ⟨a, ha, b, hb, e1, e2⟩

omit hparse in
theorem pair_rows {vars : List Var} (hv : vars.Perm (plainVars "c0" [])) {out : List OutRow} (hone : (out.map OutRow.labels).Nodup)
    (hrows : ∀ o ∈ out, ∃ a < base, ∃ b < base, a ≠ b ∧ o.labels = vars.map ((combo a b 0 0).at "c0"))
    (hall : ∀ a < base, ∀ b < base, a ≠ b → ∃ o ∈ out, o.labels = vars.map ((combo a b 0 0).at "c0")) : out.length = base * (base - 1) := by
  have hset : (out.map OutRow.labels).toFinset = ((Finset.range base).offDiag).image (fun p : Nat × Nat => vars.map ((combo p.1 p.2 0 0).at "c0")) := by
    ext c
    simp only [List.mem_toFinset, List.mem_map, Finset.mem_image, Finset.mem_offDiag, Finset.mem_range]
    constructor
    · rintro ⟨o, ho, rfl⟩
      obtain ⟨a, ha, b, hb', hab, hlab⟩ := hrows o ho
      exact ⟨(a, b), ⟨ha, hb', hab⟩, hlab.symm⟩
    · rintro ⟨⟨a, b⟩, ⟨ha, hb', hab⟩, rfl⟩
      obtain ⟨o, ho, h⟩ := hall a ha b hb' hab
      exact ⟨o, ho, h⟩
  have h1 : out.length = (out.map OutRow.labels).toFinset.card := by rw [List.toFinset_card_of_nodup hone, List.length_map]
  rw [h1, hset, Finset.card_image_of_injective, Finset.offDiag_card, Finset.card_range, Nat.mul_sub_one]
  rintro ⟨a, b⟩ ⟨a', b'⟩ h
  obtain ⟨e1, e2, -⟩ := (Pipeline.at_iff hv (by simp)).mp h
  obtain rfl := named_iff.mp e1
  obtain rfl := named_iff.mp e2
  rfl

/-- C94 (partial): generated files with a threshold and no across column, `base` values in each of `n` label columns and every line repeated `repeats` times: a task on 'c0' by 'c2' is created, the experiment can be run, and every
run gives results of `base` levels, in each of them one row for every pair of different labels of 'c0'.  With m = base^(n-2) (repeats+1) lines for each label and level, each line A of the row has m (m-1) triplets with these labels, and
the number of triplets of the row is m times the smaller of the threshold and m (m-1).  Missing: more than 256 triplets of a line A, and as in C92. -/
theorem C94_generated_partial (name : Text) (hb : 2 ≤ base) (hn : 3 ≤ n) (hN : base ^ n * (repeats + 1) ≤ 3535)
    (hfit : base ^ n * (repeats + 1) ≤ 128 ∨ base ^ n * (repeats + 1) ≤ (base ^ (n - 2) * (repeats + 1)) ^ 2 * (base ^ (n - 2) * (repeats + 1) - 1))
    (hB : (base - 1) * (base ^ (n - 2) * (repeats + 1)) * (base ^ (n - 2) * (repeats + 1) - 1) ≤ 256)
    {threshold : Nat} (hthr : 0 < threshold) {e : Task.Env} (he : e.Lawful)
    {kind : DBFun Nat → Kind} (hk : IsColumn e (plainArgs (rawOf parse (namedTestitems base n repeats)) 3 ("item".toList :: colNames n) "c0" [] ["c2"]) kind)
    {c : Pipeline.Choices} (hc : c.Lawful) (hE : c.num.Exact) (hcpu : 0 < c.nCpu)
    (hend : ∀ key k j N, threshold < N → N ≤ (base - 1) * (base ^ (n - 2) * (repeats + 1)) * (base ^ (n - 2) * (repeats + 1) - 1) → ∃ s, Sampler.sampleWithoutReplacement threshold N (c.src key k j) = .ok s)
    {getFeat : Nat × List (Option Val) → Except Err φ} {distance : φ → φ → Except Err δ}
    (hf : ∀ i < base ^ n * (repeats + 1), ∃ v, getFeat (lineRecord parse i) = .ok v)
    (hd : ∀ i < base ^ n * (repeats + 1), ∀ j < base ^ n * (repeats + 1), ∀ v w, getFeat (lineRecord parse i) = .ok v → getFeat (lineRecord parse j) = .ok w → ∃ d, distance v w = .ok d) (zero : δ)
    {lt : δ → δ → Bool} (hlt : ∀ x y, lt x y = true → lt y x = false) :
    ∃ T, fromFile e (oneFile (addExt name) (rawOf parse (namedTestitems base n repeats))) name "c0" [] ["c2"] [] [] = .ok T ∧ (∃ F S, Pipeline.RanT threshold c e T getFeat distance lt F S) ∧
      ∀ F S, Pipeline.RanT threshold c e T getFeat distance lt F S → ∃ (f : H5IO.File Val) (vars : List Var) (outs : List (List OutRow)),
        regFile kind ResultFile.groupName e c.num threshold c.src ⟨[], []⟩ T = .ok f ∧ vars.Perm (plainVars "c0" []) ∧ (∃ first g, f.groups.lookup first = some g) ∧
        (∀ num : ℚ → Text, (∀ q, Clean (num q)) → ∀ first g, f.groups.lookup first = some g → ∃ t, ResultFile.analyze num c.sortRows f first F.bys F.byIndex S = .ok t ∧
          Reads t ((vars.map (fun v => (extName v).toList) ++ ["by".toList, "score".toList, "n".toList]) :: outs.flatten.map (cells num))) ∧
        outs.flatten.length = base * (base * (base - 1)) ∧ F.bys.Perm ((List.range base).map (fun z => [named 2 z])) ∧
        (∀ o ∈ outs.flatten, o.n = (base ^ (n - 2) * (repeats + 1)) * min threshold ((base ^ (n - 2) * (repeats + 1)) * (base ^ (n - 2) * (repeats + 1) - 1))) ∧
        List.Forall₂ (fun key out => (∀ a < base, ∀ b < base, a ≠ b → ∃ o ∈ out, o.labels = vars.map ((combo a b 0 0).at "c0")) ∧
          EachResults threshold "c0" vars key (lineGroup (lineLabel [] "item".toList (colNames n)) "c0" [] (levelLines (rawOf parse (namedTestitems base n repeats)) 3 ("item".toList :: colNames n) ["c2"] key)) (fun t => t.1.2)
            (IsLineAbx lt (fun p p' => ABX.Spec.recDist getFeat distance (record 3 p) (record 3 p'))) out) F.bys outs := by
  obtain ⟨hI, hC1, hg⟩ := named_file (parse := parse) name (base := base) (repeats := repeats) hn
  have hC : Columns ("item".toList :: colNames n) "c0" [] ["c2"] := ⟨hC1.1, by simp, hC1.3, hC1.4⟩
  have hrl := named_length (parse := parse) base n repeats
  have hM0 : 0 < base ^ n * (repeats + 1) := by positivity
  have hm : 2 ≤ base ^ (n - 2) * (repeats + 1) := by
    calc 2 ≤ base ^ 1 := by simpa using hb
      _ ≤ base ^ (n - 2) := Nat.pow_le_pow_right (by omega) (by omega)
      _ ≤ _ := Nat.le_mul_of_pos_right _ (by omega)
  have hK : 0 < (base ^ (n - 2) * (repeats + 1)) ^ 2 * (base ^ (n - 2) * (repeats + 1) - 1) := Nat.mul_pos (by positivity) (by omega)
  have hposs : ∀ {a b : Nat}, a ≠ b → (combo a b 0 0).Possible [] := fun h => ⟨fun h0 => h (named_iff.mp h0), by simp⟩
  have hgl : ∀ {a b z : Nat}, a < base → b < base → z < base → lineGroup (lineLabel [] "item".toList (colNames n)) "c0" [] (levelLines (rawOf parse (namedTestitems base n repeats)) 3 ("item".toList :: colNames n) ["c2"] [named 2 z]) (combo a b 0 0) ≠ [] := by
    intro a b z ha hb' hz h0
    have := pair_group hparse (repeats := repeats) hn ha hb' hz (l := combo a b 0 0) rfl rfl
    rw [h0, List.length_nil] at this
    omega
  have hfew : FewLineLabels (rawOf parse (namedTestitems base n repeats)) [] "item".toList (colNames n) "c0" [] := by
    unfold FewLineLabels
    have h : (((complete (rawOf parse (namedTestitems base n repeats)) 3).map (fun p => lineLabel [] "item".toList (colNames n) p "c0")).dedup.length) ^ 2 ≤ 3535 ^ 2 := by
      refine Nat.pow_le_pow_left ?_ 2
      refine (List.dedup_sublist _).length_le.trans ?_
      rw [named_complete, List.length_map, List.length_map, List.length_range]
      exact hN
    simp only [List.length_nil, Nat.add_zero, List.map_cons, List.map_nil, List.prod_cons, List.prod_nil, Nat.mul_one]
    exact h.trans (by norm_num)
  have hprint : ResultFile.PrintableLines (rawOf parse (namedTestitems base n repeats)) [] "item".toList (colNames n) "c0" [] ["c2"] := by
    obtain ⟨p1, p2, p3, p4⟩ := named_printable hparse (base := base) (repeats := repeats) hn
    have hsub : ∀ c ∈ ["c0"], c ∈ ["c0", "c1"] := by simp
    exact ⟨fun c hc => p1 c (hsub c hc), fun c hc => p2 c (hsub c hc), p3, p4⟩
  have hrec : ∀ p ∈ complete (rawOf parse (namedTestitems base n repeats)) 3, ∃ v, getFeat (record 3 p) = .ok v := by
    intro p hp
    obtain ⟨i, hi, -, hr⟩ := record_named hp
    rw [hr]
    exact hf i hi
  have hdist : ∀ p ∈ complete (rawOf parse (namedTestitems base n repeats)) 3, ∀ p' ∈ complete (rawOf parse (namedTestitems base n repeats)) 3, ∀ v w,
      getFeat (record 3 p) = .ok v → getFeat (record 3 p') = .ok w → ∃ d, distance v w = .ok d := by
    intro p hp p' hp' v w
    obtain ⟨i, hi, -, hr⟩ := record_named hp
    obtain ⟨i', hi', -, hr'⟩ := record_named hp'
    rw [hr, hr']
    exact hd i hi i' hi' v w
  have hfit' := hfit
  rw [← hrl, ← pair_group hparse (repeats := repeats) hn (a := 0) (b := 1) (z := 0 / base ^ 2 % base) (by omega) (by omega) (Nat.mod_lt _ (by omega)) (l := combo 0 1 0 0) rfl rfl] at hfit'
  obtain ⟨T, F0, S0, hT, hz, hran⟩ := ResultFile.C94_ends_partial he hI hC hg (by rw [← hrl] at hN; exact hN) hfew (named_line hM0) (named_level hparse hn 0) (hposs (a := 0) (b := 1) (by omega))
    (hgl (by omega) (by omega) (Nat.mod_lt _ (by omega))) hfit' hthr hB (named_items hparse hn (by omega)) hc hE hcpu hend hrec hdist zero hlt
  refine ⟨T, hT, ⟨F0, S0, hran⟩, ?_⟩
  intro F S hr
  obtain ⟨f, vars, outs, o1, o2, o3, o4, o5, o6, o7⟩ := ResultFile.C94_lines_partial he hI
    (by rw [← hrl] at hN; exact lt_of_le_of_lt (Nat.pow_le_pow_left hN 3) (by norm_num)) hT hfew hprint hk hz hthr hB (named_items hparse hn (by omega)) hc hE hlt hr
  have hbys : ∀ key, key ∈ F.bys ↔ ∃ z < base, key = [named 2 z] := by
    intro key
    rw [o6]
    constructor
    · rintro ⟨h1, -⟩
      obtain ⟨p, hp, hlp⟩ := h1
      obtain ⟨i, -, -, -, -, e2⟩ := mem_named hparse hp hn
      unfold lineLevel at hlp
      rw [if_neg (List.cons_ne_nil _ _), List.map_cons, List.map_nil, e2] at hlp
      refine ⟨_, Nat.mod_lt (i / base ^ 2) (by omega), ?_⟩
      match key, hlp with
      | [v], hlp => simpa using hlp.symm
    · rintro ⟨z, hz', rfl⟩
      exact ⟨((named_levels hparse hb hn _).mpr ⟨z, hz', rfl⟩).1, combo 0 1 0 0, hposs (by omega), hgl (by omega) (by omega) hz'⟩
  have hperm : F.bys.Perm ((List.range base).map (fun z => [named 2 z])) := by
    rw [List.perm_ext_iff_of_nodup o5 (List.nodup_range.map (by intro a b h; simpa [named_iff] using h))]
    intro key
    rw [hbys key]
    simp [eq_comm]
  have hlabs : ∀ {l : Labels} {a b : Nat}, l.on1 = named 0 a → l.on2 = named 0 b → vars.map (l.at "c0") = vars.map ((combo a b 0 0).at "c0") :=
    fun h1 h2 => (Pipeline.at_iff o2 (by simp)).mpr ⟨h1, h2, by simp, by simp⟩
  have hrow : ∀ key ∈ F.bys, ∀ out, EachResults threshold "c0" vars key (lineGroup (lineLabel [] "item".toList (colNames n)) "c0" [] (levelLines (rawOf parse (namedTestitems base n repeats)) 3 ("item".toList :: colNames n) ["c2"] key)) (fun t => t.1.2)
      (IsLineAbx lt (fun p p' => ABX.Spec.recDist getFeat distance (record 3 p) (record 3 p'))) out →
      (∀ o ∈ out, ∃ a < base, ∃ b < base, a ≠ b ∧ o.labels = vars.map ((combo a b 0 0).at "c0")) ∧
      (∀ o ∈ out, o.n = (base ^ (n - 2) * (repeats + 1)) * min threshold ((base ^ (n - 2) * (repeats + 1)) * (base ^ (n - 2) * (repeats + 1) - 1))) ∧
      ∀ a < base, ∀ b < base, a ≠ b → ∃ o ∈ out, o.labels = vars.map ((combo a b 0 0).at "c0") := by
    intro key hkey out R
    obtain ⟨z, hz', rfl⟩ := (hbys key).mp hkey
    refine ⟨fun o ho => ?_, fun o ho => ?_, fun a ha b hb' hab => ?_⟩
    · obtain ⟨l, hl, hne, row⟩ := R.rows o ho
      obtain ⟨a, ha, b, hb', e1, e2⟩ := group_pair hparse hn (by omega) hne
      refine ⟨a, ha, b, hb', ?_, row.labels.trans (hlabs e1 e2)⟩
      rintro rfl
      exact hl.1 (e1.trans e2.symm)
    · obtain ⟨l, hl, hne, row⟩ := R.rows o ho
      obtain ⟨a, ha, b, hb', e1, e2⟩ := group_pair hparse hn (by omega) hne
      have := EachRow.number (levelLines_nodup ..) row
      rw [e1, e2, named_on hparse hn ha hz', named_on hparse hn hb' hz'] at this
      exact this
    · obtain ⟨o, ho, row⟩ := R.all (combo a b 0 0) (hposs hab) (hgl ha hb' hz')
      exact ⟨o, ho, row.labels⟩
  refine ⟨f, vars, outs, o1, o2, o3, o4, ?_, hperm, ?_, forall₂_imp_mem o7 fun key hkey out R => ⟨(hrow key hkey out R.1).2.2, R.1⟩⟩
  · have hlen : F.bys.length = base := by rw [hperm.length_eq, List.length_map, List.length_range]
    have hsum : ∀ {ks : List (List Val)} {os : List (List OutRow)} {P : List Val → List OutRow → Prop}, List.Forall₂ P ks os → (∀ k o, P k o → o.length = base * (base - 1)) →
        os.flatten.length = ks.length * (base * (base - 1)) := by
      intro ks os P h hP
      induction h with
      | nil => simp
      | cons h1 _ ih => rw [List.flatten_cons, List.length_append, hP _ _ h1, ih, List.length_cons, Nat.succ_mul, Nat.add_comm]
    rw [hsum (forall₂_imp_mem o7 fun key hkey out R => pair_rows o2 R.1.once (hrow key hkey out R.1).1 (hrow key hkey out R.1).2.2) (fun _ _ h => h), hlen]
  · intro o ho
    obtain ⟨out, hout, hoo⟩ := List.mem_flatten.mp ho
    obtain ⟨key, hkey, R⟩ := Task.forall₂_mem_right o7 out hout
    exact (hrow key hkey out R.1).2.1 o hoo

end

/-- C94, example: three values in each of three columns, every line twice, without an across column and with a threshold of 7: each of the six lines with a label has 30 triplets with another label, 7 of which are taken; all 18 rows have 42
triplets.  With a random source whose samplings end, any number of cpus, any length of the buffer of the scores, any features and distances -/
example (parse : Text → Val) (hparse : ∀ t, parse ('c' :: t) = .str (String.ofList ('c' :: t))) (k m : Nat) (feat : Nat × List (Option Val) → Nat) (dist : Nat → Nat → Nat) :
    ∃ T, fromFile Task.E0 (oneFile (addExt "data.item".toList) (rawOf parse (namedTestitems 3 3 1))) "data.item".toList "c0" [] ["c2"] [] [] = .ok T ∧
      ∃ F S, Pipeline.RanT 7 { Pipeline.choices0 (k + 1) (m + 1) with src := fun _ _ _ => Task.srcE } Task.E0 T (fun ρ => .ok (feat ρ)) (fun v w => .ok (dist v w)) (fun x y => decide (x < y)) F S ∧ ∃ rows : List OutRow,
        (∃ (f : H5IO.File Val) (first : String) (t : Text) (head : List Text), ResultFile.analyze (fun _ => []) Task.insArgsort f first F.bys F.byIndex S = .ok t ∧ Reads t (head :: rows.map (cells (fun _ => [])))) ∧
        rows.length = 18 ∧ ∀ o ∈ rows, o.n = 42 := by
  have hlt : ∀ x y : Nat, decide (x < y) = true → decide (y < x) = false := by intro x y h; simp at h ⊢; omega
  have hl := Pipeline.choices0_lawful (n := k + 1) (m := m + 1) (Nat.zero_lt_succ _)
  obtain ⟨T, hT, ⟨F, S, hr⟩, h⟩ := C94_generated_partial hparse (base := 3) (n := 3) (repeats := 1) "data.item".toList (by omega) (by omega) (by norm_num) (.inl (by norm_num)) (by norm_num) (threshold := 7) (by omega) Task.E0_lawful
    (kind := kind0 Task.E0 (plainArgs (rawOf parse (namedTestitems 3 3 1)) 3 ("item".toList :: colNames 3) "c0" [] ["c2"])) ⟨by (intro f hf; cases hf), fun _ => rfl⟩
    (c := { Pipeline.choices0 (k + 1) (m + 1) with src := fun _ _ _ => Task.srcE }) { hl with src := fun _ _ _ => Task.srcE_lawful } Task.N0_exact (Nat.zero_lt_succ _)
    (fun _ _ _ N h1 h2 => Task.srcE_ends h1 (h2.trans (by norm_num))) (getFeat := fun ρ => .ok (feat ρ)) (distance := fun v w => .ok (dist v w))
    (fun _ _ => ⟨_, rfl⟩) (fun _ _ _ _ _ _ _ _ => ⟨_, rfl⟩) 0 (lt := fun x y => decide (x < y)) hlt
  obtain ⟨f, vars, outs, -, -, ⟨first, g, o3⟩, o4, o5, -, o7, -⟩ := h F S hr
  obtain ⟨t, t1, t2⟩ := o4 (fun _ => []) (fun _ => ⟨by simp, by simp⟩) first g o3
  exact ⟨T, hT, F, S, hr, outs.flatten, ⟨f, first, t, _, t1, t2⟩, o5, o7⟩

#print axioms C94_generated_partial

end ABX.Items
