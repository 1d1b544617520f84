import Verif.Proofs.LinesThreshold
import Verif.Properties.FullRun
import Verif.Properties.GenerateThreshold
/-!
C93: the results of an experiment with a threshold, from the lines of the item file.
-/
namespace ABX.ResultFile
open ABX.Task SideOps Analyze Names Names.Spec ExtSort RegInfo Database ABX.Database.Spec ABX.Spec
variable {φ δ : Type}

section
variable {fs : Text → Option (Raw Val)} {file : Text} {r : Raw Val} {loc : List Text} {x : Text} {lab : List Text} {on : String} {across by_ : List String}

/-- C93 (partial): the results of a plain experiment with a threshold, from the lines of the item file to the text of the results.  The task, with across columns, is created from the file, and the experiment runs to its end with any
choices; for each combination of labels of A a level has at most 256 triplets.  Then the text of the results reads back as a table with, for each level that has triplets, one line for each combination of labels for which the
level has complete lines: with these labels, the level, the number of triplets of lines or the threshold if there are more, and the text of the mean score, up to 2^-52, of a sample of that many different triplets of
lines.  Tasks without across columns, where the sampling is by item, are in C94.  Missing: larger blocks (C08), and sizes as in C83. -/
theorem C93_lines_partial {e : Env} (he : e.Lawful) (hI : ItemFile fs file r loc x lab) (hs : r.rows.length ^ 3 < 2 ^ 64) {T : Task.Task (Nat × List (Option Val))}
    (h : fromFile e fs file on across by_ [] [] = .ok T) (hfew : FewLineLabels r loc x lab on across) (hn : (on :: across).Nodup) (hac : across ≠ [])
    (hw : across.length < 1249) (hp : PrintableLines r loc x lab on across by_) {kind : DBFun Nat → Kind} (hk : IsColumn e (plainArgs r (3 + loc.length) (x :: lab) on across by_) kind)
    (hz : Pipeline.Sizes (plainArgs r (3 + loc.length) (x :: lab) on across by_) T) {threshold : Nat} (hthr : 0 < threshold) {B : Nat} (hB : B ≤ 256) (hb : SmallBlocks B r loc x lab on across by_)
    {c : Pipeline.Choices} (hl : c.Lawful) (hE : c.num.Exact)
    {getFeat : Nat × List (Option Val) → Except Err φ} {distance : φ → φ → Except Err δ} {lt : δ → δ → Bool} (hlt : ∀ x y, lt x y = true → lt y x = false) {F : Task.File} {S : List Int}
    (hr : Pipeline.RanT threshold c e T getFeat distance lt F S) :
    ∃ (f : H5IO.File Val) (vars : List Var) (outs : List (List OutRow)), regFile kind groupName e c.num threshold c.src ⟨[], []⟩ T = .ok f ∧ vars.Perm (plainVars on across) ∧
      (∃ first g, f.groups.lookup first = some g) ∧
      (∀ num : ℚ → Text, (∀ q, Clean (num q)) → ∀ first g, f.groups.lookup first = some g → ∃ t, analyze num c.sortRows f first F.bys F.byIndex S = .ok t ∧
        Reads t ((vars.map (fun v => (extName v).toList) ++ ["by".toList, "score".toList, "n".toList]) :: outs.flatten.map (Names.Spec.cells num))) ∧
      F.bys.Nodup ∧ (∀ key, key ∈ F.bys ↔ (∃ p ∈ complete r (3 + loc.length), lineLevel loc x lab by_ p key) ∧
        ∃ l : Labels, l.Possible across ∧ lineGroup (lineLabel loc x lab) on across (levelLines r (3 + loc.length) (x :: lab) by_ key) l ≠ []) ∧
      List.Forall₂ (fun key out => SampledResults threshold on across vars key (lineGroup (lineLabel loc x lab) on across (levelLines r (3 + loc.length) (x :: lab) by_ key))
        (IsLineAbx lt (fun p p' => recDist getFeat distance (record (3 + loc.length) p) (record (3 + loc.length) p'))) out) F.bys outs := by
  have hO : Ops (x :: lab) on across by_ [] [] := ⟨by simp, by simp, by simp, by simp⟩
  obtain ⟨hC, -, hg⟩ := (C61_file_created_iff he hI hO hs).mp ⟨T, h⟩
  rw [fromFile_args hI hC] at h
  have ha := argsOf_ok (r := r) (3 + loc.length) hC hO hs
  have hpl : Pipeline.Plain (plainArgs r (3 + loc.length) (x :: lab) on across by_) := ⟨rfl, rfl, rfl⟩
  have hf : Spec'.KeptFirst (plainArgs r (3 + loc.length) (x :: lab) on across by_) := .of_not_bare (by intro g hg; cases hg)
  obtain ⟨hpos, hfeat, hascii, hwide, hsep, hcomb, hread⟩ := lines_ready he hI hC hg hfew hw hp hk
  obtain ⟨f, vars, outs, g1, g2, g3, -, -, g6, g7, g8, g9, g10⟩ := C91_sample_partial he ha hf h hpos hfeat (by intro f hf; cases hf) hac (fun _ h => h) hk hascii hwide hsep hcomb hz hthr
    (fun L _ => fit_lines he hI hC hfew hac hB hb threshold L.key) hl hE hlt hr
  have hv : vars.Perm (plainVars on across) := Pipeline.vars_plain he hpl hn g2 g3
  have hgrp := fun key l => group_in_lines hI hC key l
  refine ⟨f, vars, outs, g1, hv, g9, g10 hread, g6, ?_, g8.imp ?_⟩
  · intro key
    rw [g7, level_lines hI hC]
    refine and_congr_right fun _ => ⟨fun h0 => ?_, ?_⟩
    · obtain ⟨t, ht⟩ := List.exists_mem_of_ne_nil _ h0
      obtain ⟨p1, p2⟩ := Pipeline.trip_possible hpl ht
      refine ⟨_, p1, ?_⟩
      rw [hgrp]
      intro h1
      rw [List.map_eq_nil_iff] at h1
      have p3 : t ∈ group on across (Task.itemsOf (plainArgs r (3 + loc.length) (x :: lab) on across by_) key) (Pipeline.labelsOfTrip on t) := p2
      exact List.ne_nil_of_mem p3 h1
    · rintro ⟨l, p1, p2⟩
      rw [hgrp] at p2
      rw [ne_eq, List.map_eq_nil_iff] at p2
      obtain ⟨t, ht⟩ := List.exists_mem_of_ne_nil _ p2
      exact List.ne_nil_of_mem (Pipeline.group_trips hpl p1 ht)
  · rintro key out ⟨Q, abx, q1, q2, q3⟩
    refine SampledResults.transfer (lineTri (levelLines r (3 + loc.length) (x :: lab) by_ key)) (hgrp key) ?_ ?_ (Pipeline.sampled_plain he hpl hv hthr q1 q2 q3)
    · intro l t ht u hu
      obtain ⟨t1, t2, t3, -⟩ := Pipeline.mem_group.mp ht
      obtain ⟨u1, u2, u3, -⟩ := Pipeline.mem_group.mp hu
      rw [items_lines hI hC] at t1 t2 t3 u1 u2 u3
      refine lineTri_inj (g := rowOfLine (3 + loc.length) (x :: lab)) (levelLines_nodup ..) ?_ ?_
      · rintro i (rfl | rfl | rfl) <;> assumption
      · rintro i (rfl | rfl | rfl) <;> assumption
    · intro t q hq
      have hrec := records_lines hI hC key
      have hq' : IsAbx lt (recDist getFeat distance) (records by_ ((plainArgs r (3 + loc.length) (x :: lab) on across by_).db.map (·.2)) (plainArgs r (3 + loc.length) (x :: lab) on across by_).feat
        (specKey (plainArgs r (3 + loc.length) (x :: lab) on across by_) key)) t q := hq
      rw [hrec] at hq'
      exact abx_lines hq'

/-- C93 (partial): such an experiment can be carried out: the file has at most 3535 lines, the conditions of C84 and the blocks of at most 256 triplets, and the samplings end, as they do for all but exceptional random numbers (C24).
Missing as above. -/
theorem C93_ends_partial {e : Env} (he : e.Lawful) (hI : ItemFile fs file r loc x lab) (hC : Columns (x :: lab) on across by_) (hg : NoGap r (3 + loc.length)) (hN : r.rows.length ≤ 3535)
    (hfew : FewLineLabels r loc x lab on across) (hac : across ≠ []) {p : Line} (hp : p ∈ complete r (3 + loc.length)) {key : List Val} (hk : lineLevel loc x lab by_ p key) {l : Labels} (hl : l.Possible across)
    (hne : lineGroup (lineLabel loc x lab) on across (levelLines r (3 + loc.length) (x :: lab) by_ key) l ≠ [])
    (hfit : r.rows.length ≤ 128 ∨ r.rows.length ≤ (lineGroup (lineLabel loc x lab) on across (levelLines r (3 + loc.length) (x :: lab) by_ key) l).length)
    {threshold : Nat} (hthr : 0 < threshold) {B : Nat} (hB : B ≤ 256) (hb : SmallBlocks B r loc x lab on across by_) {c : Pipeline.Choices} (hc : c.Lawful) (hE : c.num.Exact) (hcpu : 0 < c.nCpu)
    (hend : ∀ key k j n, threshold < n → n ≤ B → ∃ s, Sampler.sampleWithoutReplacement threshold n (c.src key k j) = .ok s)
    {getFeat : Nat × List (Option Val) → Except Err φ} {distance : φ → φ → Except Err δ}
    (hf : ∀ p ∈ complete r (3 + loc.length), ∃ v, getFeat (record (3 + loc.length) p) = .ok v) (hd : ∀ p ∈ complete r (3 + loc.length), ∀ p' ∈ complete r (3 + loc.length), ∀ v w, getFeat (record (3 + loc.length) p) = .ok v → getFeat (record (3 + loc.length) p') = .ok w → ∃ d, distance v w = .ok d) (zero : δ) {lt : δ → δ → Bool} (hlt : ∀ x y, lt x y = true → lt y x = false) :
    ∃ T F S, fromFile e fs file on across by_ [] [] = .ok T ∧ Pipeline.Sizes (plainArgs r (3 + loc.length) (x :: lab) on across by_) T ∧ Pipeline.RanT threshold c e T getFeat distance lt F S := by
  obtain ⟨T, -, -, hT, hz, -⟩ := C84_ends_partial he hI hC hg hN hp hk hl hne hfit hc hcpu hf hd zero hlt
  have hO : Ops (x :: lab) on across by_ [] [] := ⟨by simp, by simp, by simp, by simp⟩
  have hs : r.rows.length ^ 3 < 2 ^ 64 := lt_of_le_of_lt (Nat.pow_le_pow_left hN 3) (by norm_num)
  have h := hT
  rw [fromFile_args hI hC] at h
  have ha := argsOf_ok (r := r) (3 + loc.length) hC hO hs
  have hpl : Pipeline.Plain (plainArgs r (3 + loc.length) (x :: lab) on across by_) := ⟨rfl, rfl, rfl⟩
  obtain ⟨q, hq, hqk⟩ := (level_lines hI hC key).mpr ⟨p, hp, hk⟩
  have hit : ∀ key, (Task.itemsOf (plainArgs r (3 + loc.length) (x :: lab) on across by_) key).length ≤ 3535 := by
    intro key
    rw [items_lines hI hC, List.length_map, List.length_zipIdx]
    refine le_trans ?_ hN
    unfold levelLines complete
    exact (List.length_filter_le _ _).trans ((List.length_filter_le _ _).trans (by simp))
  obtain ⟨F, S, hr⟩ := Pipeline.C79_completes_partial he ha (.of_not_bare (by intro g hg; cases hg)) h
    ⟨q, hq, by
      rw [hqk]
      rw [group_in_lines hI hC] at hne
      rw [ne_eq, List.map_eq_nil_iff] at hne
      obtain ⟨t, ht⟩ := List.exists_mem_of_ne_nil _ hne
      exact List.ne_nil_of_mem (Pipeline.group_trips hpl hl ht)⟩ (by intro g hg; cases hg) (.inl (by intro g hg; cases hg)) hz hthr
    (fun L _ => fit_lines he hI hC hfew hac hB hb threshold L.key) (.inr fun L _ => hit L.key) hc hE hcpu
    (fun L _ t _ k j n h1 h2 => hend L.key k j n h1 (h2.trans (block_lines hI hC hac hb L.key t))) (getFeat := getFeat) (distance := distance)
    (by
      intro ρ hρ
      obtain ⟨p', hp', rfl⟩ := List.mem_map.mp hρ
      exact hf p' hp')
    (by
      intro ρ hρ ρ' hρ'
      obtain ⟨p', hp', rfl⟩ := List.mem_map.mp hρ
      obtain ⟨p'', hp'', rfl⟩ := List.mem_map.mp hρ'
      exact hd p' hp' p'' hp'') zero hlt
  exact ⟨T, F, S, hT, hz, hr⟩

end

#print axioms C93_lines_partial
#print axioms C93_ends_partial

end ABX.ResultFile

namespace ABX.Items
open Database Database.Spec ABX.Spec SideOps Analyze RegInfo ABX.Names.Spec Spec
variable {φ δ : Type}

section
variable {parse : Text → Val} (hparse : ∀ t, parse ('c' :: t) = .str (String.ofList ('c' :: t))) {base n repeats : Nat}
include hparse

theorem mem_cell_named (hn : 3 ≤ n) (hb0 : 0 < base) {key : List Val} {p : Line} (hp : p ∈ levelLines (rawOf parse (namedTestitems base n repeats)) 3 ("item".toList :: colNames n) ["c2"] key) :
    ∃ d < base, ∃ d' < base, ∃ z < base, key = [named 2 z] ∧ lineLabel [] "item".toList (colNames n) p "c0" = some (named 0 d) ∧ lineLabel [] "item".toList (colNames n) p "c1" = some (named 1 d') := by
  unfold levelLines at hp
  obtain ⟨hp, hq⟩ := List.mem_filter.mp hp
  obtain ⟨i, -, -, e0, e1, e2⟩ := mem_named hparse hp hn
  refine ⟨_, Nat.mod_lt _ hb0, _, Nat.mod_lt _ hb0, i / base ^ 2 % base, Nat.mod_lt _ hb0, ?_, e0, e1⟩
  have e2' : label 3 ("item".toList :: colNames n) p.1 "c2" = some (named 2 (i / base ^ 2 % base)) := e2
  simp only [List.map_cons, List.map_nil, e2', if_neg (List.cons_ne_nil _ _), beq_iff_eq] at hq
  match key, hq with
  | [v], hq => simpa using hq.symm

/-- the blocks of the generated files -/
theorem named_blocks (hn : 3 ≤ n) (hb0 : 0 < base) : SmallBlocks ((base - 1) ^ 2 * (base ^ (n - 3) * (repeats + 1)) ^ 3) (rawOf parse (namedTestitems base n repeats)) [] "item".toList (colNames n) "c0" ["c1"] ["c2"] := by
  intro key v s
  show lineBlock (lineLabel [] "item".toList (colNames n)) "c0" ["c1"] (levelLines (rawOf parse (namedTestitems base n repeats)) 3 ("item".toList :: colNames n) ["c2"] key) v s ≤ _
  by_cases h0 : lineCell (lineLabel [] "item".toList (colNames n)) "c0" ["c1"] (levelLines (rawOf parse (namedTestitems base n repeats)) 3 ("item".toList :: colNames n) ["c2"] key) v s = []
  · unfold lineBlock
    rw [h0]
    simp
  · obtain ⟨p, hp⟩ := List.exists_mem_of_ne_nil _ h0
    obtain ⟨hp1, hp2⟩ := List.mem_filter.mp hp
    obtain ⟨a, ha, x, hx, z, hz, rfl, e0, e1⟩ := mem_cell_named hparse hn hb0 hp1
    simp only [List.all_cons, List.all_nil, Bool.and_true, Bool.and_eq_true, beq_iff_eq, e0, e1, Option.some.injEq] at hp2
    obtain ⟨rfl, hs⟩ := hp2
    have hnd : (levelLines (rawOf parse (namedTestitems base n repeats)) 3 ("item".toList :: colNames n) ["c2"] [named 2 z]).Nodup := List.Nodup.of_map _ (levelLines_nodup _ _ _ _ _)
    have hlen : ∀ d < base, ((List.range base).erase d).length = base - 1 := by
      intro d hd
      rw [List.length_erase_of_mem (by simpa using hd), List.length_range]
    have hne : ∀ {d d' : Nat}, d' < base → d' ≠ d → d' ∈ (List.range base).erase d := by
      intro d d' h1 h2
      rw [List.Nodup.mem_erase_iff List.nodup_range]
      exact ⟨h2, by simpa using h1⟩
    have hB : ((levelLines (rawOf parse (namedTestitems base n repeats)) 3 ("item".toList :: colNames n) ["c2"] [named 2 z]).filter (fun p => lineLabel [] "item".toList (colNames n) p "c0" != some (named 0 a) &&
        ["c1"].all (fun c => lineLabel [] "item".toList (colNames n) p c == some (s c)))).length ≤ (base - 1) * (base ^ (n - 3) * (repeats + 1)) := by
      have hk : (((List.range base).erase a).flatMap (fun b => lineCell (lineLabel [] "item".toList (colNames n)) "c0" ["c1"] (levelLines (rawOf parse (namedTestitems base n repeats)) 3 ("item".toList :: colNames n) ["c2"] [named 2 z]) (named 0 b) s)).length =
          (base - 1) * (base ^ (n - 3) * (repeats + 1)) := by
        rw [flatMap_const (k := base ^ (n - 3) * (repeats + 1)), hlen a ha]
        intro b hb
        exact named_cell hparse hn (by simpa using List.mem_of_mem_erase hb) hx hz hs.symm
      rw [← hk]
      refine (List.subperm_of_subset (hnd.filter _) ?_).length_le
      intro q hq
      obtain ⟨hq1, hq2⟩ := List.mem_filter.mp hq
      obtain ⟨b, hb, -, -, -, -, -, f0, -⟩ := mem_cell_named hparse hn hb0 hq1
      rw [f0] at hq2
      simp only [Bool.and_eq_true, bne_iff_ne, ne_eq, Option.some.injEq, named_iff] at hq2
      refine List.mem_flatMap.mpr ⟨b, hne hb hq2.1, List.mem_filter.mpr ⟨hq1, ?_⟩⟩
      rw [f0, Bool.and_eq_true]
      exact ⟨by simp, hq2.2⟩
    have hX : ((levelLines (rawOf parse (namedTestitems base n repeats)) 3 ("item".toList :: colNames n) ["c2"] [named 2 z]).filter (fun p => lineLabel [] "item".toList (colNames n) p "c0" == some (named 0 a) &&
        ["c1"].all (fun c => lineLabel [] "item".toList (colNames n) p c != some (s c)))).length ≤ (base - 1) * (base ^ (n - 3) * (repeats + 1)) := by
      have hk : (((List.range base).erase x).flatMap (fun y => lineCell (lineLabel [] "item".toList (colNames n)) "c0" ["c1"] (levelLines (rawOf parse (namedTestitems base n repeats)) 3 ("item".toList :: colNames n) ["c2"] [named 2 z]) (named 0 a) (fun _ => named 1 y))).length =
          (base - 1) * (base ^ (n - 3) * (repeats + 1)) := by
        rw [flatMap_const (k := base ^ (n - 3) * (repeats + 1)), hlen x hx]
        intro y hy
        exact named_cell hparse hn ha (by simpa using List.mem_of_mem_erase hy) hz rfl
      rw [← hk]
      refine (List.subperm_of_subset (hnd.filter _) ?_).length_le
      intro q hq
      obtain ⟨hq1, hq2⟩ := List.mem_filter.mp hq
      obtain ⟨-, -, y, hy, -, -, -, -, f1⟩ := mem_cell_named hparse hn hb0 hq1
      simp only [List.all_cons, List.all_nil, Bool.and_true, Bool.and_eq_true, bne_iff_ne, ne_eq, f1, ← hs, Option.some.injEq, named_iff] at hq2
      refine List.mem_flatMap.mpr ⟨y, hne hy hq2.2, List.mem_filter.mpr ⟨hq1, ?_⟩⟩
      simp only [List.all_cons, List.all_nil, Bool.and_true, f1, beq_self_eq_true]
      exact hq2.1
    unfold lineBlock
    rw [named_cell hparse hn ha hx hz hs.symm]
    calc _ ≤ (base ^ (n - 3) * (repeats + 1)) * ((base - 1) * (base ^ (n - 3) * (repeats + 1))) * ((base - 1) * (base ^ (n - 3) * (repeats + 1))) := Nat.mul_le_mul (Nat.mul_le_mul_left _ hB) hX
      _ = _ := by ring

/-- C93 (partial): generated files with a threshold (test_threshold_analyze), `base` values in each of `n` label columns and every line repeated `repeats` times: a task on 'c0' across 'c1' by 'c2' is created, the experiment can be run,
and every run gives results of `base` levels, in each of them one row for every pair of different labels of 'c0' and every pair of different labels of 'c1'.  The number of triplets is the threshold in all rows, if it is at most the
(base^(n-3) (repeats+1))^3 triplets with these labels, otherwise that number; the score is the mean of as many different triplets with these labels.  Missing: more than 256 triplets in a block, and as in C92. -/
theorem C93_generated_partial (name : Text) (hb : 2 ≤ base) (hn : 3 ≤ n) (hN : base ^ n * (repeats + 1) ≤ 3535)
    (hfit : base ^ n * (repeats + 1) ≤ 128 ∨ base ^ n * (repeats + 1) ≤ (base ^ (n - 3) * (repeats + 1)) ^ 3) (hB : (base - 1) ^ 2 * (base ^ (n - 3) * (repeats + 1)) ^ 3 ≤ 256)
    {threshold : Nat} (hthr : 0 < threshold) {e : Task.Env} (he : e.Lawful)
    {kind : DBFun Nat → Kind} (hk : IsColumn e (plainArgs (rawOf parse (namedTestitems base n repeats)) 3 ("item".toList :: colNames n) "c0" ["c1"] ["c2"]) kind)
    {c : Pipeline.Choices} (hc : c.Lawful) (hE : c.num.Exact) (hcpu : 0 < c.nCpu)
    (hend : ∀ key k j N, threshold < N → N ≤ (base - 1) ^ 2 * (base ^ (n - 3) * (repeats + 1)) ^ 3 → ∃ s, Sampler.sampleWithoutReplacement threshold N (c.src key k j) = .ok s)
    {getFeat : Nat × List (Option Val) → Except Err φ} {distance : φ → φ → Except Err δ}
    (hf : ∀ i < base ^ n * (repeats + 1), ∃ v, getFeat (lineRecord parse i) = .ok v)
    (hd : ∀ i < base ^ n * (repeats + 1), ∀ j < base ^ n * (repeats + 1), ∀ v w, getFeat (lineRecord parse i) = .ok v → getFeat (lineRecord parse j) = .ok w → ∃ d, distance v w = .ok d) (zero : δ)
    {lt : δ → δ → Bool} (hlt : ∀ x y, lt x y = true → lt y x = false) :
    ∃ T, fromFile e (oneFile (addExt name) (rawOf parse (namedTestitems base n repeats))) name "c0" ["c1"] ["c2"] [] [] = .ok T ∧ (∃ F S, Pipeline.RanT threshold c e T getFeat distance lt F S) ∧
      ∀ F S, Pipeline.RanT threshold c e T getFeat distance lt F S → ∃ (f : H5IO.File Val) (vars : List Var) (outs : List (List OutRow)),
        regFile kind ResultFile.groupName e c.num threshold c.src ⟨[], []⟩ T = .ok f ∧ vars.Perm (plainVars "c0" ["c1"]) ∧ (∃ first g, f.groups.lookup first = some g) ∧
        (∀ num : ℚ → Text, (∀ q, Clean (num q)) → ∀ first g, f.groups.lookup first = some g → ∃ t, ResultFile.analyze num c.sortRows f first F.bys F.byIndex S = .ok t ∧
          Reads t ((vars.map (fun v => (extName v).toList) ++ ["by".toList, "score".toList, "n".toList]) :: outs.flatten.map (cells num))) ∧
        outs.flatten.length = base * (base * (base - 1)) ^ 2 ∧ F.bys.Perm ((List.range base).map (fun z => [named 2 z])) ∧
        (∀ o ∈ outs.flatten, o.n = min threshold ((base ^ (n - 3) * (repeats + 1)) ^ 3)) ∧
        List.Forall₂ (fun key out => (∀ a < base, ∀ b < base, ∀ x < base, ∀ y < base, a ≠ b → x ≠ y → ∃ o ∈ out, o.labels = vars.map ((combo a b x y).at "c0")) ∧
          SampledResults threshold "c0" ["c1"] vars key (lineGroup (lineLabel [] "item".toList (colNames n)) "c0" ["c1"] (levelLines (rawOf parse (namedTestitems base n repeats)) 3 ("item".toList :: colNames n) ["c2"] key))
            (IsLineAbx lt (fun p p' => ABX.Spec.recDist getFeat distance (record 3 p) (record 3 p'))) out) F.bys outs := by
  obtain ⟨hI, hC, hg⟩ := named_file (parse := parse) name (base := base) (repeats := repeats) hn
  have hrl := named_length (parse := parse) base n repeats
  have hM0 : 0 < base ^ n * (repeats + 1) := by positivity
  have hgl := fun z (hz : z < base) => named_group hparse (repeats := repeats) hb hn hz
  have hposs : (combo 0 1 0 1).Possible ["c1"] := combo_possible.mpr ⟨by omega, by omega⟩
  have hrec : ∀ p ∈ complete (rawOf parse (namedTestitems base n repeats)) 3, ∃ v, getFeat (record 3 p) = .ok v := by
    intro p hp
    obtain ⟨i, hi, -, hr⟩ := record_named hp
    rw [hr]
    exact hf i hi
  have hdist : ∀ p ∈ complete (rawOf parse (namedTestitems base n repeats)) 3, ∀ p' ∈ complete (rawOf parse (namedTestitems base n repeats)) 3, ∀ v w,
      getFeat (record 3 p) = .ok v → getFeat (record 3 p') = .ok w → ∃ d, distance v w = .ok d := by
    intro p hp p' hp' v w
    obtain ⟨i, hi, -, hr⟩ := record_named hp
    obtain ⟨i', hi', -, hr'⟩ := record_named hp'
    rw [hr, hr']
    exact hd i hi i' hi' v w
  obtain ⟨T, F0, S0, hT, hz, hran⟩ := ResultFile.C93_ends_partial he hI hC hg (by rw [← hrl] at hN; exact hN) (named_few hN) (by simp) (named_line hM0) (named_level hparse hn 0) hposs
    (hgl _ (Nat.mod_lt _ (by omega))).2
    (by rw [← hrl] at hfit; rw [← (hgl (0 / base ^ 2 % base) (Nat.mod_lt _ (by omega))).1] at hfit; exact hfit) hthr hB (named_blocks hparse hn (by omega)) hc hE hcpu hend hrec hdist zero hlt
  refine ⟨T, hT, ⟨F0, S0, hran⟩, ?_⟩
  intro F S hr
  obtain ⟨f, vars, outs, o1, o2, o3, o4, o5, o6, o7⟩ := ResultFile.C93_lines_partial he hI
    (by rw [← hrl] at hN; exact lt_of_le_of_lt (Nat.pow_le_pow_left hN 3) (by norm_num)) hT (named_few hN) (by decide) (by simp) (by decide) (named_printable hparse hn) hk hz hthr hB (named_blocks hparse hn (by omega)) hc hE hlt hr
  have hbys : ∀ key, key ∈ F.bys ↔ ∃ z < base, key = [named 2 z] := by
    intro key
    rw [o6]
    exact named_levels hparse hb hn key
  have hperm : F.bys.Perm ((List.range base).map (fun z => [named 2 z])) := by
    rw [List.perm_ext_iff_of_nodup o5 (List.nodup_range.map (by intro a b h; simpa [named_iff] using h))]
    intro key
    rw [hbys key]
    simp [eq_comm]
  have hrow : ∀ key ∈ F.bys, ∀ out, SampledResults threshold "c0" ["c1"] vars key (lineGroup (lineLabel [] "item".toList (colNames n)) "c0" ["c1"] (levelLines (rawOf parse (namedTestitems base n repeats)) 3 ("item".toList :: colNames n) ["c2"] key))
      (IsLineAbx lt (fun p p' => ABX.Spec.recDist getFeat distance (record 3 p) (record 3 p'))) out →
      (∀ o ∈ out, ∃ a < base, ∃ b < base, ∃ x < base, ∃ y < base, a ≠ b ∧ x ≠ y ∧ o.labels = vars.map ((combo a b x y).at "c0")) ∧
      (∀ o ∈ out, o.n = min threshold ((base ^ (n - 3) * (repeats + 1)) ^ 3)) ∧
      ∀ a < base, ∀ b < base, ∀ x < base, ∀ y < base, a ≠ b → x ≠ y → ∃ o ∈ out, o.labels = vars.map ((combo a b x y).at "c0") := by
    intro key hkey out R
    obtain ⟨z, hz', rfl⟩ := (hbys key).mp hkey
    have hr0 : ∀ o ∈ out, ∃ a < base, ∃ b < base, ∃ x < base, ∃ y < base, (a ≠ b ∧ x ≠ y ∧ o.labels = vars.map ((combo a b x y).at "c0")) ∧ o.n = min threshold ((base ^ (n - 3) * (repeats + 1)) ^ 3) := by
      intro o ho
      obtain ⟨l, hl, hne, row⟩ := R.rows o ho
      obtain ⟨a, ha, b, hb', x, hx, y, hy, e1, e2, e3, e4⟩ := group_combo hparse hn (by omega) hne
      have hlen := combo_group hparse (repeats := repeats) hn ha hb' hx hy hz' e1 e2 e3 e4
      refine ⟨a, ha, b, hb', x, hx, y, hy, ⟨?_, ?_, row.labels.trans (at_congr o2 e1 e2 e3 e4)⟩, row.n.trans (by rw [hlen])⟩
      · rintro rfl; exact hl.1 (e1.trans e2.symm)
      · rintro rfl; exact hl.2 "c1" (by simp) (e3.trans e4.symm)
    refine ⟨fun o ho => ?_, fun o ho => ?_, ?_⟩
    · obtain ⟨a, ha, b, hb', x, hx, y, hy, h, -⟩ := hr0 o ho
      exact ⟨a, ha, b, hb', x, hx, y, hy, h⟩
    · obtain ⟨a, ha, b, hb', x, hx, y, hy, -, h⟩ := hr0 o ho
      exact h
    · intro a ha b hb' x hx y hy hab hxy
      have hlen := combo_group hparse (repeats := repeats) hn ha hb' hx hy hz' (l := combo a b x y) rfl rfl rfl rfl
      have hK : 0 < (base ^ (n - 3) * (repeats + 1)) ^ 3 := by positivity
      obtain ⟨o, ho, row⟩ := R.all (combo a b x y) (combo_possible.mpr ⟨hab, hxy⟩) (by intro h0; rw [h0] at hlen; simp at hlen; omega)
      exact ⟨o, ho, row.labels⟩
  refine ⟨f, vars, outs, o1, o2, o3, o4, ?_, hperm, ?_, forall₂_imp_mem o7 fun key hkey out R => ⟨(hrow key hkey out R).2.2, R⟩⟩
  · have hlen : F.bys.length = base := by rw [hperm.length_eq, List.length_map, List.length_range]
    have hsum : ∀ {ks : List (List Val)} {os : List (List OutRow)} {P : List Val → List OutRow → Prop}, List.Forall₂ P ks os → (∀ k o, P k o → o.length = (base * (base - 1)) ^ 2) →
        os.flatten.length = ks.length * (base * (base - 1)) ^ 2 := by
      intro ks os P h hP
      induction h with
      | nil => simp
      | cons h1 _ ih => rw [List.flatten_cons, List.length_append, hP _ _ h1, ih, List.length_cons, Nat.succ_mul, Nat.add_comm]
    rw [hsum (forall₂_imp_mem o7 fun key hkey out R => count_rows o2 R.once (hrow key hkey out R).1 (hrow key hkey out R).2.2) (fun _ _ h => h), hlen]
  · intro o ho
    obtain ⟨out, hout, hoo⟩ := List.mem_flatten.mp ho
    obtain ⟨key, hkey, R⟩ := Task.forall₂_mem_right o7 out hout
    exact (hrow key hkey out R).2.1 o hoo

end

/-- C93, example: the data of test_threshold_analyze, three values in each of three columns, every line twice, and a threshold of 2: all 108 rows have 2 triplets; with a threshold of 8 or more, 8.
With a random source whose samplings end, any number of cpus, any length of the buffer of the scores, any features and distances -/
example (parse : Text → Val) (hparse : ∀ t, parse ('c' :: t) = .str (String.ofList ('c' :: t))) (k m : Nat) (feat : Nat × List (Option Val) → Nat) (dist : Nat → Nat → Nat) (threshold : Nat) (hthr : 0 < threshold) :
    ∃ T, fromFile Task.E0 (oneFile (addExt "data.item".toList) (rawOf parse (namedTestitems 3 3 1))) "data.item".toList "c0" ["c1"] ["c2"] [] [] = .ok T ∧
      ∃ F S, Pipeline.RanT threshold { Pipeline.choices0 (k + 1) (m + 1) with src := fun _ _ _ => Task.srcE } Task.E0 T (fun ρ => .ok (feat ρ)) (fun v w => .ok (dist v w)) (fun x y => decide (x < y)) F S ∧ ∃ rows : List OutRow,
        (∃ (f : H5IO.File Val) (first : String) (t : Text) (head : List Text), ResultFile.analyze (fun _ => []) Task.insArgsort f first F.bys F.byIndex S = .ok t ∧ Reads t (head :: rows.map (cells (fun _ => [])))) ∧
        rows.length = 108 ∧ ∀ o ∈ rows, o.n = min threshold 8 := by
  have hlt : ∀ x y : Nat, decide (x < y) = true → decide (y < x) = false := by intro x y h; simp at h ⊢; omega
  have hl := Pipeline.choices0_lawful (n := k + 1) (m := m + 1) (Nat.zero_lt_succ _)
  obtain ⟨T, hT, ⟨F, S, hr⟩, h⟩ := C93_generated_partial hparse (base := 3) (n := 3) (repeats := 1) "data.item".toList (by omega) (by omega) (by norm_num) (.inl (by norm_num)) (by norm_num) hthr Task.E0_lawful
    (kind := kind0 Task.E0 (plainArgs (rawOf parse (namedTestitems 3 3 1)) 3 ("item".toList :: colNames 3) "c0" ["c1"] ["c2"])) ⟨by (intro f hf; cases hf), fun _ => rfl⟩
    (c := { Pipeline.choices0 (k + 1) (m + 1) with src := fun _ _ _ => Task.srcE }) { hl with src := fun _ _ _ => Task.srcE_lawful } Task.N0_exact (Nat.zero_lt_succ _)
    (fun _ _ _ N h1 h2 => Task.srcE_ends h1 (h2.trans (by norm_num))) (getFeat := fun ρ => .ok (feat ρ)) (distance := fun v w => .ok (dist v w))
    (fun _ _ => ⟨_, rfl⟩) (fun _ _ _ _ _ _ _ _ => ⟨_, rfl⟩) 0 (lt := fun x y => decide (x < y)) hlt
  obtain ⟨f, vars, outs, -, -, ⟨first, g, o3⟩, o4, o5, -, o7, -⟩ := h F S hr
  obtain ⟨t, t1, t2⟩ := o4 (fun _ => []) (fun _ => ⟨by simp, by simp⟩) first g o3
  exact ⟨T, hT, F, S, hr, outs.flatten, ⟨f, first, t, _, t1, t2⟩, o5, o7⟩

#print axioms C93_generated_partial

end ABX.Items
