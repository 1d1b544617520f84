import Verif.Proofs.ResultTask
import Verif.Properties.Names
import Verif.Properties.Lines
import Verif.Properties.Threshold
/-!
C91: the text of the results, as `analyze` makes it from the task file and the score file.
-/
namespace ABX.ResultFile
open Database (Text)
open ExtSort ABX.Task SideOps RegInfo Analyze Names.Spec
variable {ρ φ δ : Type}

/-! ### the groups of the levels -/

/-- the 'by' labels make separate groups: they have no slash, they are neither empty nor a dot, and those of a single column are all integers or all strings -/
structure Separate (a : Args ρ) : Prop where
  kinds : ∀ c, a.by_ = [c] → ∀ p ∈ a.db, ∀ q ∈ a.db, SameKind (p.2 c) (q.2 c)
  slash : ∀ c ∈ a.by_, ∀ p ∈ a.db, NoSlash (p.2 c)
  nameable : ∀ c ∈ a.by_, ∀ p ∈ a.db, Nameable (p.2 c)

/-- no tabs and ends of line in the names and labels of the regressors, and in the labels of a single 'by' column -/
structure Readable (e : Env) (a : Args ρ) : Prop where
  names : ∀ v, columnReg e a.db v ∈ allRegs e a → Clean v.1.toList
  labels : ∀ v, columnReg e a.db v ∈ allRegs e a → ∀ p ∈ a.db, CleanVal (p.2 v.1)
  by_ : ∀ c, a.by_ = [c] → ∀ p ∈ a.db, CleanVal (p.2 c)

theorem groupName_plain {key : List Val} (h1 : ∀ v ∈ key, NoSlash v) (h2 : ∀ v ∈ key, Nameable v) : groupName key = String.ofList ("regressors/".toList ++ Names.keyName key) := by
  unfold groupName
  rw [Names.C74_place_partial key h1 h2]
  rfl

theorem levelKey_mem {a : Args ρ} {p : Row} {v : Val} (hv : v ∈ levelKey a p) : v = .int 0 ∨ ∃ c ∈ a.by_, v = p c := by
  unfold levelKey at hv
  split at hv
  · left; simpa using hv
  · obtain ⟨c, hc, rfl⟩ := List.mem_map.mp hv
    exact .inr ⟨c, hc, rfl⟩

/-- levels whose labels make separate groups -/
theorem groups_nodup {e : Env} (he : e.Lawful) {a : Args ρ} (ha : a.OK) {T : Task.Task ρ} (h : Task.init e a = .ok T) (hs : Separate a) : (T.levels.map (fun L => groupName L.key)).Nodup := by
  have h1 : ∀ L ∈ T.levels, ∀ v ∈ L.key, NoSlash v ∧ Nameable v := by
    intro L hL v hv
    obtain ⟨p, hp, hk⟩ := Database.level_key_db he ha h hL
    rw [← hk] at hv
    rcases levelKey_mem hv with rfl | ⟨c, hc, rfl⟩
    · exact ⟨trivial, trivial⟩
    · exact ⟨hs.slash c hc p hp, hs.nameable c hc p hp⟩
  have hn : (T.levels.map (·.key)).Nodup := init_keys_nodup he ha h
  rw [show T.levels.map (fun L => groupName L.key) = (T.levels.map (·.key)).map groupName by rw [List.map_map]; rfl]
  refine hn.map_on ?_
  intro k1 hk1 k2 hk2 heq
  obtain ⟨L1, hL1, rfl⟩ := List.mem_map.mp hk1
  obtain ⟨L2, hL2, rfl⟩ := List.mem_map.mp hk2
  rw [groupName_plain (fun v hv => (h1 L1 hL1 v hv).1) (fun v hv => (h1 L1 hL1 v hv).2), groupName_plain (fun v hv => (h1 L2 hL2 v hv).1) (fun v hv => (h1 L2 hL2 v hv).2)] at heq
  have heq' := List.append_cancel_left (String.ofList_injective heq)
  obtain ⟨p1, hp1, hk1⟩ := Database.level_key_db he ha h hL1
  obtain ⟨p2, hp2, hk2⟩ := Database.level_key_db he ha h hL2
  refine Names.C74_distinct_partial _ _ ?_ ?_ heq'
  · rw [← hk1, ← hk2]
    unfold levelKey
    split <;> simp
  · rw [← hk1, ← hk2]
    unfold levelKey
    split
    · intro _; exact .cons .int .nil
    · rename_i hb
      intro hl
      rw [List.length_map] at hl
      obtain ⟨c, hc⟩ := List.length_eq_one_iff.mp hl
      rw [hc]
      exact .cons (hs.kinds c hc _ hp1 _ hp2) .nil

theorem extName_clean {v : Var} (h : Clean v.1.toList) : Clean (extName v).toList := by
  obtain ⟨c, r⟩ := v
  have h1 : (extName (c, r)).toList = c.toList ++ (suffix r).toList := by unfold extName; simp
  rw [h1]
  have h2 : Clean (suffix r).toList := by cases r <;> (constructor <;> decide)
  exact ⟨by simp only [List.mem_append, not_or]; exact ⟨h.1, h2.1⟩, by simp only [List.mem_append, not_or]; exact ⟨h.2, h2.2⟩⟩

/-- the text for a table -/
theorem reads_table {num : ℚ → Text} (hnum : ∀ q, Clean (num q)) {names : List Text} {rows : List OutRow} (hn : ∀ n ∈ names, Clean n) (hl : ∀ o ∈ rows, ∀ v ∈ o.labels, CleanVal v)
    (hb : ∀ o ∈ rows, o.by_.length = 1 → ∀ v ∈ o.by_, CleanVal v) :
    Reads (Names.header names ++ rows.flatMap (Names.line num)) ((names ++ ["by".toList, "score".toList, "n".toList]) :: rows.map (Names.Spec.cells num)) := by
  constructor
  · have hh : Names.header names = (names.flatMap (· ++ ['\t']) ++ "by\tscore\tn".toList) ++ ['\n'] := by
      unfold Names.header; rw [List.append_assoc]; rfl
    rw [hh]
    refine .cons (Names.lineOf_header names) ?_
    exact Names.lines_flatMap (Names.Spec.cells num) (fun r => Names.join (Names.Spec.cells num r)) rows (fun r _ => Names.lineOf_join _ (by simp [Names.Spec.cells]))
  · intro row hrow c hcell
    rcases List.mem_cons.mp hrow with rfl | hrow
    · rcases List.mem_append.mp hcell with hcell | hcell
      · exact hn c hcell
      · simp only [List.mem_cons, List.not_mem_nil, or_false] at hcell
        rcases hcell with rfl | rfl | rfl <;> (constructor <;> decide)
    · obtain ⟨o, ho, rfl⟩ := List.mem_map.mp hrow
      rcases List.mem_append.mp hcell with hcell | hcell
      · obtain ⟨v, hv, rfl⟩ := List.mem_map.mp hcell
        exact Names.str_clean v (hl o ho v hv)
      · simp only [List.mem_cons, List.not_mem_nil, or_false] at hcell
        rcases hcell with rfl | rfl | rfl
        · exact Names.keyName_clean _ (hb o ho)
        · exact hnum _
        · exact Names.decimal_clean _

/-- the labels of a triplet are labels of the database -/
theorem sem_db {e : Env} (he : e.Lawful) {a : Args ρ} {key : List Val} {t : Tri} (ht : t ∈ tripsSpec a key) (v : Var) : ∃ p ∈ a.db, ABX.Spec.sem a.cols t.1.2 t.2.1.2 t.2.2.2 v = p.2 v.1 := by
  obtain ⟨p, hp, h⟩ := (mem_ixOf he).mp (List.mem_of_getElem? (ixOf_value he ht v))
  exact ⟨p, hp, h.symm⟩

/-- `file_results`, and the text -/
theorem file_text {e : Env} (he : e.Lawful) {a : Args ρ} (ha : a.OK) (hf : Spec'.KeptFirst a) {T : Task.Task ρ} (h : Task.init e a = .ok T)
    (hpos : ∀ (i : Nat) (p : Nat × Row), a.db[i]? = some p → p.1 = i) (hfeat : a.feat.length = a.db.length)
    (hA : (∀ f ∈ a.regressors, ABX.Spec.readsA a.cols f = false) ∨ (T.filters.ops .ABX ≠ [] ∧ a.on ∈ a.cols.on ∧ a.on ∉ a.cols.by_))
    {kind : DBFun Nat → Kind} (hc : IsColumn e a kind) (hascii : Ascii e a) (hw : (allRegs e a).length < 2500) (hsep : Separate a) (hfew : FewCombinations e a)
    (hz : Pipeline.Sizes a T) {threshold : Nat} {c : Pipeline.Choices} (hl : c.Lawful)
    {getFeat : ρ → Except Err φ} {distance : φ → φ → Except Err δ} {lt : δ → δ → Bool} (hlt : ∀ x y, lt x y = true → lt y x = false) {F : Task.File} {S : List Int}
    (hr : Pipeline.RanT threshold c e T getFeat distance lt F S) (hS : Pairs.Small e T F) :
    ∃ (f : H5IO.File Val) (vars : List Var) (outs : List (List OutRow)), regFile kind groupName e c.num threshold c.src ⟨[], []⟩ T = .ok f ∧
      vars = uniq (Pipeline.varsOf (colRegs T.regressors)) ∧ vars.Nodup ∧ (∀ v, v ∈ vars ↔ columnReg e a.db v ∈ allRegs e a) ∧ (vars.map extName).Nodup ∧
      collapse c.sortRows f F.bys F.byIndex S = .ok outs.flatten ∧ F.bys.Nodup ∧ (∀ key ∈ F.bys, ∃ L ∈ T.levels, L.key = key) ∧
      List.Forall₂ (fun key out => ∃ (Q : List Tri) (abx : Tri → ℚ), (∀ t ∈ Q, t ∈ tripsSpec a key) ∧ (threshold = 0 → Q.Perm (tripsSpec a key)) ∧
        Sampled e c.num threshold a key Q ∧
        (∀ t ∈ Q, ABX.Spec.IsAbx lt (ABX.Spec.recDist getFeat distance) (ABX.Spec.records a.by_ (a.db.map (·.2)) a.feat (specKey a key)) t (abx t)) ∧
        ∀ Q' : List Tri, Q.Perm Q' → ABX.Spec.LabelResults (fun t => vars.map (fun v => ABX.Spec.sem a.cols t.1.2 t.2.1.2 t.2.2.2 v)) key abx Q' out) F.bys outs ∧
      (vars = Pipeline.varsOf (colRegs T.regressors) → collapse c.sortRows f F.bys F.byIndex S = Analyze.collapse c.sortRows (vars.map (ixOf e a)) F S) ∧
      (∃ first g, f.groups.lookup first = some g) ∧
      (Readable e a → ∀ num : ℚ → Text, (∀ q, Clean (num q)) → ∀ first g, f.groups.lookup first = some g →
        ∃ t, analyze num c.sortRows f first F.bys F.byIndex S = .ok t ∧
          Reads t ((vars.map (fun v => (extName v).toList) ++ ["by".toList, "score".toList, "n".toList]) :: outs.flatten.map (Names.Spec.cells num))) := by
  obtain ⟨f, vars, outs, g1, g2, g3, g4, g5, g6, g7, g8, g9, g10, g11, g12⟩ := file_results he ha hf h hpos hfeat hA hc hascii hw (groups_nodup he ha h hsep) hfew hz hl hlt hr hS
  refine ⟨f, vars, outs, g1, g2, g3, g4, g5, g8, g9, g10, g11, g12, ?_, ?_⟩
  · have hbne : F.bys ≠ [] := by
      obtain ⟨-, P, jobs, load, zero, s, -, hj, -⟩ := hr
      intro h0
      rw [h0] at hj
      cases hj
    obtain ⟨key, hk⟩ := List.exists_mem_of_ne_nil _ hbne
    obtain ⟨L, hL, -⟩ := g10 key hk
    exact ⟨_, g7 L hL⟩
  · intro hread num hnum first g hg
    refine ⟨_, by unfold analyze; rw [g6 first g hg, g8], ?_⟩
    have hrow : ∀ o ∈ outs.flatten, (∃ L ∈ T.levels, o.by_ = L.key) ∧ ∃ key, ∃ t ∈ tripsSpec a key, o.labels = vars.map (fun v => ABX.Spec.sem a.cols t.1.2 t.2.1.2 t.2.2.2 v) := by
      intro o ho
      obtain ⟨out, hout, ho⟩ := List.mem_flatten.mp ho
      obtain ⟨key, hk, Q, abx, q1, -, -, -, q5⟩ := forall₂_mem_right g11 out hout
      have R := q5 Q (.refl _)
      obtain ⟨L, hL, hLk⟩ := g10 key hk
      obtain ⟨t, ht, hlab⟩ := (R.all o.labels).mp ⟨o, ho, rfl⟩
      exact ⟨⟨L, hL, by rw [R.by_ o ho, hLk]⟩, key, t, q1 t ht, hlab.symm⟩
    have hm : (vars.map extName).map String.toList = vars.map (fun v => (extName v).toList) := by rw [List.map_map]; rfl
    rw [hm]
    refine reads_table hnum ?_ ?_ ?_
    · intro n hn
      obtain ⟨v, hv, rfl⟩ := List.mem_map.mp hn
      exact extName_clean (hread.names v ((g4 v).mp hv))
    · intro o ho v hv
      obtain ⟨-, key, t, ht, hlab⟩ := hrow o ho
      rw [hlab] at hv
      obtain ⟨w, hw, rfl⟩ := List.mem_map.mp hv
      obtain ⟨p, hp, hs⟩ := sem_db he ht w
      rw [hs]
      exact hread.labels w ((g4 w).mp hw) p hp
    · intro o ho hlen v hv
      obtain ⟨⟨L, hL, hk⟩, -⟩ := hrow o ho
      obtain ⟨p, hp, hkp⟩ := Database.level_key_db he ha h hL
      rw [hk, ← hkp] at hlen hv
      rcases levelKey_mem hv with rfl | ⟨c, hc', rfl⟩
      · trivial
      · unfold levelKey at hlen
        rw [if_neg (by intro h0; rw [h0] at hc'; cases hc'), List.length_map] at hlen
        obtain ⟨c', hc2⟩ := List.length_eq_one_iff.mp hlen
        rw [hc2, List.mem_singleton] at hc'
        subst hc'
        exact hread.by_ _ hc2 p hp

/-! ### C91 -/

/-- C91 (partial): an experiment of a task with regressors that are columns, run to its end with any choices, without threshold.  The names, the indexes and the values of the regressors are written to the task file, in which a regressor
given twice is stored once.  Read from this file, the rows of the results are, for each level that has triplets, one row for each combination of labels that a triplet of the level has, with the number of these triplets and, up to 2^-52,
the mean of their scores.  If the labels and names have no tab and no end of line, the text of the results begins, whatever group of the file is listed first, with the names of the regressors in the order of the labels, and reads back
as these rows.
Missing: 'by' labels with slashes or of mixed kinds (C74), names and labels that are not ASCII (C89), scripts as regressors (C89), sizes as in C77. -/
theorem C91_results_partial {e : Env} (he : e.Lawful) {a : Args ρ} (ha : a.OK) (hf : Spec'.KeptFirst a) {T : Task.Task ρ} (h : Task.init e a = .ok T)
    (hpos : ∀ (i : Nat) (p : Nat × Row), a.db[i]? = some p → p.1 = i) (hfeat : a.feat.length = a.db.length)
    (hA : (∀ f ∈ a.regressors, ABX.Spec.readsA a.cols f = false) ∨ (T.filters.ops .ABX ≠ [] ∧ a.on ∈ a.cols.on ∧ a.on ∉ a.cols.by_))
    {kind : DBFun Nat → Kind} (hc : IsColumn e a kind) (hascii : Ascii e a) (hw : (allRegs e a).length < 2500) (hsep : Separate a) (hfew : FewCombinations e a)
    (hz : Pipeline.Sizes a T) {c : Pipeline.Choices} (hl : c.Lawful)
    {getFeat : ρ → Except Err φ} {distance : φ → φ → Except Err δ} {lt : δ → δ → Bool} (hlt : ∀ x y, lt x y = true → lt y x = false) {F : Task.File} {S : List Int}
    (hr : Pipeline.Ran c e T getFeat distance lt F S) :
    ∃ (f : H5IO.File Val) (vars : List Var) (outs : List (List OutRow)), regFile kind groupName e c.num 0 c.src ⟨[], []⟩ T = .ok f ∧
      vars.Nodup ∧ (∀ v, v ∈ vars ↔ columnReg e a.db v ∈ allRegs e a) ∧ (vars.map extName).Nodup ∧
      collapse c.sortRows f F.bys F.byIndex S = .ok outs.flatten ∧ F.bys.Nodup ∧ (∀ key, key ∈ F.bys ↔ (∃ p ∈ a.db, levelKey a p.2 = key) ∧ tripsSpec a key ≠ []) ∧
      List.Forall₂ (fun key out => ∃ abx : Tri → ℚ,
        (∀ t ∈ tripsSpec a key, ABX.Spec.IsAbx lt (ABX.Spec.recDist getFeat distance) (ABX.Spec.records a.by_ (a.db.map (·.2)) a.feat (specKey a key)) t (abx t)) ∧
        ABX.Spec.LabelResults (fun t => vars.map (fun v => ABX.Spec.sem a.cols t.1.2 t.2.1.2 t.2.2.2 v)) key abx (tripsSpec a key) out) F.bys outs ∧
      (∃ first g, f.groups.lookup first = some g) ∧
      (Readable e a → ∀ num : ℚ → Text, (∀ q, Clean (num q)) → ∀ first g, f.groups.lookup first = some g →
        ∃ t, analyze num c.sortRows f first F.bys F.byIndex S = .ok t ∧
          Reads t ((vars.map (fun v => (extName v).toList) ++ ["by".toList, "score".toList, "n".toList]) :: outs.flatten.map (Names.Spec.cells num))) := by
  obtain ⟨f, vars, outs, g1, -, g3, g4, g5, g8, g9, -, g11, -, g13, g14⟩ := file_text he ha hf h hpos hfeat hA hc hascii hw hsep hfew hz hl hlt hr (Pipeline.small_of he ha hf h hz hl.num hl.bl1 hl.bl2 hr.file)
  obtain ⟨total, t, tb, bouts, K⟩ := generate_ok hl.bl1 hl.bl2 hr.file
  refine ⟨f, vars, outs, g1, g3, g4, g5, g8, g9, Pipeline.mem_bys he ha hf h hl.num hl.src K, g11.imp ?_, g13, g14⟩
  rintro key out ⟨Q, abx, -, q2, -, q4, q5⟩
  exact ⟨abx, fun t ht => q4 t ((q2 rfl).mem_iff.mpr ht), q5 _ (q2 rfl)⟩

/-- C91 (partial): the same with a threshold, for tasks with across columns whose groups fit (C79): the rows are those of a sample of the triplets that has, for each combination of labels of the regressors, `threshold` triplets or all
of them.  Missing as above and in C79. -/
theorem C91_sample_partial {e : Env} (he : e.Lawful) {a : Args ρ} (ha : a.OK) (hf : Spec'.KeptFirst a) {T : Task.Task ρ} (h : Task.init e a = .ok T)
    (hpos : ∀ (i : Nat) (p : Nat × Row), a.db[i]? = some p → p.1 = i) (hfeat : a.feat.length = a.db.length)
    (hA : ∀ f ∈ a.regressors, ABX.Spec.readsA a.cols f = false) (hac : a.across ≠ []) (hsub : ∀ c ∈ a.across, c ∈ a.cols.across)
    {kind : DBFun Nat → Kind} (hc : IsColumn e a kind) (hascii : Ascii e a) (hw : (allRegs e a).length < 2500) (hsep : Separate a) (hfew : FewCombinations e a)
    (hz : Pipeline.Sizes a T) {threshold : Nat} (hthr : 0 < threshold) (hG : ∀ L ∈ T.levels, GroupFit threshold a.cols a.on a.across (allRegs e a) (tripsSpec a L.key))
    {c : Pipeline.Choices} (hl : c.Lawful) (hE : c.num.Exact)
    {getFeat : ρ → Except Err φ} {distance : φ → φ → Except Err δ} {lt : δ → δ → Bool} (hlt : ∀ x y, lt x y = true → lt y x = false) {F : Task.File} {S : List Int}
    (hr : Pipeline.RanT threshold c e T getFeat distance lt F S) :
    ∃ (f : H5IO.File Val) (vars : List Var) (outs : List (List OutRow)), regFile kind groupName e c.num threshold c.src ⟨[], []⟩ T = .ok f ∧
      vars.Nodup ∧ (∀ v, v ∈ vars ↔ columnReg e a.db v ∈ allRegs e a) ∧ (vars.map extName).Nodup ∧
      collapse c.sortRows f F.bys F.byIndex S = .ok outs.flatten ∧ F.bys.Nodup ∧ (∀ key, key ∈ F.bys ↔ (∃ p ∈ a.db, levelKey a p.2 = key) ∧ tripsSpec a key ≠ []) ∧
      List.Forall₂ (fun key out => ∃ (Q : List Tri) (abx : Tri → ℚ),
        ABX.Spec.LabelSampled threshold (fun t => vars.map (fun v => ABX.Spec.sem a.cols t.1.2 t.2.1.2 t.2.2.2 v)) (tripsSpec a key) Q ∧
        (∀ t ∈ Q, ABX.Spec.IsAbx lt (ABX.Spec.recDist getFeat distance) (ABX.Spec.records a.by_ (a.db.map (·.2)) a.feat (specKey a key)) t (abx t)) ∧
        ABX.Spec.LabelResults (fun t => vars.map (fun v => ABX.Spec.sem a.cols t.1.2 t.2.1.2 t.2.2.2 v)) key abx Q out) F.bys outs ∧
      (∃ first g, f.groups.lookup first = some g) ∧
      (Readable e a → ∀ num : ℚ → Text, (∀ q, Clean (num q)) → ∀ first g, f.groups.lookup first = some g →
        ∃ t, analyze num c.sortRows f first F.bys F.byIndex S = .ok t ∧
          Reads t ((vars.map (fun v => (extName v).toList) ++ ["by".toList, "score".toList, "n".toList]) :: outs.flatten.map (Names.Spec.cells num))) := by
  obtain ⟨f, vars, outs, g1, -, g3, g4, g5, g8, g9, g10, g11, -, g13, g14⟩ := file_text he ha hf h hpos hfeat (.inl hA) hc hascii hw hsep hfew hz hl hlt hr
    (Pipeline.small_ofT he ha hf h hz hl.num hE hG hl.src hl.bl1 hl.bl2 hr.file)
  obtain ⟨total, t, tb, bouts, K⟩ := generate_ok hl.bl1 hl.bl2 hr.file
  refine ⟨f, vars, outs, g1, g3, g4, g5, g8, g9, Pipeline.mem_bysT he ha hf h hl.num hE hG hl.src K, ?_, g13, g14⟩
  have hcol := allRegs_columns hc.1
  have hmem : List.Forall₂ (fun (key : List Val) (out : List OutRow) => key ∈ F.bys ∧ _) F.bys outs := (List.forall₂_and_left F.bys outs).mpr ⟨fun k hk => hk, g11⟩
  refine hmem.imp ?_
  rintro key out ⟨hk, Q, abx, q1, -, q3, q4, q5⟩
  obtain ⟨L, hL, rfl⟩ := g10 key hk
  obtain ⟨n1, n2⟩ := q3.fit hE (hG L hL)
  refine ⟨Q, abx, ⟨n1, q1, fun c => ?_⟩, q4, q5 _ (.refl _)⟩
  have hgrp : ∀ u ∈ tripsSpec a L.key, ∀ w ∈ tripsSpec a L.key, ABX.Spec.sameGroup a.cols a.on a.across (allRegs e a) u w =
      (vars.map (fun v => ABX.Spec.sem a.cols w.1.2 w.2.1.2 w.2.2.2 v) == vars.map (fun v => ABX.Spec.sem a.cols u.1.2 u.2.1.2 u.2.2.2 v)) := by
    intro u hu w hw
    rw [Bool.eq_iff_iff, beq_iff_eq, Pipeline.sameGroup_iff he ha h hL hA hac hsub (.refl _) hu hw, List.map_inj_left, List.map_inj_left]
    constructor
    · intro heq v hv
      have e1 := ixOf_value he hu v
      rw [← heq _ ((g4 v).mp hv), ixOf_value he hw v] at e1
      exact Option.some.inj e1
    · intro heq f hf
      obtain ⟨v, rfl⟩ := hcol f hf
      have e1 := ixOf_value he hu v
      rw [← heq _ ((g4 v).mpr hf), ← ixOf_value he hw v] at e1
      exact ((List.getElem?_inj (List.getElem?_eq_some_iff.mp (ixOf_value he hu v)).1 (ixOf_nodup he a v)).mp e1).symm
  by_cases hv : ∃ u ∈ tripsSpec a L.key, vars.map (fun v => ABX.Spec.sem a.cols u.1.2 u.2.1.2 u.2.2.2 v) = c
  · obtain ⟨u, hu, rfl⟩ := hv
    have := n2 u hu
    rw [List.filter_congr (fun w hw => hgrp u hu w (q1 w hw)), List.filter_congr (hgrp u hu), keepCount, if_neg (by omega)] at this
    exact this
  · have e1 : ∀ w ∈ tripsSpec a L.key, (vars.map (fun v => ABX.Spec.sem a.cols w.1.2 w.2.1.2 w.2.2.2 v) == c) = false := by
      intro w hw
      rw [beq_eq_false_iff_ne]
      exact fun h0 => hv ⟨w, hw, h0⟩
    rw [List.filter_congr (fun w hw => e1 w (q1 w hw)), List.filter_congr e1]
    simp

section Lines
open Database ABX.Database.Spec ABX.Spec
variable {fs : Text → Option (Raw Val)} {file : Text} {r : Raw Val} {loc : List Text} {x : Text} {lab : List Text} {on : String} {across by_ : List String}

/-- what the labels of the lines of an item file must be for the results to be readable: ASCII without tabs and ends of line in the 'on' and 'across' columns and in their names;
in the 'by' columns no slashes, no empty label, no dot, and in a single 'by' column all integers or all strings, without tabs and ends of line -/
structure PrintableLines (r : Raw Val) (loc : List Text) (x : Text) (lab : List Text) (on : String) (across by_ : List String) : Prop where
  names : ∀ c ∈ on :: across, Clean c.toList ∧ ∀ ch ∈ c.toList, ch.toNat < 128
  labels : ∀ c ∈ on :: across, ∀ p ∈ complete r (3 + loc.length), ∀ v, lineLabel loc x lab p c = some v → CleanVal v ∧ ∀ s, v = .str s → ∀ ch ∈ s.toList, ch.toNat < 128
  bys : ∀ c ∈ by_, ∀ p ∈ complete r (3 + loc.length), ∀ v, lineLabel loc x lab p c = some v → NoSlash v ∧ Nameable v
  single : ∀ c, by_ = [c] → ∀ p ∈ complete r (3 + loc.length), ∀ v, lineLabel loc x lab p c = some v →
    CleanVal v ∧ ∀ q ∈ complete r (3 + loc.length), ∀ w, lineLabel loc x lab q c = some w → SameKind v w

theorem plain_regs {e : Env} (he : e.Lawful) {v : Var} (h : columnReg e (plainArgs r (3 + loc.length) (x :: lab) on across by_).db v ∈ allRegs e (plainArgs r (3 + loc.length) (x :: lab) on across by_)) :
    v.1 ∈ on :: across := by
  unfold allRegs defaultRegs at h
  have hin : ∀ {u w : Var}, columnReg e (plainArgs r (3 + loc.length) (x :: lab) on across by_).db u = columnReg e (plainArgs r (3 + loc.length) (x :: lab) on across by_).db w → u = w := by
    intro u w h
    have := congrArg DBFun.inputs h
    simpa [columnReg] using this
  rcases List.mem_append.mp h with h | h
  · cases h
  · rcases List.mem_append.mp h with h | h
    · simp only [List.mem_cons, List.not_mem_nil, or_false] at h
      rcases h with h | h <;> (rw [hin h]; exact List.mem_cons_self)
    · obtain ⟨c, hc, h⟩ := List.mem_flatMap.mp h
      have hc' := (he.names _).mem_iff.mp hc
      simp only [List.mem_cons, List.not_mem_nil, or_false] at h
      rcases h with h | h <;> (rw [hin h]; exact List.mem_cons_of_mem _ hc')

/-- what `C91_results_partial` and `C91_sample_partial` require of the arguments, for the lines of an item file -/
theorem lines_ready {e : Env} (he : e.Lawful) (hI : ItemFile fs file r loc x lab) (hC : Columns (x :: lab) on across by_) (hg : NoGap r (3 + loc.length)) (hfew : FewLineLabels r loc x lab on across)
    (hw : across.length < 1249) (hp : PrintableLines r loc x lab on across by_) {kind : DBFun Nat → Kind} (hk : IsColumn e (plainArgs r (3 + loc.length) (x :: lab) on across by_) kind) :
    (∀ (i : Nat) (p : Nat × Row), (plainArgs r (3 + loc.length) (x :: lab) on across by_).db[i]? = some p → p.1 = i) ∧ (plainArgs r (3 + loc.length) (x :: lab) on across by_).feat.length = (plainArgs r (3 + loc.length) (x :: lab) on across by_).db.length ∧
      Ascii e (plainArgs r (3 + loc.length) (x :: lab) on across by_) ∧ (allRegs e (plainArgs r (3 + loc.length) (x :: lab) on across by_)).length < 2500 ∧ Separate (plainArgs r (3 + loc.length) (x :: lab) on across by_) ∧ FewCombinations e (plainArgs r (3 + loc.length) (x :: lab) on across by_) ∧ Readable e (plainArgs r (3 + loc.length) (x :: lab) on across by_) := by
  have hpl : Pipeline.Plain (plainArgs r (3 + loc.length) (x :: lab) on across by_) := ⟨rfl, rfl, rfl⟩
  have hlabel : ∀ c ∈ x :: lab, ∀ p ∈ (plainArgs r (3 + loc.length) (x :: lab) on across by_).db, ∃ q ∈ complete r (3 + loc.length), lineLabel loc x lab q (String.ofList c) = some (p.2 (String.ofList c)) := by
    intro c hc p hp
    obtain ⟨q, hq, rfl⟩ := List.mem_map.mp hp
    exact ⟨q, hq, label_toRow (hlen hI) hq (List.mem_map_of_mem hc)⟩
  have hlabel' : ∀ c : String, c.toList ∈ x :: lab → ∀ p ∈ (plainArgs r (3 + loc.length) (x :: lab) on across by_).db, ∃ q ∈ complete r (3 + loc.length), lineLabel loc x lab q c = some (p.2 c) := by
    intro c hc p hp
    simpa using hlabel _ hc p hp
  have hcol : ∀ c ∈ on :: across, c.toList ∈ x :: lab := by
    intro c hc
    rcases List.mem_cons.mp hc with rfl | hc
    · exact hC.on
    · exact hC.across c hc
  have hpos : ∀ (i : Nat) (p : Nat × Row), (plainArgs r (3 + loc.length) (x :: lab) on across by_).db[i]? = some p → p.1 = i := by
    intro i p hp
    have h1 : (plainArgs r (3 + loc.length) (x :: lab) on across by_).db.map (·.1) = (complete r (3 + loc.length)).map (·.2) := by
      show ((complete r (3 + loc.length)).map _).map _ = _
      rw [List.map_map]
      rfl
    have h2 : ((plainArgs r (3 + loc.length) (x :: lab) on across by_).db.map (·.1))[i]? = some p.1 := by rw [List.getElem?_map, hp]; rfl
    rw [h1, hg] at h2
    obtain ⟨_, h3⟩ := List.getElem?_eq_some_iff.mp h2
    rw [List.getElem_range] at h3
    exact h3.symm
  exact ⟨hpos, by show ((complete r (3 + loc.length)).map _).length = ((complete r (3 + loc.length)).map _).length; simp,
    (by
      intro v hv
      have hv' := plain_regs he hv
      refine ⟨(hp.names _ hv').2, fun p hp' s hs => ?_⟩
      obtain ⟨q, hq, e1⟩ := hlabel' v.1 (hcol _ hv') p hp'
      exact (hp.labels _ hv' q hq _ e1).2 s hs),
    (by
      have h1 : (allRegs e (plainArgs r (3 + loc.length) (x :: lab) on across by_)).length = (plainVars on across).length := by
        obtain ⟨h2, h3⟩ := Pipeline.regs_plain he hpl (List.Perm.refl (allRegs e (plainArgs r (3 + loc.length) (x :: lab) on across by_)))
        rw [h2, List.length_map]
        exact h3.length_eq
      rw [h1]
      have h2 : ∀ l : List String, (l.flatMap (fun c => [(c, Ext.one), (c, Ext.two)])).length = 2 * l.length := by
        intro l
        induction l with
        | nil => rfl
        | cons _ _ ih => rw [List.flatMap_cons, List.length_append, ih]; simp; omega
      unfold plainVars
      rw [h2, List.length_cons]
      omega),
    ⟨by
      intro c hc p hp' q hq'
      have hc' : c.toList ∈ x :: lab := hC.by_ c (by have hb : by_ = [c] := hc; rw [hb]; exact List.mem_singleton_self c)
      obtain ⟨p0, hp0, e1⟩ := hlabel' c hc' p hp'
      obtain ⟨q0, hq0, e2⟩ := hlabel' c hc' q hq'
      exact (hp.single c hc p0 hp0 _ e1).2 q0 hq0 _ e2, by
      intro c hc p hp'
      obtain ⟨p0, hp0, e1⟩ := hlabel' c (hC.by_ c hc) p hp'
      exact (hp.bys c hc p0 hp0 _ e1).1, by
      intro c hc p hp'
      obtain ⟨p0, hp0, e1⟩ := hlabel' c (hC.by_ c hc) p hp'
      exact (hp.bys c hc p0 hp0 _ e1).2⟩,
    (by
      have h1 := Pipeline.prod_perm_labels he hpl
      have h2 := few_lines hI hC hfew
      unfold Pipeline.FewLabels at h2
      rw [← h1] at h2
      unfold FewCombinations
      refine le_of_eq_of_le (congrArg List.prod (List.map_congr_left fun f hf => ?_)) h2
      obtain ⟨v, rfl⟩ := allRegs_columns hk.1 f hf
      rw [idxOf_column, ixOf_card he]
      simp [columnReg]),
    ⟨fun v hv => (hp.names _ (plain_regs he hv)).1, by
      intro v hv p hp'
      obtain ⟨q, hq, e1⟩ := hlabel' v.1 (hcol _ (plain_regs he hv)) p hp'
      exact (hp.labels _ (plain_regs he hv) q hq _ e1).1, by
      intro c hc p hp'
      have hc' : c.toList ∈ x :: lab := hC.by_ c (by have hb : by_ = [c] := hc; rw [hb]; exact List.mem_singleton_self c)
      obtain ⟨p0, hp0, e1⟩ := hlabel' c hc' p hp'
      exact (hp.single c hc p0 hp0 _ e1).1⟩⟩

/-- C91 (partial), from the lines of the item file to the text of the results.  A plain task is created from the file and the experiment runs to its end, with any choices; the names and labels are printable.
Then the text of the results can be made from the task file and the score file, and it reads back as a table: the names of the columns with `_1` and `_2`, then `by`, `score` and `n`; and for each level that has triplets one line for each
combination of labels for which the level has complete lines: with these labels, the level, the text of the mean score up to 2^-52, and the number of triplets of lines.  Missing: sizes as in C83. -/
theorem C91_lines_partial {e : Env} (he : e.Lawful) (hI : ItemFile fs file r loc x lab) (hs : r.rows.length ^ 3 < 2 ^ 64) {T : Task.Task (Nat × List (Option Val))}
    (h : fromFile e fs file on across by_ [] [] = .ok T) (hdb : complete r (3 + loc.length) ≠ []) (hfew : FewLineLabels r loc x lab on across) (hn : (on :: across).Nodup)
    (hw : across.length < 1249) (hp : PrintableLines r loc x lab on across by_) {kind : DBFun Nat → Kind} (hk : IsColumn e (plainArgs r (3 + loc.length) (x :: lab) on across by_) kind)
    (hz : Pipeline.Sizes (plainArgs r (3 + loc.length) (x :: lab) on across by_) T) {c : Pipeline.Choices} (hl : c.Lawful)
    {getFeat : Nat × List (Option Val) → Except Err φ} {distance : φ → φ → Except Err δ} {lt : δ → δ → Bool} (hlt : ∀ x y, lt x y = true → lt y x = false) {F : Task.File} {S : List Int}
    (hr : Pipeline.Ran c e T getFeat distance lt F S) :
    ∃ (f : H5IO.File Val) (vars : List Var) (outs : List (List OutRow)), regFile kind groupName e c.num 0 c.src ⟨[], []⟩ T = .ok f ∧ vars.Perm (plainVars on across) ∧
      (∃ first g, f.groups.lookup first = some g) ∧
      (∀ num : ℚ → Text, (∀ q, Clean (num q)) → ∀ first g, f.groups.lookup first = some g → ∃ t, analyze num c.sortRows f first F.bys F.byIndex S = .ok t ∧
        Reads t ((vars.map (fun v => (extName v).toList) ++ ["by".toList, "score".toList, "n".toList]) :: outs.flatten.map (Names.Spec.cells num))) ∧
      F.bys.Nodup ∧ (∀ key, key ∈ F.bys ↔ (∃ p ∈ complete r (3 + loc.length), lineLevel loc x lab by_ p key) ∧
        ∃ l : Labels, l.Possible across ∧ lineGroup (lineLabel loc x lab) on across (levelLines r (3 + loc.length) (x :: lab) by_ key) l ≠ []) ∧
      List.Forall₂ (fun key out => ∃ abx : Line × Line × Line → ℚ,
        (∀ l : Labels, l.Possible across → ∀ t ∈ lineGroup (lineLabel loc x lab) on across (levelLines r (3 + loc.length) (x :: lab) by_ key) l,
          IsLineAbx lt (fun p p' => recDist getFeat distance (record (3 + loc.length) p) (record (3 + loc.length) p')) t (abx t)) ∧
        PlainResults on across vars key (lineGroup (lineLabel loc x lab) on across (levelLines r (3 + loc.length) (x :: lab) by_ key)) abx out) F.bys outs := by
  obtain ⟨vars, outs, o1, o2, o3, o4, o5, o6⟩ := lines_results he hI hs h hdb hfew hz hl hlt hr
  have hO : Ops (x :: lab) on across by_ [] [] := ⟨by simp, by simp, by simp, by simp⟩
  obtain ⟨hC, -, hg⟩ := (C61_file_created_iff he hI hO hs).mp ⟨T, h⟩
  rw [fromFile_args hI hC] at h
  have ha := argsOf_ok (r := r) (3 + loc.length) hC hO hs
  obtain ⟨hpos, hfeat, hascii, hwide, hsep, hcomb, hread⟩ := lines_ready he hI hC hg hfew hw hp hk
  have hf : Spec'.KeptFirst (plainArgs r (3 + loc.length) (x :: lab) on across by_) := .of_not_bare (by intro g hg; cases hg)
  obtain ⟨f, vars', outs', g1, g2, g3, g4, g5, g8, g9, g10, g11, g12, g13, g14⟩ := file_text he ha hf h hpos
    hfeat (.inl (by intro f hf; cases hf)) hk hascii hwide hsep hcomb hz hl hlt hr
    (Pipeline.small_of he ha hf h hz hl.num hl.bl1 hl.bl2 hr.file)
  have hvars : vars' = vars := by
    have h1 : Pipeline.varsOf (colRegs T.regressors) = vars := by rw [o2, Pipeline.varsOf_columnRegs]
    have hnd : vars.Nodup := by
      rw [o1.nodup_iff]
      unfold plainVars
      rw [List.nodup_flatMap]
      refine ⟨by intro c _; simp, hn.imp ?_⟩
      intro c d hcd v h1 h2
      simp only [List.mem_cons, List.not_mem_nil, or_false] at h1 h2
      rcases h1 with rfl | rfl <;> rcases h2 with h2 | h2 <;> exact hcd (congrArg Prod.fst h2)
    rw [g2, h1]
    exact uniq_of_nodup hnd
  subst hvars
  have hout : outs.flatten = outs'.flatten := by
    have h1 := g12 (by rw [o2, Pipeline.varsOf_columnRegs])
    rw [g8] at h1
    have h2 : Analyze.collapse c.sortRows (vars'.map (ixOf e (plainArgs r (3 + loc.length) (x :: lab) on across by_))) F S = .ok outs.flatten := o3
    rw [h2] at h1
    exact (Except.ok.inj h1).symm
  refine ⟨f, vars', outs, g1, o1, g13, fun num hnum first g hfirst => ?_, o4, o5, o6⟩
  rw [hout]
  exact g14 hread num hnum first g hfirst

end Lines

/-! ### examples -/

/-- the text of the results of a task, for given scores -/
def text0 (a : Args Nat) (first : String) (scores : List Int) : Except Err Text :=
  match Task.init E0 a with
  | .error er => .error er
  | .ok T => match regFile (kind0 E0 a) groupName E0 N0 0 (fun _ _ _ => src0) ⟨[], []⟩ T, generate E0 N0 0 (fun _ _ _ => src0) 1000 1000 T with
    | .ok f, .ok (some F) => analyze (fun q => Names.decimal q.num ++ '/' :: Names.decimal q.den) insArgsort f first F.bys F.byIndex scores
    | .error er, _ => .error er
    | _, .error er => .error er
    | _, _ => .error .keyError

/-- the task `exDup` has the regressors `sp_B` and, twice, `on_1`; the text has each of them once -/
theorem exDup_text : text0 exDup "regressors/1" [1, -1] =
    .ok "sp_B\ton_1\tac_1\ton_2\tac_2\tby\tscore\tn\n0\ta\t1\tb\t2\t0\t1/1\t1\n1\ta\t1\tb\t2\t1\t0/1\t1\n".toList := by decide +kernel

theorem exDup_sizes {T : Task.Task Nat} (hT : Task.init E0 exDup = .ok T) : Pipeline.Sizes exDup T := by
  have h : (match Task.init E0 exDup with
      | .ok T => decide ((∀ L ∈ T.levels, (itemsOf exDup L.key).length ≤ 128) ∧ (T.levels.map (fun L => (tripsSpec exDup L.key).length)).sum = 2)
      | _ => true) = true := by decide +kernel
  rw [hT] at h
  simp only [decide_eq_true_eq] at h
  refine ⟨fun L hL => le_max_of_le_left (h.1 L hL), fun L hL => (h.1 L hL).trans (by norm_num), ?_⟩
  rw [h.2]
  norm_num

theorem exDup_columns : ∀ f ∈ exDup.regressors, ∃ v, f = columnReg E0 exDup.db v := by
  intro f hf
  simp only [exDup, exTwo, args0, List.mem_cons, List.not_mem_nil, or_false] at hf
  rcases hf with rfl | rfl <;> exact ⟨_, rfl⟩

theorem exDup_separate : Separate exDup := by
  have h1 : ∀ p ∈ exDup.db, p.2 "sp" = .int 0 ∨ p.2 "sp" = .int 1 := by decide +kernel
  refine ⟨?_, ?_, ?_⟩
  · intro c hc p hp q hq
    have : c = "sp" := by simpa [exDup, exTwo, args0, eq_comm] using hc
    subst this
    rcases h1 p hp with h | h <;> rcases h1 q hq with h' | h' <;> (rw [h, h']; exact .int)
  all_goals
    intro c hc p hp
    have : c = "sp" := by simpa [exDup, exTwo, args0] using hc
    subst this
    rcases h1 p hp with h | h <;> (rw [h]; trivial)

theorem exDup_readable : Readable E0 exDup := by
  have h0 : ∀ c ∈ exDup.columns, '\t' ∉ c.toList ∧ '\n' ∉ c.toList := by decide +kernel
  have h1 : ∀ c ∈ exDup.columns, ∀ p ∈ exDup.db, ∀ s, p.2 c = .str s → '\t' ∉ s.toList ∧ '\n' ∉ s.toList := by
    have : ∀ c ∈ exDup.columns, ∀ p ∈ exDup.db, (match p.2 c with | .int _ => true | .str s => decide ('\t' ∉ s.toList ∧ '\n' ∉ s.toList)) = true := by decide +kernel
    intro c hc p hp s hs
    have := this c hc p hp
    rw [hs] at this
    simpa using this
  have h2 : ∀ c ∈ exDup.columns, ∀ p ∈ exDup.db, CleanVal (p.2 c) := by
    intro c hc p hp
    cases hv : p.2 c with
    | int n => trivial
    | str s => exact h1 c hc p hp s hv
  refine ⟨fun v hv => h0 _ (allRegs_in E0_lawful exDup_ok (by decide +kernel) hv), fun v hv p hp => h2 _ (allRegs_in E0_lawful exDup_ok (by decide +kernel) hv) p hp, ?_⟩
  intro c hc p hp
  have : c = "sp" := by simpa [exDup, exTwo, args0, eq_comm] using hc
  subst this
  exact h2 _ (by decide +kernel) p hp

/-- C91, example: the experiment of `exDup` with any number of cpus and any length of the buffer of the scores: it can be run, the hypotheses hold, and its text has a row for the labels of the level 1 -/
example (n m : Nat) : ∃ T F S, ∃ (f : H5IO.File Val) (vars : List Var) (rows : List OutRow), Task.init E0 exDup = .ok T ∧
    Pipeline.Ran (Pipeline.choices0 (n + 1) (m + 1)) E0 T (fun r => .ok (r * r)) (fun f g => .ok (f % (g + 2) : Nat)) (fun x y => decide (x < y)) F S ∧
    regFile (kind0 E0 exDup) groupName E0 N0 0 (fun _ _ _ => src0) ⟨[], []⟩ T = .ok f ∧ vars.Nodup ∧
    (∃ first t, analyze (fun _ => []) insArgsort f first F.bys F.byIndex S = .ok t ∧
      Reads t ((vars.map (fun v => (extName v).toList) ++ ["by".toList, "score".toList, "n".toList]) :: rows.map (Names.Spec.cells (fun _ => [])))) ∧
    ∃ o ∈ rows, o.by_ = [.int 1] ∧ o.n = 1 := by
  have hlt : ∀ x y : Nat, decide (x < y) = true → decide (y < x) = false := by intro x y h; simp at h ⊢; omega
  have hA : ∀ f ∈ exDup.regressors, ABX.Spec.readsA exDup.cols f = false := by
    intro f hf
    simp only [exDup, exTwo, args0, List.mem_cons, List.not_mem_nil, or_false] at hf
    rcases hf with rfl | rfl <;> decide +kernel
  have hkept : Spec'.KeptFirst exDup := .of_not_bare (by intro f hf; cases hf)
  obtain ⟨T, -, hT, -⟩ := levels0_ok exDup_levels
  have hz := exDup_sizes hT
  have hl := Pipeline.choices0_lawful (n := n + 1) (m := m + 1) (Nat.zero_lt_succ _)
  obtain ⟨F, S, hr⟩ := Pipeline.C77_completes_partial E0_lawful exDup_ok hkept hT (c := Pipeline.choices0 (n + 1) (m + 1)) (getFeat := fun r => .ok (r * r)) (distance := fun f g => .ok (f % (g + 2) : Nat)) (zero := 0)
    (lt := fun x y => decide (x < y)) ⟨_, List.mem_cons_self, by decide +kernel⟩
    (by intro f hf
        simp only [exDup, exTwo, args0, List.mem_cons, List.not_mem_nil, or_false] at hf
        rcases hf with rfl | rfl <;> decide +kernel) hz (.inl (by
      have h : (match Task.init E0 exDup with | .ok T => decide ((T.levels.map (fun L => (tripsSpec exDup L.key).length)).sum ≤ 6250000) | _ => true) = true := by decide +kernel
      rw [hT] at h
      simpa using h)) hl (Nat.zero_lt_succ _) (fun _ _ => ⟨_, rfl⟩) (fun _ _ _ _ _ _ _ _ => ⟨_, rfl⟩) hlt
  obtain ⟨f, vars, outs, g1, g2, -, -, -, -, g6, g7, ⟨first, g, g8⟩, g9⟩ := C91_results_partial E0_lawful exDup_ok hkept hT (kind := kind0 E0 exDup)
    (by
      intro i p hp
      have : ∀ q ∈ exDup.db.zipIdx, q.1.1 = q.2 := by decide +kernel
      exact this (p, i) (List.mem_zipIdx_iff_getElem?.mpr hp))
    (by decide +kernel) (.inl hA) (isColumn0 exDup_columns)
    (by
      intro v hv
      have hcols := allRegs_in E0_lawful exDup_ok (by decide +kernel) hv
      have h1 : ∀ c ∈ exDup.columns, ∀ ch ∈ c.toList, ch.toNat < 128 := by decide +kernel
      have h2 : ∀ c ∈ exDup.columns, ∀ p ∈ exDup.db, asciiVal (p.2 c) = true := by decide +kernel
      exact ⟨h1 _ hcols, fun p hp => asciiVal_iff.mp (h2 _ hcols p hp)⟩)
    (by decide +kernel) exDup_separate (by unfold FewCombinations; decide +kernel) hz hl hlt hr
  obtain ⟨t, t1, t2⟩ := g9 exDup_readable (fun _ => []) (fun _ => ⟨by simp, by simp⟩) first g g8
  refine ⟨T, F, S, f, vars, outs.flatten, hT, hr, g1, g2, ⟨first, t, t1, t2⟩, ?_⟩
  have hk := (g6 [.int 1]).mpr ⟨⟨exDup.db[3], List.getElem_mem _, by decide +kernel⟩, by decide +kernel⟩
  obtain ⟨out, hout, abx, -, R⟩ := forall₂_mem_left g7 _ hk
  obtain ⟨u, hu⟩ : ∃ u, tripsSpec exDup [.int 1] = [u] := List.length_eq_one_iff.mp (by decide +kernel)
  rw [hu] at R
  obtain ⟨o, ho, hlab⟩ := (R.all _).mpr ⟨u, List.mem_singleton_self _, rfl⟩
  refine ⟨o, List.mem_flatten.mpr ⟨out, hout, ho⟩, R.by_ o ho, ?_⟩
  rw [R.n o ho, hlab]
  simp

section
open Database Database.Spec ABX.Spec

theorem exFile5_printable : PrintableLines exFile5 [] (tx "on") [tx "sp"] "on" ["sp"] [] := by
  have h0 : ∀ c ∈ ["on", "sp"], ('\t' ∉ c.toList ∧ '\n' ∉ c.toList) ∧ ∀ ch ∈ c.toList, ch.toNat < 128 := by decide +kernel
  have h1 : ∀ c ∈ ["on", "sp"], ∀ p ∈ complete exFile5 3, lineLabel [] (tx "on") [tx "sp"] p c ∈ [some (.str "a"), some (.str "b"), some (.int 1), some (.int 2)] := by decide +kernel
  refine ⟨h0, ?_, (by intro c hc; cases hc), (by intro c hc; cases hc)⟩
  intro c hc p hp v hv
  have := h1 c hc p hp
  rw [hv] at this
  simp only [List.mem_cons, Option.some.injEq, List.not_mem_nil, or_false] at this
  rcases this with rfl | rfl | rfl | rfl
  · exact ⟨by constructor <;> decide, by rintro s ⟨⟩; decide⟩
  · exact ⟨by constructor <;> decide, by rintro s ⟨⟩; decide⟩
  · exact ⟨trivial, by intro s hs; cases hs⟩
  · exact ⟨trivial, by intro s hs; cases hs⟩

/-- C91, example: the item file of five lines of C84, on the sound across the speaker: the experiment can be run, and the text of its results has a line for A = a and B = b of speaker 1, X = a of speaker 2, with 4 triplets -/
example (n m : Nat) : ∃ T F S, ∃ (f : H5IO.File Val) (vars : List Var) (rows : List OutRow), fromFile E0 (oneFile (tx "d.item") exFile5) (tx "d") "on" ["sp"] [] [] [] = .ok T ∧
    Pipeline.Ran (Pipeline.choices0 (n + 1) (m + 1)) E0 T (fun ρ => .ok (ρ.1 * ρ.1)) (fun v w => .ok (v % (w + 2) : Nat)) (fun x y => decide (x < y)) F S ∧ vars.Perm (plainVars "on" ["sp"]) ∧
    (∃ first t, analyze (fun _ => []) insArgsort f first F.bys F.byIndex S = .ok t ∧
      Reads t ((vars.map (fun v => (extName v).toList) ++ ["by".toList, "score".toList, "n".toList]) :: rows.map (Names.Spec.cells (fun _ => [])))) ∧
    ∃ o ∈ rows, o.labels = vars.map (Pipeline.labels2.at "on") ∧ o.n = 4 := by
  have hlt : ∀ x y : Nat, decide (x < y) = true → decide (y < x) = false := by intro x y h; simp at h ⊢; omega
  have hC : Columns [tx "on", tx "sp"] "on" ["sp"] [] := ⟨by decide, by decide, by decide, by decide⟩
  have hp : ([.int 0, .int 1, .int 2, .str "a", .int 1].map some, 0) ∈ complete exFile5 3 := by decide +kernel
  have hposs : Pipeline.labels2.Possible ["sp"] := ⟨by decide, fun _ _ => by show (Val.int 1) ≠ .int 2; decide⟩
  have hlen : (lineGroup (lineLabel [] (tx "on") [tx "sp"]) "on" ["sp"] (levelLines exFile5 3 [tx "on", tx "sp"] [] [.int 0]) Pipeline.labels2).length = 4 := by decide +kernel
  have hne : lineGroup (lineLabel [] (tx "on") [tx "sp"]) "on" ["sp"] (levelLines exFile5 3 [tx "on", tx "sp"] [] [.int 0]) Pipeline.labels2 ≠ [] := by intro h0; rw [h0] at hlen; cases hlen
  have hl := Pipeline.choices0_lawful (n := n + 1) (m := m + 1) (Nat.zero_lt_succ _)
  obtain ⟨T, F, S, h1, h2, h3⟩ := C84_ends_partial E0_lawful exFile5_ok hC (by unfold NoGap; decide +kernel) (by decide) hp (key := [.int 0]) rfl hposs hne (.inl (by decide)) hl (Nat.zero_lt_succ _)
    (getFeat := fun ρ => .ok (ρ.1 * ρ.1)) (distance := fun v w => .ok (v % (w + 2) : Nat)) (fun _ _ => ⟨_, rfl⟩) (fun _ _ _ _ _ _ _ _ => ⟨_, rfl⟩) 0 (lt := fun x y => decide (x < y)) hlt
  obtain ⟨f, vars, outs, o1, o2, ⟨first, g, o3⟩, o4, -, o6, o7⟩ := C91_lines_partial E0_lawful exFile5_ok (by decide) h1 (List.ne_nil_of_mem hp) (by unfold FewLineLabels; decide +kernel) (by decide) (by decide)
    exFile5_printable (kind := kind0 E0 (plainArgs exFile5 3 [tx "on", tx "sp"] "on" ["sp"] [])) ⟨by (intro f hf; cases hf), fun _ => rfl⟩ h2 hl hlt h3
  obtain ⟨t, t1, t2⟩ := o4 (fun _ => []) (fun _ => ⟨by simp, by simp⟩) first g o3
  have hb := (o6 [.int 0]).mpr ⟨⟨_, hp, rfl⟩, Pipeline.labels2, hposs, hne⟩
  obtain ⟨out, hout, abx, -, R⟩ := forall₂_mem_left o7 _ hb
  obtain ⟨o, ho, hrow⟩ := R.all Pipeline.labels2 hposs hne
  exact ⟨T, F, S, f, vars, _, h1, h3, o2, ⟨first, t, t1, t2⟩, o, List.mem_flatten.mpr ⟨out, hout, ho⟩, hrow.labels, hrow.n.trans hlen⟩
end

#print axioms C91_results_partial
#print axioms C91_sample_partial
#print axioms C91_lines_partial

end ABX.ResultFile
