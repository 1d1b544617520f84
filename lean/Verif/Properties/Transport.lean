import Verif.Proofs.Transport
/-!
Property C100: what the results of an experiment depend on.

The rows of a level depend only on the labels of its lines and on the comparisons of their distances (`C100_levels_partial`): not on the order or the numbers of the lines, the other levels, the other columns,
the scale of the distances, the sorts, buffers, cpus and random choices of the run.
-/
namespace ABX.Database
open ABX.Spec Spec SideOps ABX.Task ABX.Pipeline Analyze ExtSort
variable {φ δ φ' δ' : Type}

/-- a plain experiment (columns on, across and by, neither filters nor regressors) that was run from an item file to its scores, with sizes as in C83 -/
structure PlainRun (e : Env) (fs : Text → Option (Raw Val)) (f : Text) (r : Raw Val) (loc : List Text) (x : Text) (lab : List Text) (on : String) (across by_ : List String)
    (T : Task.Task (Nat × List (Option Val))) (c : Choices) (getFeat : Nat × List (Option Val) → Except Err φ) (distance : φ → φ → Except Err δ) (lt : δ → δ → Bool) (F : File) (S : List Int) : Prop where
  env : e.Lawful
  item : ItemFile fs f r loc x lab
  few : r.rows.length ^ 3 < 2 ^ 64
  task : fromFile e fs f on across by_ [] [] = .ok T
  some : complete r (3 + loc.length) ≠ []
  labels : FewLineLabels r loc x lab on across
  sizes : Sizes (plainArgs r (3 + loc.length) (x :: lab) on across by_) T
  choices : c.Lawful
  order : ∀ x y, lt x y = true → lt y x = false
  ran : Ran c e T getFeat distance lt F S

/-- the rows that `analyze` makes of the run; the columns of labels are `vars` -/
def RunRows (e : Env) (r : Raw Val) (loc : List Text) (x : Text) (lab : List Text) (on : String) (across by_ : List String) (T : Task.Task (Nat × List (Option Val))) (c : Choices) (F : File)
    (S : List Int) (vars : List Var) (rows : List OutRow) : Prop :=
  colRegs T.regressors = vars.map (columnReg e (plainArgs r (3 + loc.length) (x :: lab) on across by_).db) ∧
    collapse c.sortRows (vars.map (fun v => columnIndex e.sort ((plainArgs r (3 + loc.length) (x :: lab) on across by_).db.map (fun p => p.2 v.1)))) F S = .ok rows

/-- the distance of two lines -/
def lineDist (loc : List Text) (getFeat : Nat × List (Option Val) → Except Err φ) (distance : φ → φ → Except Err δ) (p p' : Line) : Except Err δ :=
  recDist getFeat distance (record (3 + loc.length) p) (record (3 + loc.length) p')

theorem flatten_filter {β : Type} [DecidableEq β] {by_ : OutRow → β} {R : β → List OutRow → Prop} : ∀ {ks : List β} {outs : List (List OutRow)}, ks.Nodup → List.Forall₂ (fun k out => R k out ∧ ∀ o ∈ out, by_ o = k) ks outs →
    ∀ key, (key ∈ ks → R key (outs.flatten.filter (fun o => by_ o = key))) ∧ (key ∉ ks → outs.flatten.filter (fun o => by_ o = key) = []) := by
  intro ks outs hn h
  induction h with
  | nil => intro key; exact ⟨fun h => by simp at h, fun _ => rfl⟩
  | @cons k out ks outs h0 _ ih =>
    intro key
    rw [List.nodup_cons] at hn
    obtain ⟨i1, i2⟩ := ih hn.2 key
    rw [List.flatten_cons, List.filter_append]
    by_cases hk : key = k
    · subst hk
      rw [List.filter_eq_self.mpr (by intro o ho; simpa using h0.2 o ho), i2 hn.1, List.append_nil]
      exact ⟨fun _ => h0.1, fun h => absurd (by simp) h⟩
    · have : out.filter (fun o => by_ o = key) = [] := by
        rw [List.filter_eq_nil_iff]
        intro o ho
        rw [h0.2 o ho]
        simpa using fun h => hk h.symm
      rw [this, List.nil_append]
      exact ⟨fun h => i1 ((List.mem_cons.mp h).resolve_left hk), fun h => i2 (fun h' => h (List.mem_cons_of_mem _ h'))⟩

section
variable {e : Env} {fs : Text → Option (Raw Val)} {f : Text} {r : Raw Val} {loc : List Text} {x : Text} {lab : List Text} {on : String} {across by_ : List String}
    {T : Task.Task (Nat × List (Option Val))} {c : Choices} {getFeat : Nat × List (Option Val) → Except Err φ} {distance : φ → φ → Except Err δ} {lt : δ → δ → Bool} {F : File} {S : List Int}

/-- the rows of each level -/
theorem PlainRun.rows (P : PlainRun e fs f r loc x lab on across by_ T c getFeat distance lt F S) : ∃ vars rows, RunRows e r loc x lab on across by_ T c F S vars rows ∧ vars.Perm (plainVars on across) ∧ (by_ = [] → ∀ o ∈ rows, o.by_ = [.int 0]) ∧
    ∀ key, (by_ = [] → key = [.int 0]) → ∃ abx : Line × Line × Line → ℚ,
      (∀ l : Labels, l.Possible across → ∀ t ∈ lineGroup (lineLabel loc x lab) on across (levelLines r (3 + loc.length) (x :: lab) by_ key) l, IsLineAbx lt (lineDist loc getFeat distance) t (abx t)) ∧
      PlainResults on across vars key (lineGroup (lineLabel loc x lab) on across (levelLines r (3 + loc.length) (x :: lab) by_ key)) abx (rows.filter (fun o => o.by_ = key)) := by
  obtain ⟨vars, outs, o1, o0, o2, o3, o4, o5⟩ := lines_results P.env P.item P.few P.task P.some P.labels P.sizes P.choices P.order P.ran
  refine ⟨vars, outs.flatten, ⟨o0, o2⟩, o1, ?_, ?_⟩
  · intro hb o ho
    obtain ⟨out, hout, ho⟩ := List.mem_flatten.mp ho
    obtain ⟨key, hkey, abx, -, R⟩ := forall₂_mem_right o5 out hout
    obtain ⟨l, -, -, row⟩ := R.rows o ho
    obtain ⟨⟨p, -, hp⟩, -⟩ := (o4 key).mp hkey
    unfold lineLevel at hp
    rw [if_pos hb] at hp
    rw [row.by_, hp]
  intro key hkey
  obtain ⟨f1, f2⟩ := flatten_filter (by_ := OutRow.by_) o3 (o5.imp (fun k out h => ⟨h, fun o ho => by
    obtain ⟨abx, -, R⟩ := h
    obtain ⟨l, -, -, row⟩ := R.rows o ho
    exact row.by_⟩)) key
  by_cases hk : key ∈ F.bys
  · exact f1 hk
  · rw [f2 hk]
    have hnil : ∀ l : Labels, l.Possible across → lineGroup (lineLabel loc x lab) on across (levelLines r (3 + loc.length) (x :: lab) by_ key) l = [] := by
      intro l hl
      by_contra hne
      refine hk ((o4 key).mpr ⟨?_, l, hl, hne⟩)
      obtain ⟨t, ht⟩ := List.exists_mem_of_ne_nil _ hne
      obtain ⟨m1, m2⟩ := List.mem_filter.mp (mem_lineGroup ht).1.1
      refine ⟨t.1, m1, ?_⟩
      unfold lineLevel
      split
      · rename_i hb; exact hkey hb
      · rename_i hb
        rw [if_neg hb, beq_iff_eq] at m2
        exact m2
    refine ⟨fun _ => 0, ?_, by simp, by simp, fun l hl hne => absurd (hnil l hl) hne⟩
    intro l hl t ht
    rw [hnil l hl] at ht
    cases ht

/-- a run has one results table -/
theorem RunRows.unique {vars vars' : List Var} {rows rows' : List OutRow} (h : RunRows e r loc x lab on across by_ T c F S vars rows) (h' : RunRows e r loc x lab on across by_ T c F S vars' rows') :
    vars = vars' ∧ rows = rows' := by
  have hv : vars = vars' := by
    have e1 := congrArg (List.map (fun g : DBFun Nat => g.inputs)) (h.1.symm.trans h'.1)
    simp only [List.map_map] at e1
    have e2 := congrArg List.flatten e1
    have : ∀ vs : List Var, (vs.map ((fun g : DBFun Nat => g.inputs) ∘ columnReg e (plainArgs r (3 + loc.length) (x :: lab) on across by_).db)).flatten = vs := by
      intro vs
      induction vs with
      | nil => rfl
      | cons v vs ih => rw [List.map_cons, List.flatten_cons, ih]; rfl
    rwa [this, this] at e2
  subst hv
  exact ⟨rfl, Except.ok.inj (h.2.symm.trans h'.2)⟩

end

section
variable {e e' : Env} {fs fs' : Text → Option (Raw Val)} {f f' : Text} {r r' : Raw Val} {loc loc' : List Text} {x x' : Text} {lab lab' : List Text} {on : String} {across by_ by' : List String}
    {T T' : Task.Task (Nat × List (Option Val))} {c c' : Choices} {getFeat : Nat × List (Option Val) → Except Err φ} {distance : φ → φ → Except Err δ} {lt : δ → δ → Bool} {F F' : File} {S S' : List Int}
    {getFeat' : Nat × List (Option Val) → Except Err φ'} {distance' : φ' → φ' → Except Err δ'} {lt' : δ' → δ' → Bool}

/-- C100: if the lines of a level of one experiment correspond to those of a level of another one, with the same labels up to renaming and the same results of the comparisons of distances, then both levels have the same rows up to the
order of the rows and of the columns, with the labels renamed: the same numbers of triplets and exactly the same scores.  The files may differ in everything else (order of the lines, other lines and levels, other columns), and so may the
runs (sorts, buffers, cpus, random choices).  Missing: filters, regressors, thresholds, and sizes as in C83. -/
theorem C100_levels_partial (P : PlainRun e fs f r loc x lab on across by_ T c getFeat distance lt F S) (P' : PlainRun e' fs' f' r' loc' x' lab' on across by' T' c' getFeat' distance' lt' F' S') :
    ∃ vars rows vars' rows', RunRows e r loc x lab on across by_ T c F S vars rows ∧ RunRows e' r' loc' x' lab' on across by' T' c' F' S' vars' rows' ∧
      ∀ key key', (by_ = [] → key = [.int 0]) → (by' = [] → key' = [.int 0]) → ∀ ren σ,
        Corresponds on across (lineLabel loc x lab) (lineLabel loc' x' lab') lt lt' (lineDist loc getFeat distance) (lineDist loc' getFeat' distance') ren σ
          (levelLines r (3 + loc.length) (x :: lab) by_ key) (levelLines r' (3 + loc'.length) (x' :: lab') by' key') →
        ((rows.filter (fun o => o.by_ = key)).map (told on across ren vars)).Perm ((rows'.filter (fun o => o.by_ = key')).map (told on across (fun _ x => x) vars')) := by
  obtain ⟨vars, rows, h1, hv, -, h2⟩ := P.rows
  obtain ⟨vars', rows', h1', hv', -, h2'⟩ := P'.rows
  refine ⟨vars, rows, vars', rows', h1, h1', ?_⟩
  intro key key' hk hk' ren σ C
  obtain ⟨abx, ha, R⟩ := h2 key hk
  obtain ⟨abx', ha', R'⟩ := h2' key' hk'
  exact rows_perm C (levelLines_nodup ..) (levelLines_nodup ..) hv hv' ha ha' R R'

/-- lists of rows are equal up to order if those of each level are -/
theorem perm_levels {κ τ : Type} {key : OutRow → κ} {g g' : OutRow → τ} {rows rows' : List OutRow}
    (h : ∀ k, by classical exact ((rows.filter (fun o => decide (key o = k))).map g).Perm ((rows'.filter (fun o => decide (key o = k))).map g')) :
    (rows.map (fun o => (key o, g o))).Perm (rows'.map (fun o => (key o, g' o))) := by
  classical
  have cnt : ∀ (l : List OutRow) (g : OutRow → τ) (k : κ) (y : τ), (l.map (fun o => (key o, g o))).count (k, y) = ((l.filter (fun o => decide (key o = k))).map g).count y := by
    intro l g k y
    induction l with
    | nil => rfl
    | cons o l ih =>
      rw [List.map_cons, List.count_cons, ih]
      by_cases hk : key o = k
      · rw [List.filter_cons_of_pos (by simpa using hk), List.map_cons, List.count_cons]
        simp [hk]
      · rw [List.filter_cons_of_neg (by simpa using hk)]
        simp [hk]
  rw [List.perm_iff_count]
  rintro ⟨k, y⟩
  rw [cnt, cnt]
  have := h k
  exact (List.perm_iff_count.mp (by convert this)) y

theorem exists_map {α β : Type} [DecidableEq α] {f : α → β} {L L' : List α} (hn : L.Nodup) (h : (L.map f).Perm (L'.map f)) : ∃ σ : α → α, (L.map σ).Perm L' ∧ ∀ p ∈ L, f (σ p) = f p := by
  obtain ⟨I, h1, h2⟩ := perm_lift h rfl
  have hlen : I.length = L.length := by have := congrArg List.length h2; simpa using this
  have hm : L.map (fun p => (I[L.idxOf p]?).getD p) = I := by
    apply List.ext_getElem (by simp [hlen])
    intro i hi hi'
    rw [List.getElem_map, hn.idxOf_getElem i (by first | exact hi | simpa using hi), List.getElem?_eq_getElem hi', Option.getD_some]
  refine ⟨fun p => (I[L.idxOf p]?).getD p, by rw [hm]; exact h1, ?_⟩
  intro p hp
  obtain ⟨i, hi, rfl⟩ := List.getElem_of_mem hp
  have hi' : i < I.length := by omega
  dsimp only
  rw [hn.idxOf_getElem i (by first | exact hi | simpa using hi), List.getElem?_eq_getElem hi', Option.getD_some]
  have := List.getElem_of_eq h2 (i := i) (by simpa using hi')
  simpa using this

/-- the lines of a level of a file with the same lines in another order -/
theorem levelLines_order (hI : ItemFile fs f r loc x lab) (hI' : ItemFile fs' f' r' loc x lab) (h : r.rows.Perm r'.rows) (key : List Val) :
    ((levelLines r (3 + loc.length) (x :: lab) by_ key).map (·.1)).Perm ((levelLines r' (3 + loc.length) (x :: lab) by_ key).map (·.1)) := by
  have hc : r'.columns.length = r.columns.length := (hlen hI').trans (hlen hI).symm
  have e1 : ∀ r : Raw Val, (levelLines r (3 + loc.length) (x :: lab) by_ key).map (·.1) = (r.rows.filter (fun row => (List.range' (3 + loc.length) (r.columns.length - (3 + loc.length))).all (fun i => (fieldAt row i).isSome))).filter
      (fun row => by_.map (label (3 + loc.length) (x :: lab) row) == (if by_ = [] then [] else key.map some)) := by
    intro r
    have hz : r.rows = r.rows.zipIdx.map (·.1) := by rw [List.zipIdx_map_fst]
    unfold levelLines complete
    conv_rhs => rw [hz]
    rw [List.filter_map, List.filter_map]
    rfl
  rw [e1, e1, hc]
  exact (h.filter _).filter _

/-- C100: two runs of an experiment on files with the same lines in any order, with distances that are ordered in the same way, have the same results up to the order of the rows and of the columns: the same levels, the same labels, the same numbers
of triplets and exactly the same scores, whatever the sorts, buffers, cpus and random choices of the runs.  In particular (same file, `g` the identity) the results do not depend on these choices, and (`g` increasing) not on the scale of
the distances.  The features must not depend on the number of the line.  Missing: as in `C100_levels_partial`. -/
theorem C100_order_partial {distance' : φ → φ → Except Err δ'} (P : PlainRun e fs f r loc x lab on across by_ T c getFeat distance lt F S) (P' : PlainRun e' fs' f' r' loc x lab on across by_ T' c' getFeat distance' lt' F' S')
    (h : r.rows.Perm r'.rows) (hf : ∀ n m v, getFeat (n, v) = getFeat (m, v)) {g : δ → δ'} (hd : ∀ v w d, distance v w = .ok d → distance' v w = .ok (g d)) (hg : ∀ d d', lt' (g d) (g d') = lt d d')
    {vars vars' : List Var} {rows rows' : List OutRow} (hr : RunRows e r loc x lab on across by_ T c F S vars rows) (hr' : RunRows e' r' loc x lab on across by_ T' c' F' S' vars' rows') :
    (rows.map (fun o => (o.by_, told on across (fun _ x => x) vars o))).Perm (rows'.map (fun o => (o.by_, told on across (fun _ x => x) vars' o))) := by
  obtain ⟨vars₁, rows₁, h1, hv, hb, h2⟩ := P.rows
  obtain ⟨vars₂, rows₂, h1', hv', hb', h2'⟩ := P'.rows
  obtain ⟨rfl, rfl⟩ := hr.unique h1
  obtain ⟨rfl, rfl⟩ := hr'.unique h1'
  refine perm_levels (key := OutRow.by_) fun key => ?_
  by_cases hk : by_ = [] → key = [.int 0]
  · obtain ⟨abx, ha, R⟩ := h2 key hk
    obtain ⟨abx', ha', R'⟩ := h2' key hk
    have hn := levelLines_nodup r (3 + loc.length) (x :: lab) by_ key
    have hn' := levelLines_nodup r' (3 + loc.length) (x :: lab) by_ key
    obtain ⟨σ, s1, s2⟩ := exists_map hn.of_map (levelLines_order (by_ := by_) P.item P'.item h key)
    have hdist : ∀ p ∈ levelLines r (3 + loc.length) (x :: lab) by_ key, ∀ q ∈ levelLines r (3 + loc.length) (x :: lab) by_ key, ∀ d, lineDist loc getFeat distance p q = .ok d →
        lineDist loc getFeat distance' (σ p) (σ q) = .ok (g d) := by
      intro p hp q hq d hpq
      have hrec : ∀ p ∈ levelLines r (3 + loc.length) (x :: lab) by_ key, getFeat (record (3 + loc.length) (σ p)) = getFeat (record (3 + loc.length) p) := by
        intro p hp
        unfold record
        rw [s2 p hp]
        exact hf _ _ _
      unfold lineDist recDist at hpq ⊢
      rw [hrec p hp, hrec q hq]
      revert hpq
      cases getFeat (record (3 + loc.length) p) with
      | error e => intro h; cases h
      | ok v =>
        cases getFeat (record (3 + loc.length) q) with
        | error e => intro h; cases h
        | ok w => exact hd v w d
    have C : Corresponds on across (lineLabel loc x lab) (lineLabel loc x lab) lt lt' (lineDist loc getFeat distance) (lineDist loc getFeat distance') (fun _ x => x) σ
        (levelLines r (3 + loc.length) (x :: lab) by_ key) (levelLines r' (3 + loc.length) (x :: lab) by_ key) := by
      refine ⟨s1, ?_, fun _ _ _ _ h => h, ?_⟩
      · intro p hp c hc
        unfold lineLabel
        rw [s2 p hp, Option.map_id']
      · intro A hA B hB X hX d1 d2 d1' d2' e1 e2 e1' e2'
        rw [hdist A hA X hX d1 e1] at e1'
        rw [hdist B hB X hX d2 e2] at e2'
        rw [← Except.ok.inj e1', ← Except.ok.inj e2', hg]
    have := rows_perm C hn hn' hv hv' ha ha' R R'
    convert this
  · rw [Classical.not_imp] at hk
    rw [List.filter_eq_nil_iff.mpr, List.filter_eq_nil_iff.mpr]
    · exact List.Perm.refl _
    · intro o ho hd
      exact hk.2 ((@of_decide_eq_true _ (_) hd).symm.trans (hb' hk.1 o ho))
    · intro o ho hd
      exact hk.2 ((@of_decide_eq_true _ (_) hd).symm.trans (hb hk.1 o ho))

end

/-- the lines of `exFile5` in the opposite order -/
def exFile5r : Raw Val := ⟨exFile5.columns, exFile5.rows.reverse⟩

theorem exFile5r_ok : ItemFile (oneFile (tx "d.item") exFile5r) (tx "d") exFile5r [] (tx "on") [tx "sp"] :=
  ⟨rfl, by show Named [tx "#file", tx "onset", tx "offset", tx "#on", tx "sp"]; unfold Named; decide, ⟨rfl, by decide, by decide⟩, by decide, by
    intro c hc
    simp only [List.mem_cons, List.not_mem_nil, or_false] at hc
    rcases hc with rfl | rfl <;> exact Or.inr rfl⟩

/-- a number made of the file and the onset of an item -/
def exFeat (ρ : Nat × List (Option Val)) : Nat :=
  match ρ.2 with
  | some (.int a) :: some (.int b) :: _ => (5 * a + b * b).natAbs
  | _ => 0

/-- a distance and the same on another scale -/
def exDist (v w : Nat) : Nat := v % (w + 2)
def exDist' (v w : Nat) : Nat := 2 * (v % (w + 2)) + 1

/-- C100, example: the file of five lines and the same in the opposite order, with another distance, another number of cpus and another length of the buffers: both experiments can be run, they have the same results, and one row is not
trivial: it has four triplets -/
example (n m n' m' : Nat) : ∃ T F S T' F' S', ∃ vars vars' : List Var, ∃ rows rows' : List OutRow,
    PlainRun E0 (oneFile (tx "d.item") exFile5) (tx "d") exFile5 [] (tx "on") [tx "sp"] "on" ["sp"] [] T (choices0 (n + 1) (m + 1)) (fun ρ => .ok (exFeat ρ)) (fun v w => .ok (exDist v w)) (fun x y => decide (x < y)) F S ∧
    PlainRun E0 (oneFile (tx "d.item") exFile5r) (tx "d") exFile5r [] (tx "on") [tx "sp"] "on" ["sp"] [] T' (choices0 (n' + 1) (m' + 1)) (fun ρ => .ok (exFeat ρ)) (fun v w => .ok (exDist' v w)) (fun x y => decide (x < y)) F' S' ∧
    RunRows E0 exFile5 [] (tx "on") [tx "sp"] "on" ["sp"] [] T (choices0 (n + 1) (m + 1)) F S vars rows ∧ RunRows E0 exFile5r [] (tx "on") [tx "sp"] "on" ["sp"] [] T' (choices0 (n' + 1) (m' + 1)) F' S' vars' rows' ∧
    (rows.map (fun o => (o.by_, told "on" ["sp"] (fun _ x => x) vars o))).Perm (rows'.map (fun o => (o.by_, told "on" ["sp"] (fun _ x => x) vars' o))) ∧ ∃ o ∈ rows, o.n = 4 := by
  have hlt : ∀ x y : Nat, decide (x < y) = true → decide (y < x) = false := by intro x y h; simp at h ⊢; omega
  have hC : Columns [tx "on", tx "sp"] "on" ["sp"] [] := ⟨by decide, by decide, by decide, by decide⟩
  have hposs : labels2.Possible ["sp"] := ⟨by decide, fun _ _ => by show (Val.int 1) ≠ .int 2; decide⟩
  have hp : ([.int 0, .int 1, .int 2, .str "a", .int 1].map some, 0) ∈ complete exFile5 3 := by decide +kernel
  have hlen : (lineGroup (lineLabel [] (tx "on") [tx "sp"]) "on" ["sp"] (levelLines exFile5 3 [tx "on", tx "sp"] [] [.int 0]) labels2).length = 4 := by decide +kernel
  have hne : lineGroup (lineLabel [] (tx "on") [tx "sp"]) "on" ["sp"] (levelLines exFile5 3 [tx "on", tx "sp"] [] [.int 0]) labels2 ≠ [] := by intro h0; rw [h0] at hlen; cases hlen
  have hl := choices0_lawful (n := n + 1) (m := m + 1) (Nat.zero_lt_succ _)
  obtain ⟨T, F, S, h1, h2, h3⟩ := C84_ends_partial E0_lawful exFile5_ok hC (by unfold NoGap; decide +kernel) (by decide) hp (key := [.int 0]) rfl hposs hne (.inl (by decide)) hl (Nat.zero_lt_succ _)
    (getFeat := fun ρ => .ok (exFeat ρ)) (distance := fun v w => .ok (exDist v w)) (fun _ _ => ⟨_, rfl⟩) (fun _ _ _ _ _ _ _ _ => ⟨_, rfl⟩) 0 (lt := fun x y => decide (x < y)) hlt
  have P : PlainRun E0 (oneFile (tx "d.item") exFile5) (tx "d") exFile5 [] (tx "on") [tx "sp"] "on" ["sp"] [] T (choices0 (n + 1) (m + 1)) (fun ρ => .ok (exFeat ρ)) (fun v w => .ok (exDist v w)) (fun x y => decide (x < y)) F S :=
    ⟨E0_lawful, exFile5_ok, by decide, h1, List.ne_nil_of_mem hp, by unfold FewLineLabels; decide +kernel, h2, hl, hlt, h3⟩
  have hp' : ([.int 0, .int 1, .int 2, .str "a", .int 1].map some, 4) ∈ complete exFile5r 3 := by decide +kernel
  have hlen' : (lineGroup (lineLabel [] (tx "on") [tx "sp"]) "on" ["sp"] (levelLines exFile5r 3 [tx "on", tx "sp"] [] [.int 0]) labels2).length = 4 := by decide +kernel
  have hne' : lineGroup (lineLabel [] (tx "on") [tx "sp"]) "on" ["sp"] (levelLines exFile5r 3 [tx "on", tx "sp"] [] [.int 0]) labels2 ≠ [] := by intro h0; rw [h0] at hlen'; cases hlen'
  have hl' := choices0_lawful (n := n' + 1) (m := m' + 1) (Nat.zero_lt_succ _)
  obtain ⟨T', F', S', h1', h2', h3'⟩ := C84_ends_partial E0_lawful exFile5r_ok hC (by unfold NoGap; decide +kernel) (by decide) hp' (key := [.int 0]) rfl hposs hne' (.inl (by decide)) hl' (Nat.zero_lt_succ _)
    (getFeat := fun ρ => .ok (exFeat ρ)) (distance := fun v w => .ok (exDist' v w)) (fun _ _ => ⟨_, rfl⟩) (fun _ _ _ _ _ _ _ _ => ⟨_, rfl⟩) 0 (lt := fun x y => decide (x < y)) hlt
  have P' : PlainRun E0 (oneFile (tx "d.item") exFile5r) (tx "d") exFile5r [] (tx "on") [tx "sp"] "on" ["sp"] [] T' (choices0 (n' + 1) (m' + 1)) (fun ρ => .ok (exFeat ρ)) (fun v w => .ok (exDist' v w)) (fun x y => decide (x < y)) F' S' :=
    ⟨E0_lawful, exFile5r_ok, by decide, h1', List.ne_nil_of_mem hp', by unfold FewLineLabels; decide +kernel, h2', hl', hlt, h3'⟩
  obtain ⟨vars, rows, R, -, -, hk⟩ := P.rows
  obtain ⟨vars', rows', R', -⟩ := P'.rows
  refine ⟨T, F, S, T', F', S', vars, vars', rows, rows', P, P', R, R', ?_, ?_⟩
  · refine C100_order_partial P P' (List.reverse_perm _).symm (fun _ _ _ => rfl) (g := fun d => 2 * d + 1) ?_ ?_ R R'
    · intro v w d h
      rw [← Except.ok.inj h]
      rfl
    · intro d d'
      simp
  · obtain ⟨abx, -, hres⟩ := hk [.int 0] (fun _ => rfl)
    obtain ⟨o, ho, hrow⟩ := hres.all labels2 hposs hne
    exact ⟨o, (List.mem_filter.mp ho).1, hrow.n.trans hlen⟩

#print axioms C100_levels_partial
#print axioms C100_order_partial

end ABX.Database
