import Verif.Proofs.Chance
import Verif.Properties.Transport
/-!
Property C105: the level of chance.

If the distances carry no information on the items, every row of the results has the expected score 1/2 (`C105_chance_partial`): so if the features are shuffled between the items (`C105_shuffled_partial`) or the distances dealt at random
to the pairs of items (`C105_dealt_partial`).  If no item is nearer to one than to another, every score is 1/2 (`C105_constant_partial`).  A distance that reverses the comparisons has the complementary scores (`C105_reversed_partial`).
-/
namespace ABX.Database
open ABX.Spec Spec SideOps ABX.Task ABX.Pipeline Analyze ExtSort F64
variable {φ δ φ' δ' ι : Type}

section
variable {e : Env} {fs : Text → Option (Raw Val)} {f : Text} {r : Raw Val} {loc : List Text} {x : Text} {lab : List Text} {on : String} {across by_ : List String}
    {T : Task.Task (Nat × List (Option Val))} {c : Choices} {getFeat : Nat × List (Option Val) → Except Err φ} {distance : φ → φ → Except Err δ} {lt : δ → δ → Bool} {F : File} {S : List Int}

/-- the row of a group of triplets -/
theorem PlainRun.theRow (P : PlainRun e fs f r loc x lab on across by_ T c getFeat distance lt F S) {vars : List Var} {rows : List OutRow} (hr : RunRows e r loc x lab on across by_ T c F S vars rows)
    {key : List Val} (hk : by_ = [] → key = [.int 0]) {l : Labels} (hl : l.Possible across) (hne : lineGroup (lineLabel loc x lab) on across (levelLines r (3 + loc.length) (x :: lab) by_ key) l ≠ []) :
    ∃ (o : OutRow) (abx : Line × Line × Line → ℚ), TheRow on vars rows key l (lineGroup (lineLabel loc x lab) on across (levelLines r (3 + loc.length) (x :: lab) by_ key) l).length o ∧
      (∀ t ∈ lineGroup (lineLabel loc x lab) on across (levelLines r (3 + loc.length) (x :: lab) by_ key) l, IsLineAbx lt (lineDist loc getFeat distance) t (abx t)) ∧
      PlainRow on vars key (lineGroup (lineLabel loc x lab) on across (levelLines r (3 + loc.length) (x :: lab) by_ key)) abx l o := by
  obtain ⟨vars', rows', h1, -, -, h2⟩ := P.rows
  obtain ⟨rfl, rfl⟩ := hr.unique h1
  obtain ⟨abx, ha, R⟩ := h2 key hk
  obtain ⟨o, ho, hrow⟩ := R.all l hl hne
  refine ⟨o, abx, ⟨(List.mem_filter.mp ho).1, hrow.by_, hrow.labels, hrow.n, ?_⟩, ha l hl, hrow⟩
  intro o' ho' hb hlab
  exact List.inj_on_of_nodup_map R.once (List.mem_filter.mpr ⟨ho', by simpa using hb⟩) ho (hlab.trans hrow.labels.symm)

/-- C105: if no line of the file is nearer to one line than to another, every score of the results is exactly 1/2.  Missing: filters, regressors, thresholds, and sizes as in C83. -/
theorem C105_constant_partial (P : PlainRun e fs f r loc x lab on across by_ T c getFeat distance lt F S) {vars : List Var} {rows : List OutRow} (hr : RunRows e r loc x lab on across by_ T c F S vars rows)
    (hd : ∀ A ∈ complete r (3 + loc.length), ∀ B ∈ complete r (3 + loc.length), ∀ X ∈ complete r (3 + loc.length), nearer lt (lineDist loc getFeat distance) A B X = false) :
    ∀ o ∈ rows, o.score = 1 / 2 := by
  obtain ⟨vars', rows', h1, -, hb, h2⟩ := P.rows
  obtain ⟨rfl, rfl⟩ := hr.unique h1
  intro o ho
  obtain ⟨abx, ha, R⟩ := h2 o.by_ (fun h => hb h o ho)
  obtain ⟨l, hl, hne, row⟩ := R.rows o (List.mem_filter.mpr ⟨ho, by simp⟩)
  have hz : (lineGroup (lineLabel loc x lab) on across (levelLines r (3 + loc.length) (x :: lab) by_ o.by_) l).map (fun t => 2 * abx t - 1) =
      (lineGroup (lineLabel loc x lab) on across (levelLines r (3 + loc.length) (x :: lab) by_ o.by_) l).map (fun _ => (0 : ℚ)) := by
    apply List.map_congr_left
    intro t ht
    obtain ⟨m1, m2, m3⟩ := mem_lineGroup ht
    have mem : ∀ {p}, p ∈ levelLines r (3 + loc.length) (x :: lab) by_ o.by_ → p ∈ complete r (3 + loc.length) := fun h => (List.mem_filter.mp h).1
    rw [abx_nearer P.order (ha l hl t ht), hd _ (mem m1.1) _ (mem m2.1) _ (mem m3.1), hd _ (mem m2.1) _ (mem m1.1) _ (mem m3.1)]
    norm_num
  have h1 : rnd 1 = 1 := by simpa using rnd_int (n := 1) (by norm_num)
  rw [row.exact, hz, List.map_const', List.sum_replicate, nsmul_zero, zero_div, rnd_zero, zero_add, h1]

variable {e' : Env} {T' : Task.Task (Nat × List (Option Val))} {c' : Choices} {getFeat' : Nat × List (Option Val) → Except Err φ'} {distance' : φ' → φ' → Except Err δ'} {lt' : δ' → δ' → Bool} {F' : File} {S' : List Int}

/-- C105: if the comparisons of the distances of one run are the reverse of those of another run (X is nearer to A than to B in the one when it is nearer to B than to A in the other), then each group of triplets has a row in both results,
and the two scores add up to 1, up to 2^-51.  Missing: as in `C105_constant_partial`. -/
theorem C105_reversed_partial (P : PlainRun e fs f r loc x lab on across by_ T c getFeat distance lt F S) (P' : PlainRun e' fs f r loc x lab on across by_ T' c' getFeat' distance' lt' F' S')
    {vars vars' : List Var} {rows rows' : List OutRow} (hr : RunRows e r loc x lab on across by_ T c F S vars rows) (hr' : RunRows e' r loc x lab on across by_ T' c' F' S' vars' rows')
    {key : List Val} (hk : by_ = [] → key = [.int 0])
    (hd : ∀ A ∈ levelLines r (3 + loc.length) (x :: lab) by_ key, ∀ B ∈ levelLines r (3 + loc.length) (x :: lab) by_ key, ∀ X ∈ levelLines r (3 + loc.length) (x :: lab) by_ key,
      A.2 ≠ B.2 → X.2 ≠ A.2 → X.2 ≠ B.2 → nearer lt' (lineDist loc getFeat' distance') A B X = nearer lt (lineDist loc getFeat distance) B A X)
    {l : Labels} (hl : l.Possible across) (hne : lineGroup (lineLabel loc x lab) on across (levelLines r (3 + loc.length) (x :: lab) by_ key) l ≠ []) :
    ∃ o o', TheRow on vars rows key l (lineGroup (lineLabel loc x lab) on across (levelLines r (3 + loc.length) (x :: lab) by_ key) l).length o ∧
      TheRow on vars' rows' key l (lineGroup (lineLabel loc x lab) on across (levelLines r (3 + loc.length) (x :: lab) by_ key) l).length o' ∧ |o.score + o'.score - 1| ≤ 2 ^ (-51 : ℤ) := by
  obtain ⟨o, abx, h1, ha, row⟩ := P.theRow hr hk hl hne
  obtain ⟨o', abx', h1', ha', row'⟩ := P'.theRow hr' hk hl hne
  refine ⟨o, o', h1, h1', ?_⟩
  have hn := levelLines_nodup r (3 + loc.length) (x :: lab) by_ key
  have hg : (lineGroup (lineLabel loc x lab) on across (levelLines r (3 + loc.length) (x :: lab) by_ key) l).map abx' =
      (lineGroup (lineLabel loc x lab) on across (levelLines r (3 + loc.length) (x :: lab) by_ key) l).map (fun t => 1 - abx t) := by
    apply List.map_congr_left
    intro t ht
    obtain ⟨m1, m2, m3⟩ := mem_lineGroup ht
    obtain ⟨d1, d2, d3⟩ := lineGroup_different hn hl ht
    rw [abx_nearer P.order (ha t ht), abx_nearer P'.order (ha' t ht), hd _ m1.1 _ m2.1 _ m3.1 d1 d2 d3, hd _ m2.1 _ m1.1 _ m3.1 d1.symm d3 d2]
    ring
  have hs : ∀ ts : List (Line × Line × Line), (ts.map (fun t => 1 - abx t)).sum = ts.length - (ts.map abx).sum := by
    intro ts
    induction ts with
    | nil => simp
    | cons t ts ih => rw [List.map_cons, List.sum_cons, ih, List.map_cons, List.sum_cons, List.length_cons]; push_cast; ring
  have b1 := row.score
  have b2 := row'.score
  have hlen : ((lineGroup (lineLabel loc x lab) on across (levelLines r (3 + loc.length) (x :: lab) by_ key) l).length : ℚ) ≠ 0 := by
    exact_mod_cast (List.length_pos_iff.mpr hne).ne'
  rw [hg, hs, row'.n, sub_div, div_self hlen] at b2
  rw [row.n] at b1
  rw [abs_le] at b1 b2 ⊢
  have e2 : (2 : ℚ) ^ (-51 : ℤ) = 2 * 2 ^ (-52 : ℤ) := by norm_num
  rw [e2]
  generalize (2 : ℚ) ^ (-52 : ℤ) = ε at b1 b2 ⊢
  generalize (List.map abx _).sum / ((lineGroup (lineLabel loc x lab) on across (levelLines r (3 + loc.length) (x :: lab) by_ key) l).length : ℚ) = q at b1 b2
  constructor <;> linarith [b1.1, b1.2, b2.1, b2.2]
end

section
variable [Fintype ι] {w : ι → ℚ} {e : ι → Env} {fs : Text → Option (Raw Val)} {f : Text} {r : Raw Val} {loc : List Text} {x : Text} {lab : List Text} {on : String} {across by_ : List String}
    {T : ι → Task.Task (Nat × List (Option Val))} {c : ι → Choices} {getFeat : ι → Nat × List (Option Val) → Except Err φ} {distance : ι → φ → φ → Except Err δ} {lt : δ → δ → Bool} {F : ι → File} {S : ι → List Int}

/-- C105: an experiment with random distances: in the outcome `i`, of probability `w i`, its run has the results `rows i`.  If the distances carry no information on the lines of a level, each group of triplets of the level has a row in the results
of every outcome, and the expected score of the row is 1/2, up to 2^-52.  The other choices of the runs (sorts, buffers, cpus) may depend on the outcome in any way.  Missing: as in `C105_constant_partial`. -/
theorem C105_chance_partial (P : ∀ i, PlainRun (e i) fs f r loc x lab on across by_ (T i) (c i) (getFeat i) (distance i) lt (F i) (S i)) {vars : ι → List Var} {rows : ι → List OutRow}
    (hr : ∀ i, RunRows (e i) r loc x lab on across by_ (T i) (c i) (F i) (S i) (vars i) (rows i)) {key : List Val} (hk : by_ = [] → key = [.int 0])
    (U : Uninformative w lt (fun i => lineDist loc (getFeat i) (distance i)) (levelLines r (3 + loc.length) (x :: lab) by_ key))
    {l : Labels} (hl : l.Possible across) (hne : lineGroup (lineLabel loc x lab) on across (levelLines r (3 + loc.length) (x :: lab) by_ key) l ≠ []) :
    ∃ o : ι → OutRow, (∀ i, TheRow on (vars i) (rows i) key l (lineGroup (lineLabel loc x lab) on across (levelLines r (3 + loc.length) (x :: lab) by_ key) l).length (o i)) ∧
      |∑ i, w i * (o i).score - 1 / 2| ≤ 2 ^ (-52 : ℤ) := by
  choose o abx h1 ha row using fun i => (P i).theRow (hr i) hk hl hne
  refine ⟨o, h1, ?_⟩
  have hi : ∃ i : ι, True := by
    by_contra h
    have : IsEmpty ι := ⟨fun i => h ⟨i, trivial⟩⟩
    have := U.total
    simp at this
  exact U.row (levelLines_nodup r (3 + loc.length) (x :: lab) by_ key) (P hi.choose).order hl hne ha row
end

section
variable {fs : Text → Option (Raw Val)} {f : Text} {r : Raw Val} {loc : List Text} {x : Text} {lab : List Text} {on : String} {across by_ : List String}

theorem levelLines_lt (r : Raw Val) (first : Nat) (labels : List Text) (by_ : List String) (key : List Val) : ∀ p ∈ levelLines r first labels by_ key, p.2 < r.rows.length := by
  intro p hp
  have h : p ∈ r.rows.zipIdx := (List.filter_sublist.trans List.filter_sublist : (levelLines r first labels by_ key).Sublist r.rows.zipIdx).subset hp
  have := List.snd_lt_of_mem_zipIdx h
  simpa using this

/-- C105: if the features are shuffled between the lines of the item file, all permutations being equally likely, every row of the results has the expected score 1/2, up to 2^-52.  Missing: as in `C105_constant_partial`. -/
theorem C105_shuffled_partial {e : Equiv.Perm (Fin r.rows.length) → Env} {T : Equiv.Perm (Fin r.rows.length) → Task.Task (Nat × List (Option Val))} {c : Equiv.Perm (Fin r.rows.length) → Choices}
    {getFeat : Equiv.Perm (Fin r.rows.length) → Nat × List (Option Val) → Except Err φ} {distance : Equiv.Perm (Fin r.rows.length) → φ → φ → Except Err δ} {lt : δ → δ → Bool} {F : Equiv.Perm (Fin r.rows.length) → File}
    {S : Equiv.Perm (Fin r.rows.length) → List Int} (P : ∀ π, PlainRun (e π) fs f r loc x lab on across by_ (T π) (c π) (getFeat π) (distance π) lt (F π) (S π))
    {vars : Equiv.Perm (Fin r.rows.length) → List Var} {rows : Equiv.Perm (Fin r.rows.length) → List OutRow} (hr : ∀ π, RunRows (e π) r loc x lab on across by_ (T π) (c π) (F π) (S π) (vars π) (rows π))
    {key : List Val} (hk : by_ = [] → key = [.int 0]) {D : Fin r.rows.length → Fin r.rows.length → δ}
    (hd : Shuffled D (fun π => lineDist loc (getFeat π) (distance π)) (levelLines r (3 + loc.length) (x :: lab) by_ key))
    {l : Labels} (hl : l.Possible across) (hne : lineGroup (lineLabel loc x lab) on across (levelLines r (3 + loc.length) (x :: lab) by_ key) l ≠ []) :
    ∃ o : Equiv.Perm (Fin r.rows.length) → OutRow, (∀ π, TheRow on (vars π) (rows π) key l (lineGroup (lineLabel loc x lab) on across (levelLines r (3 + loc.length) (x :: lab) by_ key) l).length (o π)) ∧
      |∑ π, (o π).score / (r.rows.length).factorial - 1 / 2| ≤ 2 ^ (-52 : ℤ) := by
  obtain ⟨o, h1, h2⟩ := C105_chance_partial P hr hk (hd.uninformative (levelLines_lt r (3 + loc.length) (x :: lab) by_ key)) hl hne
  refine ⟨o, h1, ?_⟩
  rw [Fintype.card_perm, Fintype.card_fin] at h2
  refine le_of_eq_of_le ?_ h2
  congr 2
  exact Finset.sum_congr rfl fun π _ => by rw [one_div_mul_eq_div]

/-- C105: if distances are dealt at random to the places Ω of the pairs of lines, all permutations being equally likely, every row of the results has the expected score 1/2, up to 2^-52.  Two pairs may have the same place: (A, B) and (B, A), say.
Missing: as in `C105_constant_partial`. -/
theorem C105_dealt_partial {Ω : Type} [Fintype Ω] [DecidableEq Ω] {e : Equiv.Perm Ω → Env} {T : Equiv.Perm Ω → Task.Task (Nat × List (Option Val))} {c : Equiv.Perm Ω → Choices}
    {getFeat : Equiv.Perm Ω → Nat × List (Option Val) → Except Err φ} {distance : Equiv.Perm Ω → φ → φ → Except Err δ} {lt : δ → δ → Bool} {F : Equiv.Perm Ω → File} {S : Equiv.Perm Ω → List Int}
    (P : ∀ π, PlainRun (e π) fs f r loc x lab on across by_ (T π) (c π) (getFeat π) (distance π) lt (F π) (S π))
    {vars : Equiv.Perm Ω → List Var} {rows : Equiv.Perm Ω → List OutRow} (hr : ∀ π, RunRows (e π) r loc x lab on across by_ (T π) (c π) (F π) (S π) (vars π) (rows π))
    {key : List Val} (hk : by_ = [] → key = [.int 0]) {D : Ω → δ} {pair : Nat → Nat → Ω} (hd : Dealt D pair (fun π => lineDist loc (getFeat π) (distance π)) (levelLines r (3 + loc.length) (x :: lab) by_ key))
    {l : Labels} (hl : l.Possible across) (hne : lineGroup (lineLabel loc x lab) on across (levelLines r (3 + loc.length) (x :: lab) by_ key) l ≠ []) :
    ∃ o : Equiv.Perm Ω → OutRow, (∀ π, TheRow on (vars π) (rows π) key l (lineGroup (lineLabel loc x lab) on across (levelLines r (3 + loc.length) (x :: lab) by_ key) l).length (o π)) ∧
      |∑ π, (o π).score / (Fintype.card Ω).factorial - 1 / 2| ≤ 2 ^ (-52 : ℤ) := by
  obtain ⟨o, h1, h2⟩ := C105_chance_partial P hr hk hd.uninformative hl hne
  refine ⟨o, h1, ?_⟩
  rw [Fintype.card_perm] at h2
  refine le_of_eq_of_le ?_ h2
  congr 2
  exact Finset.sum_congr rfl fun π _ => by rw [one_div_mul_eq_div]
end

/-- the features of line `i` of five lines, shuffled -/
def shuffledFeat (π : Equiv.Perm (Fin 5)) (ρ : Nat × List (Option Val)) : Fin 5 := π (Fin.ofNat 5 ρ.1)

/-- C105, example: for each of the 120 ways of shuffling the features of the file of five lines the experiment can be run, one row has four triplets, and its expected score is 1/2 up to 2^-52 -/
example (n m : Nat) : ∃ (T : Equiv.Perm (Fin 5) → Task.Task (Nat × List (Option Val))) (F : Equiv.Perm (Fin 5) → File) (S : Equiv.Perm (Fin 5) → List Int) (vars : Equiv.Perm (Fin 5) → List Var) (rows : Equiv.Perm (Fin 5) → List OutRow)
    (o : Equiv.Perm (Fin 5) → OutRow),
    (∀ π, PlainRun E0 (oneFile (tx "d.item") exFile5) (tx "d") exFile5 [] (tx "on") [tx "sp"] "on" ["sp"] [] (T π) (choices0 (n + 1) (m + 1)) (fun ρ => .ok (shuffledFeat π ρ)) (fun v w => .ok (exDist v w)) (fun x y => decide (x < y)) (F π) (S π)) ∧
    (∀ π, RunRows E0 exFile5 [] (tx "on") [tx "sp"] "on" ["sp"] [] (T π) (choices0 (n + 1) (m + 1)) (F π) (S π) (vars π) (rows π)) ∧
    (∀ π, TheRow "on" (vars π) (rows π) [.int 0] labels2 4 (o π)) ∧ |∑ π, (o π).score / 120 - 1 / 2| ≤ 2 ^ (-52 : ℤ) := by
  have hlt : ∀ x y : Nat, decide (x < y) = true → decide (y < x) = false := by intro x y h; simp at h ⊢; omega
  have hC : Columns [tx "on", tx "sp"] "on" ["sp"] [] := ⟨by decide, by decide, by decide, by decide⟩
  have hposs : labels2.Possible ["sp"] := ⟨by decide, fun _ _ => by show (Val.int 1) ≠ .int 2; decide⟩
  have hp : ([.int 0, .int 1, .int 2, .str "a", .int 1].map some, 0) ∈ complete exFile5 3 := by decide +kernel
  have hlen : (lineGroup (lineLabel [] (tx "on") [tx "sp"]) "on" ["sp"] (levelLines exFile5 3 [tx "on", tx "sp"] [] [.int 0]) labels2).length = 4 := by decide +kernel
  have hne : lineGroup (lineLabel [] (tx "on") [tx "sp"]) "on" ["sp"] (levelLines exFile5 3 [tx "on", tx "sp"] [] [.int 0]) labels2 ≠ [] := by intro h0; rw [h0] at hlen; cases hlen
  have hl := choices0_lawful (n := n + 1) (m := m + 1) (Nat.zero_lt_succ _)
  have hrun : ∀ π : Equiv.Perm (Fin 5), ∃ T F S vars rows,
      PlainRun E0 (oneFile (tx "d.item") exFile5) (tx "d") exFile5 [] (tx "on") [tx "sp"] "on" ["sp"] [] T (choices0 (n + 1) (m + 1)) (fun ρ => .ok (shuffledFeat π ρ)) (fun v w => .ok (exDist v w)) (fun x y => decide (x < y)) F S ∧
      RunRows E0 exFile5 [] (tx "on") [tx "sp"] "on" ["sp"] [] T (choices0 (n + 1) (m + 1)) F S vars rows := by
    intro π
    obtain ⟨T, F, S, h1, h2, h3⟩ := C84_ends_partial E0_lawful exFile5_ok hC (by unfold NoGap; decide +kernel) (by decide) hp (key := [.int 0]) rfl hposs hne (.inl (by decide)) hl (Nat.zero_lt_succ _)
      (getFeat := fun ρ => .ok (shuffledFeat π ρ)) (distance := fun v w => .ok (exDist v w)) (fun _ _ => ⟨_, rfl⟩) (fun _ _ _ _ _ _ _ _ => ⟨_, rfl⟩) 0 (lt := fun x y => decide (x < y)) hlt
    have P : PlainRun E0 (oneFile (tx "d.item") exFile5) (tx "d") exFile5 [] (tx "on") [tx "sp"] "on" ["sp"] [] T (choices0 (n + 1) (m + 1)) (fun ρ => .ok (shuffledFeat π ρ)) (fun v w => .ok (exDist v w)) (fun x y => decide (x < y)) F S :=
      ⟨E0_lawful, exFile5_ok, by decide, h1, List.ne_nil_of_mem hp, by unfold FewLineLabels; decide +kernel, h2, hl, hlt, h3⟩
    obtain ⟨vars, rows, R, -⟩ := P.rows
    exact ⟨T, F, S, vars, rows, P, R⟩
  choose T F S vars rows P R using hrun
  have hS : Shuffled (n := exFile5.rows.length) (fun i j => exDist i j) (fun π => lineDist [] (fun ρ => .ok (shuffledFeat π ρ)) (fun v w => .ok (exDist v w))) (levelLines exFile5 3 [tx "on", tx "sp"] [] [.int 0]) := by
    intro π A hA X hX i j hi hj
    have hf : ∀ (p : Line) (i : Fin 5), p.2 = i → shuffledFeat π (record 3 p) = π i := by
      intro p i h
      show π (Fin.ofNat 5 p.2) = π i
      rw [h]
      congr 1
      exact Fin.ext (Nat.mod_eq_of_lt i.2)
    show Except.ok (exDist (shuffledFeat π (record 3 A)) (shuffledFeat π (record 3 X))) = _
    rw [hf A i hi, hf X j hj]
  obtain ⟨o, h1, h2⟩ := C105_shuffled_partial (r := exFile5) (e := fun _ => E0) (T := T) (c := fun _ => choices0 (n + 1) (m + 1)) (getFeat := fun π ρ => .ok (shuffledFeat π ρ)) (distance := fun _ v w => .ok (exDist v w)) (F := F) (S := S) P R (key := [.int 0]) (fun _ => rfl) hS hposs hne
  refine ⟨T, F, S, vars, rows, o, P, R, fun π => ?_, ?_⟩
  · have := h1 π
    rw [← hlen]
    exact this
  · have h5 : ((exFile5.rows.length).factorial : ℚ) = 120 := by
      have : exFile5.rows.length = 5 := rfl
      rw [this]
      norm_num [Nat.factorial]
    rw [h5] at h2
    exact h2

#print axioms C105_constant_partial
#print axioms C105_reversed_partial
#print axioms C105_chance_partial
#print axioms C105_shuffled_partial
#print axioms C105_dealt_partial

end ABX.Database
