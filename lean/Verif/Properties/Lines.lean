import Verif.Proofs.Lines
/-!
C84: from the lines of the item file to the results of a plain experiment.
-/
namespace ABX.Database
open ABX.Spec Spec SideOps ABX.Task ABX.Pipeline Analyze ExtSort
variable {φ δ : Type} {fs : Text → Option (Raw Val)} {f : Text} {r : Raw Val} {loc : List Text} {x : Text} {lab : List Text} {on : String} {across by_ : List String}

/-- the label of a line in a column of the item file -/
def lineLabel (loc : List Text) (x : Text) (lab : List Text) (p : Line) (c : String) : Option Val := label (3 + loc.length) (x :: lab) p.1 c

/-- the level of a line: its labels in the by columns, or the level 0 when there is no by column -/
def lineLevel (loc : List Text) (x : Text) (lab : List Text) (by_ : List String) (p : Line) (key : List Val) : Prop :=
  if by_ = [] then key = [.int 0] else by_.map (lineLabel loc x lab p) = key.map some

/-- the number of combinations of labels of the complete lines is at most 2^53 -/
def FewLineLabels (r : Raw Val) (loc : List Text) (x : Text) (lab : List Text) (on : String) (across : List String) : Prop :=
  ((on :: across).map (fun c => (((complete r (3 + loc.length)).map (fun p => lineLabel loc x lab p c)).dedup.length) ^ 2)).prod ≤ 2 ^ 53

theorem few_lines (hI : ItemFile fs f r loc x lab) (hC : Columns (x :: lab) on across by_) (h : FewLineLabels r loc x lab on across) :
    FewLabels (plainArgs r (3 + loc.length) (x :: lab) on across by_) := by
  unfold FewLineLabels at h
  unfold FewLabels
  refine le_of_eq_of_le (congrArg List.prod (List.map_congr_left fun c hc => ?_)) h
  have hc' : c.toList ∈ x :: lab := by
    rcases List.mem_cons.mp hc with rfl | hc
    · exact hC.on
    · exact hC.across c hc
  have h1 : (complete r (3 + loc.length)).map (fun p => lineLabel loc x lab p c) = ((plainArgs r (3 + loc.length) (x :: lab) on across by_).db.map (fun p => p.2 c)).map some := by
    show _ = (((complete r (3 + loc.length)).map _).map _).map _
    rw [List.map_map, List.map_map]
    exact List.map_congr_left fun p hp => label_toRow (hlen hI) hp (mem_ofList.mpr hc')
  rw [h1, List.dedup_map_of_injective (Option.some_injective _), List.length_map]

theorem level_lines (hI : ItemFile fs f r loc x lab) (hC : Columns (x :: lab) on across by_) (key : List Val) :
    (∃ p ∈ (plainArgs r (3 + loc.length) (x :: lab) on across by_).db, levelKey (plainArgs r (3 + loc.length) (x :: lab) on across by_) p.2 = key) ↔
      ∃ p ∈ complete r (3 + loc.length), lineLevel loc x lab by_ p key := by
  have h1 : ∀ p ∈ complete r (3 + loc.length), levelKey (plainArgs r (3 + loc.length) (x :: lab) on across by_) (rowOfLine (3 + loc.length) (x :: lab) p) = key ↔ lineLevel loc x lab by_ p key := by
    intro p hp
    unfold levelKey lineLevel
    show (if by_ = [] then _ else _) = key ↔ _
    by_cases hb : by_ = []
    · rw [if_pos hb, if_pos hb]; exact eq_comm
    · rw [if_neg hb, if_neg hb]
      have hlab : by_.map (lineLabel loc x lab p) = (by_.map (rowOfLine (3 + loc.length) (x :: lab) p)).map some := by
        rw [List.map_map]
        exact List.map_congr_left fun c hc => label_toRow (hlen hI) hp (mem_ofList.mpr (hC.by_ c hc))
      rw [hlab]
      exact ⟨fun h => by rw [← h]; rfl, fun h => List.map_injective_iff.mpr (Option.some_injective _) h⟩
  constructor
  · rintro ⟨q, hq, hk⟩
    obtain ⟨p, hp, rfl⟩ := List.mem_map.mp hq
    exact ⟨p, hp, (h1 p hp).mp hk⟩
  · rintro ⟨p, hp, hk⟩
    exact ⟨_, List.mem_map.mpr ⟨p, hp, rfl⟩, (h1 p hp).mpr hk⟩

theorem group_in_lines (hI : ItemFile fs f r loc x lab) (hC : Columns (x :: lab) on across by_) (key : List Val) (l : Labels) :
    lineGroup (lineLabel loc x lab) on across (levelLines r (3 + loc.length) (x :: lab) by_ key) l =
      (group on across (itemsOf (plainArgs r (3 + loc.length) (x :: lab) on across by_) key) l).map (lineTri (levelLines r (3 + loc.length) (x :: lab) by_ key)) := by
  rw [items_lines hI hC]
  refine group_lines (levelLines_nodup ..) ?_ l
  intro p hp c hc
  have hc' : c.toList ∈ x :: lab := by
    rcases hc with rfl | hc
    · exact hC.on
    · exact hC.across c hc
  exact label_toRow (hlen hI) (List.mem_filter.mp hp).1 (mem_ofList.mpr hc')

/-- `C84_lines_partial`, with the regressors of the task -/
theorem lines_results {e : Env} (he : e.Lawful) (hI : ItemFile fs f r loc x lab) (hs : r.rows.length ^ 3 < 2 ^ 64) {T : Task.Task (Nat × List (Option Val))}
    (h : fromFile e fs f on across by_ [] [] = .ok T) (hdb : complete r (3 + loc.length) ≠ []) (hc : FewLineLabels r loc x lab on across)
    (hz : Sizes (plainArgs r (3 + loc.length) (x :: lab) on across by_) T) {c : Choices} (hl : c.Lawful)
    {getFeat : Nat × List (Option Val) → Except Err φ} {distance : φ → φ → Except Err δ} {lt : δ → δ → Bool} (hlt : ∀ x y, lt x y = true → lt y x = false) {F : File} {S : List Int}
    (hr : Ran c e T getFeat distance lt F S) :
    ∃ vars outs, vars.Perm (plainVars on across) ∧ colRegs T.regressors = vars.map (columnReg e (plainArgs r (3 + loc.length) (x :: lab) on across by_).db) ∧
      collapse c.sortRows (vars.map (fun v => columnIndex e.sort ((plainArgs r (3 + loc.length) (x :: lab) on across by_).db.map (fun p => p.2 v.1)))) F S = .ok outs.flatten ∧
      F.bys.Nodup ∧ (∀ key, key ∈ F.bys ↔ (∃ p ∈ complete r (3 + loc.length), lineLevel loc x lab by_ p key) ∧
        ∃ l : Labels, l.Possible across ∧ lineGroup (lineLabel loc x lab) on across (levelLines r (3 + loc.length) (x :: lab) by_ key) l ≠ []) ∧
      List.Forall₂ (fun key out => ∃ abx : Line × Line × Line → ℚ,
        (∀ l : Labels, l.Possible across → ∀ t ∈ lineGroup (lineLabel loc x lab) on across (levelLines r (3 + loc.length) (x :: lab) by_ key) l,
          IsLineAbx lt (fun p p' => recDist getFeat distance (record (3 + loc.length) p) (record (3 + loc.length) p')) t (abx t)) ∧
        PlainResults on across vars key (lineGroup (lineLabel loc x lab) on across (levelLines r (3 + loc.length) (x :: lab) by_ key)) abx out) F.bys outs := by
  have hO : Ops (x :: lab) on across by_ [] [] := ⟨by simp, by simp, by simp, by simp⟩
  obtain ⟨hC, -, hg⟩ := (C61_file_created_iff he hI hO hs).mp ⟨T, h⟩
  rw [fromFile_args hI hC] at h
  have hpos : ∀ (i : Nat) (p : Nat × Row), (plainArgs r (3 + loc.length) (x :: lab) on across by_).db[i]? = some p → p.1 = i := by
    intro i p hp
    have h1 : (plainArgs r (3 + loc.length) (x :: lab) on across by_).db.map (·.1) = (complete r (3 + loc.length)).map (·.2) := by
      show ((complete r (3 + loc.length)).map _).map _ = _
      rw [List.map_map]
      rfl
    have h2 : ((plainArgs r (3 + loc.length) (x :: lab) on across by_).db.map (·.1))[i]? = some p.1 := by rw [List.getElem?_map, hp]; rfl
    rw [h1, hg] at h2
    obtain ⟨_, h3⟩ := List.getElem?_eq_some_iff.mp h2
    rw [List.getElem_range] at h3
    exact h3.symm
  have hgrp := fun key l => group_in_lines hI hC key l
  obtain ⟨vars, outs, o1, o2, o3, o4, o5, o6⟩ := C83_results_partial he (argsOf_ok (r := r) (3 + loc.length) hC hO hs) ⟨rfl, rfl, rfl⟩
    (by intro h0; exact hdb (List.map_eq_nil_iff.mp h0)) h hpos (by show ((complete r (3 + loc.length)).map _).length = ((complete r (3 + loc.length)).map _).length; simp) (few_lines hI hC hc) hz hl hlt hr
  refine ⟨vars, outs, o1, o2, o3, o4, ?_, o6.imp ?_⟩
  · intro key
    rw [o5, level_lines hI hC]
    refine and_congr_right fun _ => exists_congr fun l => and_congr_right fun _ => ?_
    rw [hgrp]
    simp only [ne_eq, List.map_eq_nil_iff]
    rfl
  · rintro key out ⟨abx, h1, h2⟩
    have h3 : ∀ l : Labels, l.Possible across → ∀ t ∈ group on across (itemsOf (plainArgs r (3 + loc.length) (x :: lab) on across by_) key) l,
        IsLineAbx lt (fun p p' => recDist getFeat distance (record (3 + loc.length) p) (record (3 + loc.length) p')) (lineTri (levelLines r (3 + loc.length) (x :: lab) by_ key) t) (abx t) := by
      intro l hl t ht
      have := h1 l hl t ht
      have hrec := records_lines hI hC key
      have hthis : IsAbx lt (recDist getFeat distance) (records by_ ((plainArgs r (3 + loc.length) (x :: lab) on across by_).db.map (·.2)) (plainArgs r (3 + loc.length) (x :: lab) on across by_).feat
        (specKey (plainArgs r (3 + loc.length) (x :: lab) on across by_) key)) t (abx t) := this
      rw [hrec] at hthis
      exact abx_lines hthis
    classical
    refine ⟨fun u => if hu : ∃ q, IsLineAbx lt (fun p p' => recDist getFeat distance (record (3 + loc.length) p) (record (3 + loc.length) p')) u q then hu.choose else 0, ?_,
      PlainResults.transfer (lineTri (levelLines r (3 + loc.length) (x :: lab) by_ key)) (hgrp key) ?_ h2⟩
    · intro l hl t ht
      rw [hgrp] at ht
      obtain ⟨u, hu, rfl⟩ := List.mem_map.mp ht
      have hex : ∃ q, IsLineAbx lt (fun p p' => recDist getFeat distance (record (3 + loc.length) p) (record (3 + loc.length) p')) (lineTri (levelLines r (3 + loc.length) (x :: lab) by_ key) u) q := ⟨_, h3 l hl u hu⟩
      simp only [dif_pos hex]
      exact hex.choose_spec
    · intro l hl t ht
      have hex : ∃ q, IsLineAbx lt (fun p p' => recDist getFeat distance (record (3 + loc.length) p) (record (3 + loc.length) p')) (lineTri (levelLines r (3 + loc.length) (x :: lab) by_ key) t) q := ⟨_, h3 l hl t ht⟩
      simp only [dif_pos hex]
      exact IsLineAbx.unique hex.choose_spec (h3 l hl t ht)

/-- C84: the results of an experiment, from the lines of its item file.  A plain task (neither filters nor regressors) is created from the file and the experiment runs to its end, with any sorts, buffers, number of cpus and order of the
distance jobs.  Then the rows of the results are, for each level that has triplets, one row for each combination of labels for which the level has complete lines: with these labels, the number of triplets of
lines, and up to 2^-52 the mean of their ABX scores, computed from the features of the records (file, onset, offset) that stand in these same lines.  Missing: sizes as in C83. -/
theorem C84_lines_partial {e : Env} (he : e.Lawful) (hI : ItemFile fs f r loc x lab) (hs : r.rows.length ^ 3 < 2 ^ 64) {T : Task.Task (Nat × List (Option Val))}
    (h : fromFile e fs f on across by_ [] [] = .ok T) (hdb : complete r (3 + loc.length) ≠ []) (hc : FewLineLabels r loc x lab on across)
    (hz : Sizes (plainArgs r (3 + loc.length) (x :: lab) on across by_) T) {c : Choices} (hl : c.Lawful)
    {getFeat : Nat × List (Option Val) → Except Err φ} {distance : φ → φ → Except Err δ} {lt : δ → δ → Bool} (hlt : ∀ x y, lt x y = true → lt y x = false) {F : File} {S : List Int}
    (hr : Ran c e T getFeat distance lt F S) :
    ∃ vars outs, vars.Perm (plainVars on across) ∧
      collapse c.sortRows (vars.map (fun v => columnIndex e.sort ((plainArgs r (3 + loc.length) (x :: lab) on across by_).db.map (fun p => p.2 v.1)))) F S = .ok outs.flatten ∧
      F.bys.Nodup ∧ (∀ key, key ∈ F.bys ↔ (∃ p ∈ complete r (3 + loc.length), lineLevel loc x lab by_ p key) ∧
        ∃ l : Labels, l.Possible across ∧ lineGroup (lineLabel loc x lab) on across (levelLines r (3 + loc.length) (x :: lab) by_ key) l ≠ []) ∧
      List.Forall₂ (fun key out => ∃ abx : Line × Line × Line → ℚ,
        (∀ l : Labels, l.Possible across → ∀ t ∈ lineGroup (lineLabel loc x lab) on across (levelLines r (3 + loc.length) (x :: lab) by_ key) l,
          IsLineAbx lt (fun p p' => recDist getFeat distance (record (3 + loc.length) p) (record (3 + loc.length) p')) t (abx t)) ∧
        PlainResults on across vars key (lineGroup (lineLabel loc x lab) on across (levelLines r (3 + loc.length) (x :: lab) by_ key)) abx out) F.bys outs := by
  obtain ⟨vars, outs, o1, -, o3⟩ := lines_results he hI hs h hdb hc hz hl hlt hr
  exact ⟨vars, outs, o1, o3⟩

theorem trips_length_le {ρ : Type} (a : Args ρ) (key : List Val) : (tripsSpec a key).length ≤ (itemsOf a key).length ^ 3 := by
  unfold tripsSpec itemTriplets triples
  refine (List.length_filter_le _ _).trans ?_
  rw [flatMap_length_const (n := (itemsOf a key).length * (itemsOf a key).length) (fun A _ => flatMap_length_const (fun B _ => by simp))]
  rw [pow_three]

theorem level_key_db {ρ : Type} {e : Env} (he : e.Lawful) {a : Args ρ} (ha : a.OK) {T : Task.Task ρ} (h : init e a = .ok T) {L : Level ρ} (hL : L ∈ T.levels) : ∃ p ∈ a.db, levelKey a p.2 = L.key := by
  obtain ⟨fr0, I⟩ := init_level he ha h hL
  obtain ⟨q, hq, hqk⟩ := I.keyMem
  obtain ⟨p, hp, hpq⟩ := forall₂_mem_left (prep_sim a) q hq
  refine ⟨p, hp, ?_⟩
  rw [← hqk]
  unfold levelKey
  by_cases hb : a.by_ = []
  · rw [if_pos hb, (prep_by a hb).1, keyOf, List.map_cons, List.map_nil, (prep_by a hb).2 q hq]
  · rw [if_neg hb, prep_by' a hb, keyOf]
    obtain ⟨_, _, h3, h4⟩ := checkDatabase_ok (init_ok h).1
    apply List.map_congr_left
    intro c hc
    exact (hpq.2 c (h4 c (h3 c hc)).1 (h4 c (h3 c hc)).2).symm

/-- a small file has small sizes: at most 3535 lines, and at most 128 lines or a level with as many triplets as there are lines -/
theorem sizes_lines {e : Env} (he : e.Lawful) (hI : ItemFile fs f r loc x lab) (hC : Columns (x :: lab) on across by_) {T : Task.Task (Nat × List (Option Val))}
    (h : init e (plainArgs r (3 + loc.length) (x :: lab) on across by_) = .ok T) (hN : r.rows.length ≤ 3535)
    (hfit : r.rows.length ≤ 128 ∨ ∃ p ∈ (plainArgs r (3 + loc.length) (x :: lab) on across by_).db,
      r.rows.length ≤ (tripsSpec (plainArgs r (3 + loc.length) (x :: lab) on across by_) (levelKey (plainArgs r (3 + loc.length) (x :: lab) on across by_) p.2)).length) :
    Sizes (plainArgs r (3 + loc.length) (x :: lab) on across by_) T ∧ ∀ key, (itemsOf (plainArgs r (3 + loc.length) (x :: lab) on across by_) key).length ≤ 3535 := by
  have hO : Ops (x :: lab) on across by_ [] [] := ⟨by simp, by simp, by simp, by simp⟩
  have hs : r.rows.length ^ 3 < 2 ^ 64 := lt_of_le_of_lt (Nat.pow_le_pow_left hN 3) (by norm_num)
  have ha := argsOf_ok (r := r) (3 + loc.length) hC hO hs
  have hit : ∀ key, (itemsOf (plainArgs r (3 + loc.length) (x :: lab) on across by_) key).length ≤ r.rows.length := by
    intro key
    rw [items_lines hI hC, List.length_map, List.length_zipIdx]
    unfold levelLines complete
    exact (List.length_filter_le _ _).trans ((List.length_filter_le _ _).trans (by simp))
  have hdb : (plainArgs r (3 + loc.length) (x :: lab) on across by_).db.length ≤ r.rows.length := by
    show ((complete r (3 + loc.length)).map _).length ≤ _
    rw [List.length_map]
    unfold complete
    exact (List.length_filter_le _ _).trans (by simp)
  have hlev : T.levels.length ≤ r.rows.length := by
    have hn := init_keys_nodup he ha h
    have hsub : T.levels.map (·.key) ⊆ (plainArgs r (3 + loc.length) (x :: lab) on across by_).db.map (fun p => levelKey (plainArgs r (3 + loc.length) (x :: lab) on across by_) p.2) := by
      intro k hk
      obtain ⟨L, hL, rfl⟩ := List.mem_map.mp hk
      obtain ⟨p, hp, hk⟩ := level_key_db he ha h hL
      exact List.mem_map.mpr ⟨p, hp, hk⟩
    have := (List.subperm_of_subset hn hsub).length_le
    simp only [List.length_map] at this
    exact this.trans hdb
  refine ⟨⟨?_, fun L _ => (hit L.key).trans (hN.trans (by norm_num)), ?_⟩, fun key => (hit key).trans hN⟩
  · intro L hL
    rcases hfit with h1 | ⟨p, hp, h1⟩
    · exact le_max_of_le_left ((hit L.key).trans h1)
    · obtain ⟨L', hL', hk⟩ := C02_levels he rfl h hp
      refine le_max_of_le_right ((hit L.key).trans (h1.trans ?_))
      rw [← hk]
      exact List.single_le_sum (by simp) _ (List.mem_map.mpr ⟨L', hL', rfl⟩)
  · have h1 : ∀ n ∈ T.levels.map (fun L => (tripsSpec (plainArgs r (3 + loc.length) (x :: lab) on across by_) L.key).length), n ≤ 3535 ^ 3 := by
      intro n hn
      obtain ⟨L, hL, rfl⟩ := List.mem_map.mp hn
      exact (trips_length_le _ _).trans (Nat.pow_le_pow_left ((hit L.key).trans hN) 3)
    have := List.sum_le_card_nsmul _ _ h1
    rw [List.length_map] at this
    change _ ≤ T.levels.length * 3535 ^ 3 at this
    exact this.trans ((Nat.mul_le_mul_right _ (hlev.trans hN)).trans (by norm_num))

/-- C84: the experiment of a plain task from a small item file can be carried out: the file has at most 3535 lines, none of them incomplete before a complete one, its columns exist, there is a group of triplets, with at least as many
triplets as there are lines if there are more than 128 of them, and the features of the records and their distances can be computed.  Then for all choices, with at least one cpu, the task is created and the experiment can be run to its
end, and the condition on sizes of `C84_lines_partial` holds. -/
theorem C84_ends_partial {e : Env} (he : e.Lawful) (hI : ItemFile fs f r loc x lab) (hC : Columns (x :: lab) on across by_) (hg : NoGap r (3 + loc.length)) (hN : r.rows.length ≤ 3535)
    {p : Line} (hp : p ∈ complete r (3 + loc.length)) {key : List Val} (hk : lineLevel loc x lab by_ p key) {l : Labels} (hl : l.Possible across)
    (hne : lineGroup (lineLabel loc x lab) on across (levelLines r (3 + loc.length) (x :: lab) by_ key) l ≠ [])
    (hfit : r.rows.length ≤ 128 ∨ r.rows.length ≤ (lineGroup (lineLabel loc x lab) on across (levelLines r (3 + loc.length) (x :: lab) by_ key) l).length)
    {c : Choices} (hc : c.Lawful) (hcpu : 0 < c.nCpu) {getFeat : Nat × List (Option Val) → Except Err φ} {distance : φ → φ → Except Err δ}
    (hf : ∀ p ∈ complete r (3 + loc.length), ∃ v, getFeat (record (3 + loc.length) p) = .ok v) (hd : ∀ p ∈ complete r (3 + loc.length), ∀ p' ∈ complete r (3 + loc.length), ∀ v w, getFeat (record (3 + loc.length) p) = .ok v → getFeat (record (3 + loc.length) p') = .ok w → ∃ d, distance v w = .ok d) (zero : δ) {lt : δ → δ → Bool} (hlt : ∀ x y, lt x y = true → lt y x = false) :
    ∃ T F S, fromFile e fs f on across by_ [] [] = .ok T ∧ Sizes (plainArgs r (3 + loc.length) (x :: lab) on across by_) T ∧ Ran c e T getFeat distance lt F S := by
  have hO : Ops (x :: lab) on across by_ [] [] := ⟨by simp, by simp, by simp, by simp⟩
  have hs : r.rows.length ^ 3 < 2 ^ 64 := lt_of_le_of_lt (Nat.pow_le_pow_left hN 3) (by norm_num)
  obtain ⟨T, hT⟩ := (C61_file_created_iff he hI hO hs).mpr ⟨hC, by simp, hg⟩
  have h := hT
  rw [fromFile_args hI hC] at h
  have ha := argsOf_ok (r := r) (3 + loc.length) hC hO hs
  have hpl : Plain (plainArgs r (3 + loc.length) (x :: lab) on across by_) := ⟨rfl, rfl, rfl⟩
  obtain ⟨q, hq, hqk⟩ := (level_lines hI hC key).mpr ⟨p, hp, hk⟩
  have hgl := group_in_lines hI hC key l
  rw [hgl, List.length_map] at hfit
  rw [hgl] at hne
  have hne' : group on across (itemsOf (plainArgs r (3 + loc.length) (x :: lab) on across by_) key) l ≠ [] := fun h0 => hne (by rw [h0]; rfl)
  have hle : (group on across (itemsOf (plainArgs r (3 + loc.length) (x :: lab) on across by_) key) l).length ≤ (tripsSpec (plainArgs r (3 + loc.length) (x :: lab) on across by_) key).length := by
    have hsub : (group on across (itemsOf (plainArgs r (3 + loc.length) (x :: lab) on across by_) key) l).Sublist (tripsSpec (plainArgs r (3 + loc.length) (x :: lab) on across by_) key) := by
      obtain ⟨t, ht⟩ := List.exists_mem_of_ne_nil _ hne'
      have ht' := group_trips hpl hl ht
      obtain ⟨-, -, -, g1, g2, g3, g4, g5, g6, -⟩ := mem_group.mp ht
      have := filter_group hpl he (List.Perm.refl _) ht'
      rw [← group_congr (l := labelsOfTrip on t) (l' := l) _ ⟨g1, g3, g2, g6⟩]
      show (group (plainArgs r (3 + loc.length) (x :: lab) on across by_).on (plainArgs r (3 + loc.length) (x :: lab) on across by_).across _ (labelsOfTrip (plainArgs r (3 + loc.length) (x :: lab) on across by_).on t)).Sublist _
      rw [← this]
      exact List.filter_sublist
    exact hsub.length_le
  obtain ⟨hz, hit⟩ := sizes_lines he hI hC h hN (hfit.imp id fun h1 => ⟨q, hq, by rw [hqk]; exact h1.trans hle⟩)
  obtain ⟨F, S, hr⟩ := C77_completes_partial he ha (.of_not_bare (by intro g hg; cases hg)) h
    ⟨q, hq, by
      rw [hqk]
      obtain ⟨t, ht⟩ := List.exists_mem_of_ne_nil _ hne'
      exact List.ne_nil_of_mem (group_trips hpl hl ht)⟩ (by intro g hg; cases hg) hz (.inr fun L _ => hit L.key) hc hcpu (getFeat := getFeat) (distance := distance)
    (by
      intro ρ hρ
      obtain ⟨p', hp', rfl⟩ := List.mem_map.mp hρ
      exact hf p' hp')
    (by
      intro ρ hρ ρ' hρ'
      obtain ⟨p', hp', rfl⟩ := List.mem_map.mp hρ
      obtain ⟨p'', hp'', rfl⟩ := List.mem_map.mp hρ'
      exact hd p' hp' p'' hp'') zero hlt
  exact ⟨T, F, S, hT, hz, hr⟩

/-- an item file with five lines: two sounds, two speakers -/
def exFile5 : Raw Val :=
  ⟨[tx "#file", tx "onset", tx "offset", tx "#on", tx "sp"],
    [[.int 0, .int 1, .int 2, .str "a", .int 1].map some, [.int 0, .int 2, .int 3, .str "b", .int 1].map some, [.int 1, .int 1, .int 2, .str "a", .int 2].map some,
     [.int 1, .int 2, .int 3, .str "b", .int 1].map some, [.int 1, .int 3, .int 4, .str "a", .int 1].map some]⟩

theorem exFile5_ok : ItemFile (oneFile (tx "d.item") exFile5) (tx "d") exFile5 [] (tx "on") [tx "sp"] :=
  ⟨rfl, by show Named [tx "#file", tx "onset", tx "offset", tx "#on", tx "sp"]; unfold Named; decide, ⟨rfl, by decide, by decide⟩, by decide, by
    intro c hc
    simp only [List.mem_cons, List.not_mem_nil, or_false] at hc
    rcases hc with rfl | rfl <;> exact Or.inr rfl⟩

/-- C84, example: the file of five lines, on the sound across the speaker, with any number of cpus and any length of the buffer of the scores: the task is created, the experiment can be run, and there is a row for A = a and B = b of
speaker 1, X = a of speaker 2, with 2 * 2 * 1 triplets of lines -/
example (n m : Nat) : ∃ T F S, ∃ vars : List Var, ∃ rows : List OutRow, fromFile E0 (oneFile (tx "d.item") exFile5) (tx "d") "on" ["sp"] [] [] [] = .ok T ∧
    Ran (choices0 (n + 1) (m + 1)) E0 T (fun ρ => .ok (ρ.1 * ρ.1)) (fun v w => .ok (v % (w + 2) : Nat)) (fun x y => decide (x < y)) F S ∧
    collapse insArgsort (vars.map (fun v => columnIndex E0.sort ((plainArgs exFile5 3 [tx "on", tx "sp"] "on" ["sp"] []).db.map (fun p => p.2 v.1)))) F S = .ok rows ∧
    ∃ o ∈ rows, o.labels = vars.map (labels2.at "on") ∧ o.n = 4 := by
  have hlt : ∀ x y : Nat, decide (x < y) = true → decide (y < x) = false := by intro x y h; simp at h ⊢; omega
  have hC : Columns [tx "on", tx "sp"] "on" ["sp"] [] := ⟨by decide, by decide, by decide, by decide⟩
  have hp : ([.int 0, .int 1, .int 2, .str "a", .int 1].map some, 0) ∈ complete exFile5 3 := by decide +kernel
  have hposs : labels2.Possible ["sp"] := ⟨by decide, fun _ _ => by show (Val.int 1) ≠ .int 2; decide⟩
  have hlen : (lineGroup (lineLabel [] (tx "on") [tx "sp"]) "on" ["sp"] (levelLines exFile5 3 [tx "on", tx "sp"] [] [.int 0]) labels2).length = 4 := by decide +kernel
  have hne : lineGroup (lineLabel [] (tx "on") [tx "sp"]) "on" ["sp"] (levelLines exFile5 3 [tx "on", tx "sp"] [] [.int 0]) labels2 ≠ [] := by intro h0; rw [h0] at hlen; cases hlen
  have hl := choices0_lawful (n := n + 1) (m := m + 1) (Nat.zero_lt_succ _)
  obtain ⟨T, F, S, h1, h2, h3⟩ := C84_ends_partial E0_lawful exFile5_ok hC (by unfold NoGap; decide +kernel) (by decide) hp (key := [.int 0]) rfl hposs hne (.inl (by decide)) hl (Nat.zero_lt_succ _)
    (getFeat := fun ρ => .ok (ρ.1 * ρ.1)) (distance := fun v w => .ok (v % (w + 2) : Nat)) (fun _ _ => ⟨_, rfl⟩) (fun _ _ _ _ _ _ _ _ => ⟨_, rfl⟩) 0 (lt := fun x y => decide (x < y)) hlt
  obtain ⟨vars, outs, -, o2, -, o4, o5⟩ := C84_lines_partial E0_lawful exFile5_ok (by decide) h1 (List.ne_nil_of_mem hp) (by unfold FewLineLabels; decide +kernel) h2 hl hlt h3
  have hb := (o4 [.int 0]).mpr ⟨⟨_, hp, rfl⟩, labels2, hposs, hne⟩
  obtain ⟨out, hout, abx, -, hres⟩ := forall₂_mem_left o5 _ hb
  obtain ⟨o, ho, hrow⟩ := hres.all labels2 hposs hne
  exact ⟨T, F, S, vars, _, h1, h3, o2, o, List.mem_flatten.mpr ⟨out, hout, ho⟩, hrow.labels, hrow.n.trans hlen⟩

#print axioms C84_lines_partial
#print axioms C84_ends_partial

end ABX.Database
