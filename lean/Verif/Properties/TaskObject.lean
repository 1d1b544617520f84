import Verif.Proofs.TaskObject
/-!
Property C81: methods called one after the other on the same `Task`.

What a generation writes does not depend on what was called before (`C81_generate_partial`), except the index of the blocks and the regressors of
levels without triplets, which the later stages do not read (`C81_violated_file`).  What `print_stats` writes about the levels does not
either, but after a generation that deletes levels it raises KeyError unless it was called before it (`C81_print_partial`,
`C81_violated_print`).
-/
namespace ABX.Task
open ExtSort SideOps Sampler
open Database (Text)
variable {ρ : Type}

/-- the numbers of levels in the statistics -/
def nbAt (a : Args ρ) (printed : Bool) (key : List Val) : Option Nat :=
  if printed && a.filters.all (Spec.decidedEarly a.cols) then some (nbSpec a key) else none

/-- the total number of levels in the statistics -/
def nbTotal (a : Args ρ) (T : Task ρ) (printed : Bool) : Option Nat :=
  if printed && a.filters.all (Spec.decidedEarly a.cols) then some (T.levels.map (fun L => nbSpec a L.key)).sum else none

/-- the object after some calls -/
structure State (e : Env) (N : Num) (a : Args ρ) (T : Task ρ) (g : TaskStats) (ls : List (List Val × LevelStats)) (printed gen : Bool) (o : Obj ρ) : Prop where
  task : o.task = shrink a T gen
  stats : o.stats = { g with nbLevels := nbTotal a T printed }
  byStats : o.byStats = ls.map (fun p => (p.1, p.2, nbAt a printed p.1))
  genOk : gen = true → ∀ L ∈ T.levels, hasTrips a L = false → ∃ th src os, levelOut e N th src T L = .ok os ∧ os.flatMap BlkOut.trips = []

theorem new_inv {e : Env} {a : Args ρ} {o : Obj ρ} (h : Obj.new e a = .ok o) (N : Num) : ∃ T g ls, init e a = .ok T ∧ computeStatistics false e T = .ok (g, ls) ∧
    o.task = T ∧ State e N a T g ls false false o := by
  unfold Obj.new at h
  split at h
  · cases h
  rename_i T hT
  split at h
  · cases h
  rename_i g ls hc
  cases h
  exact ⟨T, g, ls, hT, hc, rfl, rfl, by rw [(computeStatistics_inv hc).2]; rfl, rfl, by simp⟩

theorem nbLoop_ok {e : Env} {T : Task ρ} {nb : List Val → Nat} : ∀ (Ls : List (Level ρ)) (bs : List (List Val × LevelStats × Option Nat)),
    (∀ L ∈ Ls, nbLevel e T L = .ok (nb L.key)) →
    nbLoop e T Ls bs = (bs.map (fun p => if p.1 ∈ Ls.map (·.key) then (p.1, p.2.1, some (nb p.1)) else p), none)
  | [], bs, _ => by simp [nbLoop]
  | L :: Ls, bs, h => by
    unfold nbLoop
    rw [h L (by simp)]
    dsimp only
    rw [nbLoop_ok Ls _ (fun L' hL' => h L' (by simp [hL']))]
    unfold setLevels
    rw [List.map_map]
    congr 1
    apply List.map_congr_left
    intro p _
    simp only [Function.comp_apply, List.map_cons, List.mem_cons]
    by_cases hk : p.1 = L.key
    · have hor : (p.1 = L.key ∨ p.1 ∈ Ls.map (·.key)) := .inl hk
      rw [if_pos hk, if_pos hor]
      dsimp only
      split
      · rfl
      · rw [hk]
    · rw [if_neg hk]
      simp only [hk, false_or]

theorem mapM_some {α β : Type} {f : α → Option β} {g : α → β} : ∀ {l : List α}, (∀ x ∈ l, f x = some (g x)) → l.mapM f = some (l.map g)
  | [], _ => rfl
  | x :: l, h => by
    rw [List.mapM_cons, h x (by simp), mapM_some (fun y hy => h y (by simp [hy]))]
    rfl

theorem mapM_none {α β : Type} {f : α → Option β} : ∀ {l : List α}, (∃ x ∈ l, f x = none) → l.mapM f = none
  | [], h => by obtain ⟨x, hx, _⟩ := h; cases hx
  | x :: l, h => by
    rw [List.mapM_cons]
    cases hx : f x with
    | none => rfl
    | some y =>
      obtain ⟨z, hz, hn⟩ := h
      rcases List.mem_cons.mp hz with rfl | hz
      · rw [hx] at hn; cases hn
      · rw [mapM_none ⟨z, hz, hn⟩]
        rfl

variable {e : Env} {N : Num} {a : Args ρ} {T : Task ρ} {g : TaskStats} {ls : List (List Val × LevelStats)} {printed gen : Bool} {o : Obj ρ}

theorem stat_keys (hc : computeStatistics false e T = .ok (g, ls)) : ls.map (·.1) = T.levels.map (·.key) := by
  have hF := (computeStatistics_inv hc).1
  clear hc
  generalize T.levels = lv at hF
  induction hF with
  | nil => rfl
  | cons hp _ ih => rw [List.map_cons, List.map_cons, ih, hp.1]

/-- the text of the levels -/
def levelsText (a : Args ρ) (ls : List (List Val × LevelStats)) : Text := ls.flatMap (fun p => levelText p.1 p.2 (nbAt a true p.1))

theorem computeNbLevels_ok (he : e.Lawful) (ha : a.OK) (hb : Spec'.KeptFirst a) (h : init e a = .ok T)
    (hc : computeStatistics false e T = .ok (g, ls)) (S : State e N a T g ls printed gen o) :
    (a.filters.all (Spec.decidedEarly a.cols) = false → o.computeNbLevels e = (o, some .valueError)) ∧
    (a.filters.all (Spec.decidedEarly a.cols) = true → printed = false → gen = true → (∃ L ∈ T.levels, hasTrips a L = false) → ∃ o', o.computeNbLevels e = (o', some .keyError)) ∧
    (a.filters.all (Spec.decidedEarly a.cols) = true → ¬ (printed = false ∧ gen = true ∧ ∃ L ∈ T.levels, hasTrips a L = false) →
      ∃ o', o.computeNbLevels e = (o', none) ∧ State e N a T g ls true gen o') := by
  have hmgr := (init_ok h).2.2.2.2.1
  have hfil : o.task.filters = T.filters := by rw [S.task]; cases gen <;> rfl
  have hno := noFilters_iff hmgr
  unfold Obj.computeNbLevels
  rw [hfil, hno]
  refine ⟨fun hd => by rw [hd]; rfl, ?_, ?_⟩
  all_goals intro hd
  all_goals
    rw [hd] at hno
    simp only [Bool.and_eq_true, List.isEmpty_iff] at hno
    have hnb : ∀ L ∈ T.levels, nbLevel e T L = .ok (nbSpec a L.key) := fun L hL =>
      nbLevel_all he ha hb h ⟨hno.1.1.1, hno.1.1.2, hno.1.2, hno.2⟩ hL
    have hsub : ∀ L ∈ o.task.levels, L ∈ T.levels := by
      rw [S.task]
      cases gen
      · exact fun L hL => hL
      · exact fun L hL => (List.mem_filter.mp hL).1
    have hnb' : ∀ L ∈ o.task.levels, nbLevel e o.task L = .ok (nbSpec a L.key) := by
      intro L hL
      rw [← hnb L (hsub L hL), S.task]
      cases gen <;> rfl
    have hloop := nbLoop_ok (nb := nbSpec a) o.task.levels o.byStats hnb'
    have hbs : (o.byStats.map (fun p => if p.1 ∈ o.task.levels.map (·.key) then (p.1, p.2.1, some (nbSpec a p.1)) else p)) =
        ls.map (fun p => (p.1, p.2, if p.1 ∈ o.task.levels.map (·.key) then some (nbSpec a p.1) else nbAt a printed p.1)) := by
      rw [S.byStats, List.map_map]
      apply List.map_congr_left
      intro p _
      simp only [Function.comp_apply]
      split <;> rfl
    rw [hbs] at hloop
    simp only [hd, Bool.not_true, Bool.false_eq_true, if_false, hloop]
  · intro hp hg ⟨L, hL, hno'⟩
    have hk : L.key ∈ ls.map (·.1) := by rw [stat_keys hc]; exact List.mem_map_of_mem hL
    obtain ⟨p, hp', hpk⟩ := List.mem_map.mp hk
    rw [mapM_none]
    · exact ⟨_, rfl⟩
    · refine ⟨_, List.mem_map_of_mem hp', ?_⟩
      dsimp only
      rw [if_neg ?_, hp]
      · simp [nbAt]
      · rw [hpk, S.task, hg]
        intro hm
        obtain ⟨L', hL', he'⟩ := List.mem_map.mp hm
        obtain ⟨h1', h2'⟩ := List.mem_filter.mp hL'
        have := List.inj_on_of_nodup_map (init_keys_nodup he ha h) h1' hL he'
        rw [this, hno'] at h2'
        cases h2'
  · intro hcond
    have hall : ls.map (fun p => (p.1, p.2, if p.1 ∈ o.task.levels.map (·.key) then some (nbSpec a p.1) else nbAt a printed p.1)) =
        ls.map (fun p => (p.1, p.2, nbAt a true p.1)) := by
      apply List.map_congr_left
      intro p hp
      congr 2
      have ht : nbAt a true p.1 = some (nbSpec a p.1) := by simp [nbAt, hd]
      rw [ht]
      split
      · rfl
      · rename_i hn
        cases printed with
        | true => rw [ht]
        | false =>
          exfalso
          apply hcond
          have hk : p.1 ∈ T.levels.map (·.key) := by rw [← stat_keys hc]; exact List.mem_map_of_mem hp
          obtain ⟨L, hL, hLk⟩ := List.mem_map.mp hk
          rw [S.task] at hn
          cases gen with
          | false => exact absurd hk hn
          | true =>
            refine ⟨rfl, rfl, L, hL, ?_⟩
            by_contra hh
            exact hn (List.mem_map.mpr ⟨L, List.mem_filter.mpr ⟨hL, by simpa using hh⟩, hLk⟩)
    rw [hall, mapM_some (g := fun p => nbSpec a p.1) (by
      intro q hq
      obtain ⟨p, _, rfl⟩ := List.mem_map.mp hq
      simp [nbAt, hd])]
    refine ⟨_, rfl, S.task, ?_, rfl, S.genOk⟩
    dsimp only
    rw [S.stats]
    simp only [nbTotal, hd, Bool.and_self, if_true, TaskStats.mk.injEq, Option.some.injEq, true_and, List.map_map]
    rw [show ((fun p : List Val × LevelStats × Option Nat => nbSpec a p.1) ∘ fun p : List Val × LevelStats => (p.1, p.2, nbAt a true p.1)) = (nbSpec a) ∘ (·.1) from rfl,
      ← List.map_map, stat_keys hc, List.map_map]
    rfl

/-- what `print_stats` does in a state -/
theorem print_ok (pp : TaskStats → Text) (he : e.Lawful) (ha : a.OK) (hb : Spec'.KeptFirst a) (h : init e a = .ok T)
    (hc : computeStatistics false e T = .ok (g, ls)) (S : State e N a T g ls printed gen o) :
    (a.filters.all (Spec.decidedEarly a.cols) = true ∧ printed = false ∧ gen = true ∧ (∃ L ∈ T.levels, hasTrips a L = false) → o.print pp e = .error .keyError) ∧
    (¬ (a.filters.all (Spec.decidedEarly a.cols) = true ∧ printed = false ∧ gen = true ∧ ∃ L ∈ T.levels, hasTrips a L = false) →
      ∃ o', o.print pp e = .ok ("\n\n###### Global stats ######\n\n".toList ++ pp { g with nbLevels := nbTotal a T printed } ++ "\n\n###### by blocks stats ######\n\n".toList ++ levelsText a ls, o') ∧
        State e N a T g ls true gen o') := by
  obtain ⟨c1, c2, c3⟩ := computeNbLevels_ok he ha hb h hc S
  have hst := S.stats
  constructor
  · rintro ⟨hd, hp, hg, hL⟩
    obtain ⟨o', ho'⟩ := c2 hd hp hg hL
    unfold Obj.print
    rw [ho']
  · intro hcond
    cases hd : a.filters.all (Spec.decidedEarly a.cols) with
    | false =>
      refine ⟨o, ?_, S.task, ?_, ?_, S.genOk⟩
      · unfold Obj.print
        rw [c1 hd, hst]
        dsimp only
        rw [S.byStats, List.flatMap_map]
        unfold levelsText nbAt
        simp only [hd, Bool.and_false, Bool.false_eq_true, if_false]
      · rw [hst]
        simp only [nbTotal, hd, Bool.and_false]
      · rw [S.byStats]
        unfold nbAt
        simp only [hd, Bool.and_false, Bool.false_eq_true, if_false]
    | true =>
      obtain ⟨o', ho', S'⟩ := c3 hd (fun ⟨q1, q2, q3⟩ => hcond ⟨hd, q1, q2, q3⟩)
      refine ⟨o', ?_, S'⟩
      unfold Obj.print
      rw [ho', hst]
      dsimp only
      rw [S'.byStats, List.flatMap_map]
      rfl

theorem statsOf_blocks {s : LevelStats} {L : Level ρ} {approximate : Bool} (h : statsOf approximate e T L = .ok s) :
    s.nbOnAcrossLevels = (groupKeys e "stats" (T.on :: T.across) L.frame).length := by
  unfold statsOf at h
  split at h
  · cases h
  · cases h; rfl

/-- the numbers of the object are those with which a new task is generated -/
theorem generate_from (he : e.Lawful) (ha : a.OK) (hb : Spec'.KeptFirst a) (h : init e a = .ok T) (hc : computeStatistics false e T = .ok (g, ls))
    (N : Num) (ga : GenArgs) : generate e N ga.threshold ga.src ga.bl1 ga.bl2 T = generateFrom g.nbTriplets g.nbBlocks e N ga T ∧
      g.nbTriplets = (((T.levels.map (fun L => (tripsSpec a L.key).length)).sum : Nat) : Int) := by
  obtain ⟨g', ls', hc', _, _, hfl, _⟩ := C80_flag he ha hb h false
  have e1 := Except.ok.inj (hc.symm.trans hc')
  have hg : g = g' := congrArg Prod.fst e1
  have hls : ls = ls' := congrArg Prod.snd e1
  subst hg hls
  obtain ⟨hF, hg⟩ := computeStatistics_inv hc
  have happ : g.approximateNbTriplets = false := by rw [hg]; rfl
  have htot := hfl happ
  refine ⟨?_, htot⟩
  rw [generate_eq, (C03_spec he ha hb h).1, ← htot]
  dsimp only
  congr 1
  have hbl : g.nbBlocks = (ls.map (fun p => p.2.nbOnAcrossLevels)).sum := by rw [hg]
  rw [hbl]
  congr 1
  clear hc hc' hg hbl htot happ hfl e1
  generalize T.levels = lv at hF
  induction hF with
  | nil => rfl
  | cons hp _ ih =>
    rw [List.map_cons, List.map_cons, ih, statsOf_blocks hp.2]

/-- the part of the state that does not depend on what was printed -/
structure Core (e : Env) (N : Num) (a : Args ρ) (T : Task ρ) (g : TaskStats) (gen : Bool) (o : Obj ρ) : Prop where
  task : o.task = shrink a T gen
  stats : ∃ nb, o.stats = { g with nbLevels := nb }
  genOk : gen = true → ∀ L ∈ T.levels, hasTrips a L = false → ∃ th src os, levelOut e N th src T L = .ok os ∧ os.flatMap BlkOut.trips = []

theorem State.core (S : State e N a T g ls printed gen o) : Core e N a T g gen o := ⟨S.task, ⟨_, S.stats⟩, S.genOk⟩

theorem computeNbLevels_core (S : Core e N a T g gen o) {r : Obj ρ × Option Err} (hr : o.computeNbLevels e = r) : Core e N a T g gen r.1 := by
  subst hr
  unfold Obj.computeNbLevels
  dsimp only
  split
  · exact S
  split
  · exact ⟨S.task, S.stats, S.genOk⟩
  split
  · exact ⟨S.task, S.stats, S.genOk⟩
  · obtain ⟨nb, hnb⟩ := S.stats
    exact ⟨S.task, ⟨_, by rw [hnb]⟩, S.genOk⟩

theorem print_core {pp : TaskStats → Text} (S : Core e N a T g gen o) {t : Text} {o' : Obj ρ} (h : o.print pp e = .ok (t, o')) : Core e N a T g gen o' := by
  unfold Obj.print at h
  dsimp only at h
  split at h
  · rename_i ho; cases h; exact computeNbLevels_core S ho
  · rename_i ho; cases h; exact computeNbLevels_core S ho
  · cases h

/-- what `generate_triplets` does in a state -/
theorem generate_ok' (he : e.Lawful) (ha : a.OK) (hb : Spec'.KeptFirst a) (h : init e a = .ok T)
    (hc : computeStatistics false e T = .ok (g, ls)) (hN : ArgsortLaw N.argsort) (S : Core e N a T g gen o) {ga : GenArgs} (h1 : 0 < ga.bl1) (h2 : 0 < ga.bl2)
    (hs : ∀ k k' j, (ga.src k k' j).Lawful) :
    (∀ er, generate e N ga.threshold ga.src ga.bl1 ga.bl2 T = .error er → o.generate e N ga = .error er) ∧
    (generate e N ga.threshold ga.src ga.bl1 ga.bl2 T = .ok none → o.generate e N ga = .ok (none, o)) ∧
    (∀ F0, generate e N ga.threshold ga.src ga.bl1 ga.bl2 T = .ok (some F0) → ∃ F o', o.generate e N ga = .ok (some F, o') ∧ SameFile F F0 ∧ Core e N a T g true o' ∧
      o'.byStats = o.byStats ∧ o'.stats = o.stats) := by
  have hst : o.stats.nbTriplets = g.nbTriplets ∧ o.stats.nbBlocks = g.nbBlocks := by
    obtain ⟨nb, hnb⟩ := S.stats
    rw [hnb]
    exact ⟨rfl, rfl⟩
  rw [(generate_from he ha hb h hc N ga).1]
  obtain ⟨k1, k2, k3⟩ := generateFrom_shrink he ha hb h hN h1 h2 hs g.nbTriplets g.nbBlocks S.genOk
  unfold Obj.generate
  rw [hst.1, hst.2, S.task]
  refine ⟨fun er her => by rw [k1 er her], fun hn => by rw [k2 hn], ?_⟩
  intro F0 hF0
  obtain ⟨F, hF, hsame, hlev, hgen⟩ := k3 F0 hF0
  rw [hF]
  refine ⟨F, _, rfl, hsame, ⟨?_, S.stats, fun _ => hgen⟩, rfl, rfl⟩
  dsimp only
  rw [hlev]
  cases gen <;> rfl

/-- when a generation gives no file -/
theorem generate_none (he : e.Lawful) (ha : a.OK) (hb : Spec'.KeptFirst a) (h : init e a = .ok T)
    (hc : computeStatistics false e T = .ok (g, ls)) (ga : GenArgs) (h1 : 0 < ga.bl1) (h2 : 0 < ga.bl2) :
    generate e N ga.threshold ga.src ga.bl1 ga.bl2 T = .ok none ↔ ∀ L ∈ T.levels, hasTrips a L = false := by
  obtain ⟨hg, htot⟩ := generate_from he ha hb h hc N ga
  have h0 : g.nbTriplets = 0 ↔ ∀ L ∈ T.levels, hasTrips a L = false := by
    rw [htot, Int.natCast_eq_zero]
    generalize T.levels = lv
    induction lv with
    | nil => simp
    | cons L lv ih =>
      rw [List.map_cons, List.sum_cons, Nat.add_eq_zero_iff, ih]
      simp [hasTrips]
  rw [← h0, hg, generateFrom_eq _ _ _ _ _ h1 h2]
  constructor
  · intro hn
    by_contra hne
    rw [if_neg hne] at hn
    split at hn
    · cases hn
    split at hn
    · cases hn
    split at hn
    · cases hn
    split at hn <;> cases hn
  · intro hz
    rw [if_pos hz]

/-- the arguments of a generation that are possible -/
def Op.Good : Op → Prop
  | .print => True
  | .generate g => 0 < g.bl1 ∧ 0 < g.bl2 ∧ ∀ k k' j, (g.src k k' j).Lawful

/-- what a call gives, compared with a new task -/
def OutOK (pp : TaskStats → Text) (e : Env) (N : Num) (a : Args ρ) (T : Task ρ) (g : TaskStats) (ls : List (List Val × LevelStats)) : Op → Out → Prop
  | .print, .text t => ∃ nb, t = "\n\n###### Global stats ######\n\n".toList ++ pp { g with nbLevels := nb } ++ "\n\n###### by blocks stats ######\n\n".toList ++ levelsText a ls
  | .generate ga, .file none => generate e N ga.threshold ga.src ga.bl1 ga.bl2 T = .ok none
  | .generate ga, .file (some F) => ∃ F0, generate e N ga.threshold ga.src ga.bl1 ga.bl2 T = .ok (some F0) ∧ SameFile F F0
  | _, _ => False

theorem run_main (pp : TaskStats → Text) (he : e.Lawful) (ha : a.OK) (hb : Spec'.KeptFirst a) (h : init e a = .ok T)
    (hc : computeStatistics false e T = .ok (g, ls)) (hN : ArgsortLaw N.argsort) : ∀ (ops : List Op) (printed gen : Bool) (o o' : Obj ρ) (outs : List Out),
    (∀ op ∈ ops, op.Good) → State e N a T g ls printed gen o → o.run pp e N ops = .ok (outs, o') →
    List.Forall₂ (OutOK pp e N a T g ls) ops outs ∧ ∃ printed' gen', State e N a T g ls printed' gen' o' ∧ (printed' = true ↔ printed = true ∨ Op.print ∈ ops) ∧
      (gen' = true ↔ gen = true ∨ ((∃ ga, Op.generate ga ∈ ops) ∧ ∃ L ∈ T.levels, hasTrips a L = true))
  | [], printed, gen, o, o', outs, _, S, hr => by
    unfold Obj.run at hr
    cases hr
    exact ⟨.nil, printed, gen, S, by simp, by simp⟩
  | op :: ops, printed, gen, o, o', outs, hgood, S, hr => by
    unfold Obj.run at hr
    split at hr
    · cases hr
    rename_i x o1 hstep
    split at hr
    · cases hr
    rename_i xs o2 hrun
    cases hr
    cases op with
    | print =>
      simp only [Obj.step] at hstep
      obtain ⟨p1, p2⟩ := print_ok pp he ha hb h hc S
      by_cases hcond : a.filters.all (Spec.decidedEarly a.cols) = true ∧ printed = false ∧ gen = true ∧ ∃ L ∈ T.levels, hasTrips a L = false
      · rw [p1 hcond] at hstep; cases hstep
      · obtain ⟨o'', ho, S'⟩ := p2 hcond
        rw [ho] at hstep
        cases hstep
        obtain ⟨hF, printed', gen', S2, i1, i2⟩ := run_main pp he ha hb h hc hN ops true gen _ _ _ (fun op hop => hgood op (by simp [hop])) S' hrun
        refine ⟨.cons ⟨_, rfl⟩ hF, printed', gen', S2, ?_, ?_⟩
        · rw [i1]; simp
        · rw [i2]; simp
    | generate ga =>
      simp only [Obj.step] at hstep
      obtain ⟨g1, g2, g3⟩ := hgood (.generate ga) (by simp)
      obtain ⟨k1, k2, k3⟩ := generate_ok' he ha hb h hc hN S.core g1 g2 g3
      have hnone := generate_none (N := N) he ha hb h hc ga g1 g2
      cases hgen : generate e N ga.threshold ga.src ga.bl1 ga.bl2 T with
      | error er => rw [k1 er hgen] at hstep; cases hstep
      | ok r =>
        cases r with
        | none =>
          rw [k2 hgen] at hstep
          cases hstep
          obtain ⟨hF, printed', gen', S2, i1, i2⟩ := run_main pp he ha hb h hc hN ops printed gen _ _ _ (fun op hop => hgood op (by simp [hop])) S hrun
          have hno := hnone.mp hgen
          have hno' : ¬ ∃ L ∈ T.levels, hasTrips a L = true := by
            rintro ⟨L, hL, ht⟩; rw [hno L hL] at ht; cases ht
          refine ⟨.cons hgen hF, printed', gen', S2, ?_, ?_⟩
          · rw [i1]; simp
          · rw [i2]; simp only [hno', and_false]
        | some F0 =>
          obtain ⟨F, o'', ho, hsame, C', hbs⟩ := k3 F0 hgen
          have S' : State e N a T g ls printed true o'' := ⟨C'.task, by rw [hbs.2]; exact S.stats, by rw [hbs.1]; exact S.byStats, C'.genOk⟩
          rw [ho] at hstep
          cases hstep
          obtain ⟨hF, printed', gen', S2, i1, i2⟩ := run_main pp he ha hb h hc hN ops printed true _ _ _ (fun op hop => hgood op (by simp [hop])) S' hrun
          have hyes : ∃ L ∈ T.levels, hasTrips a L = true := by
            by_contra hn
            have := hnone.mpr (fun L hL => by
              by_contra hh; exact hn ⟨L, hL, by simpa using hh⟩)
            rw [this] at hgen; cases hgen
          refine ⟨.cons ⟨F0, hgen, hsame⟩ hF, printed', gen', S2, ?_, ?_⟩
          · rw [i1]; simp
          · rw [i2]
            simp only [true_or, true_iff]
            exact .inr ⟨⟨ga, by simp⟩, hyes⟩

/-- after any calls the object can be generated from as the new one -/
theorem run_core (pp : TaskStats → Text) (he : e.Lawful) (ha : a.OK) (hb : Spec'.KeptFirst a) (h : init e a = .ok T)
    (hc : computeStatistics false e T = .ok (g, ls)) (hN : ArgsortLaw N.argsort) : ∀ (ops : List Op) (gen : Bool) (o o' : Obj ρ) (outs : List Out),
    (∀ op ∈ ops, op.Good) → Core e N a T g gen o → o.run pp e N ops = .ok (outs, o') → ∃ gen', Core e N a T g gen' o'
  | [], gen, o, o', outs, _, S, hr => by
    unfold Obj.run at hr
    cases hr
    exact ⟨gen, S⟩
  | op :: ops, gen, o, o', outs, hgood, S, hr => by
    unfold Obj.run at hr
    split at hr
    · cases hr
    rename_i x o1 hstep
    split at hr
    · cases hr
    rename_i xs o2 hrun
    cases hr
    have hstep1 : ∃ gen1, Core e N a T g gen1 o1 := by
      cases op with
      | print =>
        simp only [Obj.step] at hstep
        cases hp : o.print pp e with
        | error er => rw [hp] at hstep; cases hstep
        | ok r =>
          obtain ⟨t, o3⟩ := r
          rw [hp] at hstep
          cases hstep
          exact ⟨gen, print_core S hp⟩
      | generate ga =>
        simp only [Obj.step] at hstep
        obtain ⟨g1, g2, g3⟩ := hgood (.generate ga) (by simp)
        obtain ⟨k1, k2, k3⟩ := generate_ok' he ha hb h hc hN S g1 g2 g3
        cases hgen : generate e N ga.threshold ga.src ga.bl1 ga.bl2 T with
        | error er => rw [k1 er hgen] at hstep; cases hstep
        | ok r =>
          cases r with
          | none => rw [k2 hgen] at hstep; cases hstep; exact ⟨gen, S⟩
          | some F0 =>
            obtain ⟨F, o'', ho, _, C', _⟩ := k3 F0 hgen
            rw [ho] at hstep
            cases hstep
            exact ⟨true, C'⟩
    obtain ⟨gen1, S1⟩ := hstep1
    exact run_core pp he ha hb h hc hN ops gen1 _ _ _ (fun op hop => hgood op (by simp [hop])) S1 hrun

/-- C81: whatever was printed and generated before, `generate_triplets` raises the exception that it raises on a new task, or writes no file when
it writes none for a new task, or writes a file with the triplets, the levels, the index of the levels and the regressors of these levels of the
file of a new task.  Missing: the other parts of the file, which are not the same (`C81_violated_file`). -/
theorem C81_generate_partial (pp : TaskStats → Text) {e : Env} (he : e.Lawful) {a : Args ρ} (ha : a.OK) (hb : Spec'.KeptFirst a) {o : Obj ρ} (h : Obj.new e a = .ok o)
    {N : Num} (hN : ArgsortLaw N.argsort) {pre : List Op} (hpre : ∀ op ∈ pre, op.Good) {outs : List Out} {o1 : Obj ρ} (hr : o.run pp e N pre = .ok (outs, o1))
    {ga : GenArgs} (hg : (Op.generate ga).Good) :
    (∀ er, o.generate e N ga = .error er → o1.generate e N ga = .error er) ∧
    (∀ o2, o.generate e N ga = .ok (none, o2) → o1.generate e N ga = .ok (none, o1)) ∧
    (∀ F0 o2, o.generate e N ga = .ok (some F0, o2) → ∃ F o3, o1.generate e N ga = .ok (some F, o3) ∧ F.data = F0.data ∧ F.bys = F0.bys ∧ F.byIndex = F0.byIndex ∧
      F.regs.filter (fun p => F.bys.contains p.1) = F0.regs.filter (fun p => F0.bys.contains p.1)) := by
  obtain ⟨T, g, ls, hT, hc, _, S⟩ := new_inv h N
  obtain ⟨gen, S1⟩ := run_core pp he ha hb hT hc hN pre false o o1 outs hpre S.core hr
  obtain ⟨g1, g2, g3⟩ := hg
  obtain ⟨k1, k2, k3⟩ := generate_ok' he ha hb hT hc hN S.core g1 g2 g3
  obtain ⟨m1, m2, m3⟩ := generate_ok' he ha hb hT hc hN S1 g1 g2 g3
  cases hgen : generate e N ga.threshold ga.src ga.bl1 ga.bl2 T with
  | error er =>
    rw [k1 er hgen, m1 er hgen]
    exact ⟨fun _ h => h, fun _ h => (nomatch h), fun _ _ h => (nomatch h)⟩
  | ok r =>
    cases r with
    | none =>
      rw [k2 hgen, m2 hgen]
      exact ⟨fun _ h => (nomatch h), fun _ _ => rfl, fun _ _ h => by cases h⟩
    | some F0 =>
      obtain ⟨F, o', ho, ⟨a1, a2, a3, a4⟩, _⟩ := k3 F0 hgen
      obtain ⟨F', o'', ho', ⟨b1, b2, b3, b4⟩, _⟩ := m3 F0 hgen
      rw [ho, ho']
      refine ⟨fun _ h => (nomatch h), fun _ h => (by cases h), ?_⟩
      intro F1 o2 heq
      cases heq
      exact ⟨F', o'', rfl, b1.trans a1.symm, b2.trans a2.symm, b3.trans a3.symm, b4.trans a4.symm⟩

theorem levelsText_levels (he : e.Lawful) (ha : a.OK) (hb : Spec'.KeptFirst a) (h : init e a = .ok T)
    (hc : computeStatistics false e T = .ok (g, ls)) :
    Spec.StatLevels (T.levels.map (fun L => (Names.keyName L.key, statFields a L.key))) (levelsText a ls) := by
  obtain ⟨S, t, body, hS, ht, htb, hbody, _⟩ := C80_text he ha hb h (fun _ => [])
  have e1 := Except.ok.inj (hc.symm.trans hS)
  subst e1
  unfold printStats at ht
  rw [nbLevelsTry_ok he ha hb h] at ht
  have e2 := (Except.ok.inj ht).trans htb
  rw [List.append_cancel_left_eq] at e2
  rw [← e2] at hbody
  convert hbody using 1
  unfold levelsText
  have hk := stat_keys hc
  have hf : (T.levels.map (fun L => if a.filters.all (Spec.decidedEarly a.cols) then
      some (nbSpec a L.key) else none)) =
      ls.map (fun p => nbAt a true p.1) := by
    rw [show (fun p : List Val × LevelStats => nbAt a true p.1) = (nbAt a true) ∘ (·.1) from rfl, ← List.map_map, hk, List.map_map]
    apply List.map_congr_left
    intro L _
    simp only [nbAt, Function.comp_apply, Bool.true_and]
  rw [hf, List.zip_map_right, List.flatMap_map]
  clear hf hk e2 htb hbody ht hS hc
  induction ls with
  | nil => rfl
  | cons p ls ih => simp only [List.flatMap_cons, List.zip_cons_cons, ih, Prod.map_apply, id_eq]

/-- C81: after any calls `print_stats` writes for each level the lines that it writes on a new task, and before them the statistics of the
new task, with the total number of levels if it was called before and all the filters are decided by A, unless all
the filters are decided by A, nothing was printed before, triplets were generated, and some level has no triplet while another has one: then it
raises KeyError.  Missing: that it always writes the lines, which is false (`C81_violated_print`). -/
theorem C81_print_partial (pp : TaskStats → Text) {e : Env} (he : e.Lawful) {a : Args ρ} (ha : a.OK) (hb : Spec'.KeptFirst a) {o : Obj ρ} (h : Obj.new e a = .ok o)
    {N : Num} (hN : ArgsortLaw N.argsort) {pre : List Op} (hpre : ∀ op ∈ pre, op.Good) {outs : List Out} {o1 : Obj ρ} (hr : o.run pp e N pre = .ok (outs, o1)) :
    let lost := a.filters.all (Spec.decidedEarly a.cols) = true ∧ Op.print ∉ pre ∧ (∃ ga, Op.generate ga ∈ pre) ∧
      (∃ L ∈ o.task.levels, tripsSpec a L.key = []) ∧ ∃ L ∈ o.task.levels, tripsSpec a L.key ≠ []
    (lost → o1.print pp e = .error .keyError) ∧
    (¬ lost → ∃ nb body o2, o1.print pp e = .ok ("\n\n###### Global stats ######\n\n".toList ++ pp { o.stats with nbLevels := nb } ++ "\n\n###### by blocks stats ######\n\n".toList ++ body, o2) ∧
      Spec.StatLevels (o.task.levels.map (fun L => (Names.keyName L.key, statFields a L.key))) body ∧
      (Op.print ∈ pre ∧ a.filters.all (Spec.decidedEarly a.cols) = true → nb = some (o.task.levels.map (fun L => nbSpec a L.key)).sum) ∧
      (¬ (Op.print ∈ pre ∧ a.filters.all (Spec.decidedEarly a.cols) = true) → nb = none)) := by
  obtain ⟨T, g, ls, hT, hc, hoT, S⟩ := new_inv h N
  obtain ⟨_, printed, gen, S1, i1, i2⟩ := run_main pp he ha hb hT hc hN pre false false o o1 outs hpre S hr
  obtain ⟨p1, p2⟩ := print_ok pp he ha hb hT hc S1
  have hcond : (a.filters.all (Spec.decidedEarly a.cols) = true ∧ Op.print ∉ pre ∧ (∃ ga, Op.generate ga ∈ pre) ∧
      (∃ L ∈ o.task.levels, tripsSpec a L.key = []) ∧ ∃ L ∈ o.task.levels, tripsSpec a L.key ≠ []) ↔
      (a.filters.all (Spec.decidedEarly a.cols) = true ∧ printed = false ∧ gen = true ∧ ∃ L ∈ T.levels, hasTrips a L = false) := by
    simp only [Bool.false_eq_true, false_or] at i1 i2
    rw [hoT, i2, ← Bool.not_eq_true, i1]
    simp only [hasTrips, Bool.not_eq_false', Bool.not_eq_true', List.isEmpty_iff, List.isEmpty_eq_false_iff]
    generalize (a.filters.all (Spec.decidedEarly a.cols) = true) = p
    generalize (∃ L ∈ T.levels, tripsSpec a L.key = []) = q
    generalize (∃ L ∈ T.levels, tripsSpec a L.key ≠ []) = r
    generalize (∃ ga, Op.generate ga ∈ pre) = s
    exact ⟨fun ⟨h1, h2, h3, h4, h5⟩ => ⟨h1, h2, ⟨h3, h5⟩, h4⟩, fun ⟨h1, h2, ⟨h3, h5⟩, h4⟩ => ⟨h1, h2, h3, h4, h5⟩⟩
  simp only
  rw [hcond]
  refine ⟨p1, fun hn => ?_⟩
  obtain ⟨o', ho, _⟩ := p2 hn
  simp only [Bool.false_eq_true, false_or] at i1
  refine ⟨nbTotal a T printed, levelsText a ls, o', ?_, ?_, ?_, ?_⟩
  · rw [ho, S.stats]
  · rw [hoT]
    exact levelsText_levels he ha hb hT hc
  · rintro ⟨k1, k2⟩
    rw [hoT, nbTotal, i1.mpr k1, k2]
    rfl
  · intro k
    rw [nbTotal, if_neg]
    rw [Bool.and_eq_true, i1]
    exact k

theorem run_total (pp : TaskStats → Text) (he : e.Lawful) (ha : a.OK) (hb : Spec'.KeptFirst a) (h : init e a = .ok T)
    (hc : computeStatistics false e T = .ok (g, ls)) (hN : ArgsortLaw N.argsort) : ∀ (ops : List Op) (printed gen : Bool) (o : Obj ρ),
    (∀ op ∈ ops, op.Good) → State e N a T g ls printed gen o → (∀ ga, Op.generate ga ∈ ops → ∃ F, generate e N ga.threshold ga.src ga.bl1 ga.bl2 T = .ok F) →
    ((∀ L ∈ T.levels, hasTrips a L = true) ∨ a.filters.all (Spec.decidedEarly a.cols) = false ∨ printed = true ∨ (gen = false ∧ ∃ rest, ops = Op.print :: rest) ∨ Op.print ∉ ops) →
    ∃ outs o', o.run pp e N ops = .ok (outs, o') ∧ outs.length = ops.length
  | [], printed, gen, o, _, S, _, _ => ⟨[], o, rfl, rfl⟩
  | op :: ops, printed, gen, o, hgood, S, hgen, hall => by
    have hgood' : ∀ op ∈ ops, op.Good := fun op hop => hgood op (by simp [hop])
    have hgen' : ∀ ga, Op.generate ga ∈ ops → ∃ F, generate e N ga.threshold ga.src ga.bl1 ga.bl2 T = .ok F := fun ga hga => hgen ga (by simp [hga])
    cases op with
    | print =>
      obtain ⟨_, p2⟩ := print_ok pp he ha hb h hc S
      have hn : ¬ (a.filters.all (Spec.decidedEarly a.cols) = true ∧ printed = false ∧ gen = true ∧ ∃ L ∈ T.levels, hasTrips a L = false) := by
        rintro ⟨d1, d2, d3, L, hL, d4⟩
        rcases hall with k | k | k | ⟨k, _⟩ | k
        · rw [k L hL] at d4; cases d4
        · rw [k] at d1; cases d1
        · rw [k] at d2; cases d2
        · rw [k] at d3; cases d3
        · simp at k
      obtain ⟨o', ho, S'⟩ := p2 hn
      obtain ⟨outs, o2, hrun, hlen⟩ := run_total pp he ha hb h hc hN ops true gen o' hgood' S' hgen' (.inr (.inr (.inl rfl)))
      unfold Obj.run
      simp only [Obj.step, ho, Except.map, hrun]
      exact ⟨_, _, rfl, by simp [hlen]⟩
    | generate ga =>
      obtain ⟨g1, g2, g3⟩ := hgood (.generate ga) (by simp)
      obtain ⟨k1, k2, k3⟩ := generate_ok' he ha hb h hc hN S.core g1 g2 g3
      have hall' : (∀ L ∈ T.levels, hasTrips a L = true) ∨ a.filters.all (Spec.decidedEarly a.cols) = false ∨ printed = true ∨ Op.print ∉ ops := by
        rcases hall with k | k | k | ⟨_, _, k⟩ | k
        · exact .inl k
        · exact .inr (.inl k)
        · exact .inr (.inr (.inl k))
        · cases k
        · exact .inr (.inr (.inr (fun hp => k (by simp [hp]))))
      obtain ⟨F, hF⟩ := hgen ga (by simp)
      cases F with
      | none =>
        obtain ⟨outs, o2, hrun, hlen⟩ := run_total pp he ha hb h hc hN ops printed gen o hgood' S hgen' (by
          rcases hall' with k | k | k | k
          · exact .inl k
          · exact .inr (.inl k)
          · exact .inr (.inr (.inl k))
          · exact .inr (.inr (.inr (.inr k))))
        unfold Obj.run
        simp only [Obj.step, k2 hF, Except.map, hrun]
        exact ⟨_, _, rfl, by simp [hlen]⟩
      | some F0 =>
        obtain ⟨F, o'', ho, hsame, C', hbs⟩ := k3 F0 hF
        have S' : State e N a T g ls printed true o'' := ⟨C'.task, by rw [hbs.2]; exact S.stats, by rw [hbs.1]; exact S.byStats, C'.genOk⟩
        obtain ⟨outs, o2, hrun, hlen⟩ := run_total pp he ha hb h hc hN ops printed true o'' hgood' S' hgen' (by
          rcases hall' with k | k | k | k
          · exact .inl k
          · exact .inr (.inl k)
          · exact .inr (.inr (.inl k))
          · exact .inr (.inr (.inr (.inr k))))
        unfold Obj.run
        simp only [Obj.step, ho, Except.map, hrun]
        exact ⟨_, _, rfl, by simp [hlen]⟩

/-- C81: calls that begin with `print_stats`, or never call it, or on a task where every level has a triplet or a filter is not decided by A,
raise no exception, if the generations raise none on a new task. -/
theorem C81_runs (pp : TaskStats → Text) {e : Env} (he : e.Lawful) {a : Args ρ} (ha : a.OK) (hb : Spec'.KeptFirst a) {o : Obj ρ} (h : Obj.new e a = .ok o)
    {N : Num} (hN : ArgsortLaw N.argsort) {ops : List Op} (hops : ∀ op ∈ ops, op.Good)
    (hgen : ∀ ga, Op.generate ga ∈ ops → ∃ r, o.generate e N ga = .ok r)
    (hall : (∀ L ∈ o.task.levels, tripsSpec a L.key ≠ []) ∨ a.filters.all (Spec.decidedEarly a.cols) = false ∨ (∃ rest, ops = Op.print :: rest) ∨ Op.print ∉ ops) :
    ∃ outs o1, o.run pp e N ops = .ok (outs, o1) ∧ outs.length = ops.length := by
  obtain ⟨T, g, ls, hT, hc, hoT, S⟩ := new_inv h N
  refine run_total pp he ha hb hT hc hN ops false false o hops S ?_ ?_
  · intro ga hga
    obtain ⟨g1, g2, g3⟩ := hops _ hga
    obtain ⟨k1, _, _⟩ := generate_ok' he ha hb hT hc hN S.core g1 g2 g3
    cases hg : generate e N ga.threshold ga.src ga.bl1 ga.bl2 T with
    | error er =>
      obtain ⟨r, hr⟩ := hgen ga hga
      rw [k1 er hg] at hr; cases hr
    | ok F => exact ⟨F, rfl⟩
  · rw [hoT] at hall
    rcases hall with k | k | k | k
    · exact .inl (fun L hL => by simpa [hasTrips] using k L hL)
    · exact .inr (.inl k)
    · exact .inr (.inr (.inr (.inl ⟨rfl, k⟩)))
    · exact .inr (.inr (.inr (.inr k)))

theorem nbLoop_error {e : Env} {T : Task ρ} {L : Level ρ} {er : Err} (hL : nbLevel e T L = .error er) (post : List (Level ρ)) : ∀ (pre : List (Level ρ)) (bs : List (List Val × LevelStats × Option Nat)),
    (∀ L' ∈ pre, ∃ n, nbLevel e T L' = .ok n) → (nbLoop e T (pre ++ L :: post) bs).2 = some er
  | [], bs, _ => by simp only [List.nil_append, nbLoop, hL]
  | L' :: pre, bs, h => by
    obtain ⟨n, hn⟩ := h L' List.mem_cons_self
    simp only [List.cons_append, nbLoop, hn]
    exact nbLoop_error hL post pre _ (fun x hx => h x (List.mem_cons_of_mem _ hx))

/-- C81: an exception other than ValueError during the count of the levels ends `print_stats` with this exception: nothing is swallowed. -/
theorem C81_raises (pp : TaskStats → Text) {e : Env} {o : Obj ρ}
    (hno : ((o.task.filters.ops .A).isEmpty && (o.task.filters.ops .B).isEmpty && (o.task.filters.ops .X).isEmpty && (o.task.filters.ops .ABX).isEmpty) = true)
    {pre post : List (Level ρ)} {L : Level ρ} {er : Err} (hl : o.task.levels = pre ++ L :: post) (hpre : ∀ L' ∈ pre, ∃ n, nbLevel e o.task L' = .ok n) (hL : nbLevel e o.task L = .error er)
    (hne : er ≠ .valueError) : o.print pp e = .error er := by
  have h := nbLoop_error hL post pre o.byStats hpre
  rw [← hl] at h
  unfold Obj.print Obj.computeNbLevels
  simp only [hno, Bool.not_true, Bool.false_eq_true, if_false, h]

/-- the calls of the examples -/
def genArgs0 : GenArgs := ⟨100, fun _ _ _ => src0, 3, 2⟩
theorem genArgs0_good : (Op.generate genArgs0).Good := ⟨by decide, by decide, fun _ _ _ => src0_lawful⟩

/-- what the calls give on a new task -/
def runOps (a : Args Nat) (ops : List Op) : Except Err (List Out) := match Obj.new E0 a with
  | .error er => .error er
  | .ok o => (o.run (fun g => Names.decimal g.nbTriplets) E0 N0 ops).map (·.1)

/-- the index of the blocks in the files -/
def indexes : List Out → List (List Int)
  | [] => []
  | .file (some F) :: os => F.blockIndex :: indexes os
  | _ :: os => indexes os

/-- the levels with regressors in the files -/
def groups : List Out → List (List (List Val))
  | [] => []
  | .file (some F) :: os => F.regs.map (·.1) :: groups os
  | _ :: os => groups os

/-- the first item is removed by a filter on a bare column; item 4 has no position in what is left -/
def exRaise : Args Nat := args0 [mk "z" 1 1, mk "a" 2, mk "a" 1, mk "b" 1, mk "b" 1] [keepF] []

/-- C81, example: the statistics of this task can be computed, printing them raises IndexError -/
example : (match Obj.new E0 exRaise with
    | .ok o => (match o.print (fun _ => []) E0 with | .error .indexError => true | _ => false) && (match o.task.levels with | [L] => (match nbLevel E0 o.task L with | .error .indexError => true | _ => false) | _ => false)
    | .error _ => false) = true := by decide +kernel

/-- C81 is false of `print_stats`: the table of the example has a level without triplets, `print_stats` after `generate_triplets` raises KeyError;
if it is called before too it does not. -/
theorem C81_violated_print : runOps ex [.generate genArgs0, .print] = .error .keyError ∧ ∃ outs, runOps ex [.print, .generate genArgs0, .print] = .ok outs := by
  constructor
  · have h : (runOps ex [.generate genArgs0, .print]).map indexes = .error .keyError := by decide +kernel
    cases hr : runOps ex [.generate genArgs0, .print] with
    | error er => rw [hr] at h; cases h; rfl
    | ok x => rw [hr] at h; cases h
  · have h : ((runOps ex [.print, .generate genArgs0, .print]).map List.length) = .ok 3 := by decide +kernel
    cases hr : runOps ex [.print, .generate genArgs0, .print] with
    | error er => rw [hr] at h; cases h
    | ok x => exact ⟨x, rfl⟩

/-- C81 is false of the rest of the file: a second generation leaves out the level without triplets from the index of the blocks and from the groups
of regressors. -/
theorem C81_violated_file : (runOps ex [.generate genArgs0, .generate genArgs0]).map indexes = .ok [[0, 0, 4, 0, 0], [0, 4, 0, 0]] ∧
    (runOps ex [.generate genArgs0, .generate genArgs0]).map groups = .ok [[[.int 1], [.int 0]], [[.int 0]]] := by
  constructor <;> decide +kernel

/-- the triplets of the files -/
def fileData : List Out → List (List (Int × Int × Int))
  | [] => []
  | .file (some F) :: os => F.data :: fileData os
  | _ :: os => fileData os

/-- the triplets are the same -/
example : (runOps ex [.generate genArgs0, .print]).map fileData = .error .keyError ∧
    (runOps ex [.print, .generate genArgs0, .print, .generate genArgs0]).map fileData =
      .ok [[(0, 2, 4), (0, 3, 4), (1, 2, 4), (1, 3, 4)], [(0, 2, 4), (0, 3, 4), (1, 2, 4), (1, 3, 4)]] := by
  constructor <;> decide +kernel

/-- the hypotheses of `C81_generate_partial` and `C81_print_partial` are met by the example -/
example : ∃ o outs o1, Obj.new E0 ex = .ok o ∧ o.run (fun _ => []) E0 N0 [.generate genArgs0] = .ok (outs, o1) ∧ (∀ op ∈ [Op.generate genArgs0], op.Good) ∧
    ex.OK ∧ ArgsortLaw N0.argsort ∧ (∀ f ∈ ex.filters, Spec.bare ex.cols f = false) := by
  have h : (runOps ex [.generate genArgs0]).map List.length = .ok 1 := by decide +kernel
  unfold runOps at h
  cases ho : Obj.new E0 ex with
  | error er => rw [ho] at h; cases h
  | ok o =>
    rw [ho] at h
    dsimp only at h
    have hg : ∀ op ∈ [Op.generate genArgs0], op.Good := by intro op hop; rw [List.mem_singleton.mp hop]; exact genArgs0_good
    obtain ⟨outs, o1, hr, _⟩ := C81_runs (fun _ => []) E0_lawful ex_ok (.of_not_bare (by decide +kernel)) ho (N := N0) insArgsort_law hg (by
      intro ga hga
      cases List.mem_singleton.mp hga
      generalize genArgs0 = ga at h ⊢
      cases hr : o.generate E0 N0 ga with
      | ok r => exact ⟨r, rfl⟩
      | error er =>
        exfalso
        have e1 : o.run (fun g => Names.decimal g.nbTriplets) E0 N0 [.generate ga] = .error er := by
          unfold Obj.run Obj.step
          dsimp only
          rw [hr]
          rfl
        rw [e1] at h
        cases h) (.inr (.inr (.inr (by intro hp; cases List.mem_singleton.mp hp))))
    exact ⟨o, outs, o1, rfl, hr, hg, ex_ok, insArgsort_law, by decide +kernel⟩

#print axioms C81_generate_partial
#print axioms C81_print_partial
#print axioms C81_raises
#print axioms C81_runs
#print axioms C81_violated_print
#print axioms C81_violated_file

end ABX.Task
