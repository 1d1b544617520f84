import Verif.Model.ProgressInit
import Verif.Properties.Progress
/-!
C86, the other displays: while a verbose task is made it writes that the item file is checked and verified, then counts the levels of the table, the levels that are left, and the blocks, each from 1 up
to their number (`C86_construct`); `compute_nb_levels` counts the levels (`C86_nb_levels`).
-/
namespace ABX.Spec.Progress
open ABX.Progress
open Database (Text)

/-- the text that counts from 1 to n, one line each; on a terminal each line but the first is preceded by the escape sequence -/
def counted (tty : Bool) (message : String) (n : Nat) : Text :=
  (List.range n).flatMap (fun i => (if tty && i != 0 then escape 1 else []) ++ line message (i + 1 : Nat) n)

end ABX.Spec.Progress

namespace ABX.Progress
open ExtSort SideOps ABX.Spec.Progress
open Database (Text)
open ABX.Task

theorem run_loop {κ : Type} {tty : Bool} {message : String} {total : Nat} (keys : List κ) : ∀ (init : Bool) (c : Nat), ∃ d,
    run ⟨[("block", message)], [("block", (total : Int))], [("block", (c : Int))], init, tty⟩ (keys.flatMap (fun _ => [.update "block" 1, .display])) =
      .ok ((List.range keys.length).map (fun i => (if tty && !(init && i == 0) then escape 1 else []) ++ line message (c + i + 1 : Nat) total), d) := by
  induction keys with
  | nil => intro init c; exact ⟨_, rfl⟩
  | cons k ks ih =>
    intro init c
    obtain ⟨d, hd⟩ := ih false (c + 1)
    refine ⟨d, ?_⟩
    have h1 : (⟨[("block", message)], [("block", (total : Int))], [("block", (c : Int))], init, tty⟩ : Display).update "block" 1 =
        .ok ⟨[("block", message)], [("block", (total : Int))], [("block", ((c + 1 : Nat) : Int))], init, tty⟩ := by
      simp [Display.update, setItem]
    have h2 : (⟨[("block", message)], [("block", (total : Int))], [("block", ((c + 1 : Nat) : Int))], init, tty⟩ : Display).display =
        ((if tty && !init then escape 1 else []) ++ line message (c + 1 : Nat) total, ⟨[("block", message)], [("block", (total : Int))], [("block", ((c + 1 : Nat) : Int))], false, tty⟩) := by
      cases init <;> cases tty <;> simp [Display.display]
    rw [List.flatMap_cons, List.cons_append, List.cons_append, List.nil_append, run, h1]
    dsimp only
    rw [run, h2]
    dsimp only
    rw [hd]
    simp only [Except.ok.injEq, Prod.mk.injEq, and_true]
    rw [List.length_cons, List.range_succ_eq_map, List.map_cons, List.map_map]
    congr 1
    · simp
    · apply List.map_congr_left
      intro i _
      simp only [Function.comp_apply, Bool.false_and, Bool.not_false, Bool.and_true, Nat.succ_eq_add_one]
      have : c + 1 + i + 1 = c + (i + 1) + 1 := by omega
      rw [this]
      simp

theorem loopText_ok {κ : Type} (tty : Bool) (message : String) {total : Nat} (keys : List κ) (h : keys.length = total) :
    loopText tty message total keys = .ok (counted tty message total) := by
  obtain ⟨d, hd⟩ := run_loop (tty := tty) (message := message) (total := total) keys true 0
  have h0 : (Display.new tty).add "block" message total = ⟨[("block", message)], [("block", (total : Int))], [("block", ((0 : Nat) : Int))], true, tty⟩ := rfl
  unfold loopText loopCalls
  rw [run, h0, hd, h]
  dsimp only
  rw [counted, List.flatMap]
  congr 2
  apply List.map_congr_left
  intro i _
  simp [bne]

section
variable {ρ : Type}

theorem forall₂_with_mem {α β : Type} {R : α → β → Prop} : ∀ {l : List α} {m : List β}, List.Forall₂ R l m → List.Forall₂ (fun x y => x ∈ l ∧ R x y) l m
  | _, _, .nil => .nil
  | _, _, .cons h t => .cons ⟨List.mem_cons_self, h⟩ ((forall₂_with_mem t).imp (fun _ _ hp => ⟨List.mem_cons_of_mem _ hp.1, hp.2⟩))

/-- the levels of the table -/
theorem by_keys {e : Env} (he : e.Lawful) {a : Args ρ} (hc : checkDatabase a = .ok ()) :
    (groupKeys e "by" (prep a).1 (prep a).2.2).length = (a.db.map (fun p => levelKey a p.2)).dedup.length := by
  rw [groupKeys, (he.groups _ _).length_eq]
  congr 2
  refine forall₂_map_eq (forall₂_with_mem (prep_sim a)) ?_
  rintro p q ⟨hp, hpq⟩
  unfold levelKey
  by_cases hb : a.by_ = []
  · rw [if_pos hb, (prep_by a hb).1, keyOf, List.map_cons, List.map_nil, (prep_by a hb).2 p hp]
  · rw [if_neg hb, prep_by' a hb, keyOf]
    obtain ⟨_, _, h3, h4⟩ := checkDatabase_ok hc
    apply List.map_congr_left
    intro c hc
    exact hpq.2 c (h4 c (h3 c hc)).1 (h4 c (h3 c hc)).2

/-- C86: what is written while a verbose task is made: the table is checked; the levels of the table are counted, then those that are left, then the blocks, each up to their number. -/
theorem C86_construct {e : Env} (he : e.Lawful) {a : Args ρ} (ha : a.OK) (hb : Spec'.KeptFirst a) {o : Obj ρ} (h : Obj.new e a = .ok o) (tty : Bool) (path : Text) :
    newText tty path e a = .ok ("checking input database ".toList ++ path ++ "\ninput database verified\n".toList ++
      counted tty "Preprocessing by block" (a.db.map (fun p => levelKey a p.2)).dedup.length ++
      counted tty "Computing statistics for by block" o.task.levels.length ++
      counted tty "Computing statistics for by/on/across block"
        (o.task.levels.map (fun L => if a.across = [] then (keptOf a L.key).length else Spec.nbLabels (a.on :: a.across) (keptOf a L.key))).sum) := by
  obtain ⟨T, g, ls, hT, hc, hoT, S⟩ := new_inv h N0
  subst hoT
  have hst := S.stats
  obtain ⟨g', ls', hc', hlev, hblocks, -⟩ := C80_flag he ha hb hT false
  rw [hc] at hc'
  obtain ⟨rfl, rfl⟩ := Prod.mk.inj (Except.ok.inj hc')
  have e1 : o.stats.nbBlocks = g.nbBlocks := by rw [hst]
  have e2 : o.stats.nbByLevels = g.nbByLevels := by rw [hst]
  have hcd := (init_ok hT).1
  have e3 : (o.task.levels.flatMap (fun L => groupKeys e "stats" (o.task.on :: o.task.across) L.frame)).length = g.nbBlocks := by
    obtain ⟨hF, hg⟩ := computeStatistics_inv hc
    rw [hg, List.length_flatMap]
    refine congrArg List.sum (forall₂_map_eq hF ?_)
    intro L p hp
    exact (statsOf_blocks hp.2).symm
  unfold newText
  rw [hcd]
  dsimp only
  rw [h]
  have e4 := by_keys he hcd
  unfold prep at e4
  dsimp only at e4
  rw [loopText_ok _ _ _ rfl]
  dsimp only
  rw [loopText_ok _ _ _ (e2.trans hlev).symm]
  dsimp only
  rw [loopText_ok _ _ _ (e3.trans e1.symm), e1, hblocks, e2, hlev, e4]

/-- C86: the levels are counted when the numbers of levels of a new task are computed. -/
theorem C86_nb_levels {e : Env} {a : Args ρ} {o : Obj ρ} (h : Obj.new e a = .ok o) (tty : Bool) :
    nbLevelsText tty o = .ok (counted tty "Computing nb_levels for by block" o.task.levels.length) := by
  obtain ⟨T, g, ls, hT, hc, hoT, S⟩ := new_inv h N0
  subst hoT
  have hst := S.stats
  obtain ⟨hF, hg⟩ := computeStatistics_inv hc
  have e2 : o.stats.nbByLevels = o.task.levels.length := by rw [hst, hg]
  unfold nbLevelsText
  rw [e2]
  exact loopText_ok _ _ _ rfl

end

/-- C86, example: what is written while the task `ex2` is made -/
example : (newText false "data.item".toList E0 Pairs.ex2).map String.ofList = .ok
    "checking input database data.item\ninput database verified\nPreprocessing by block 1 on 3\nPreprocessing by block 2 on 3\nPreprocessing by block 3 on 3\nComputing statistics for by block 1 on 3\nComputing statistics for by block 2 on 3\nComputing statistics for by block 3 on 3\nComputing statistics for by/on/across block 1 on 7\nComputing statistics for by/on/across block 2 on 7\nComputing statistics for by/on/across block 3 on 7\nComputing statistics for by/on/across block 4 on 7\nComputing statistics for by/on/across block 5 on 7\nComputing statistics for by/on/across block 6 on 7\nComputing statistics for by/on/across block 7 on 7\n" := by decide +kernel

#print axioms C86_construct
#print axioms C86_nb_levels

end ABX.Progress
