import Verif.Model.TaskObject
import Verif.Proofs.TaskFile
import Verif.Proofs.TaskMain
import Verif.Proofs.TaskLabels
import Verif.Properties.Stats
/-! Lemmas for methods called one after the other on a task (C81). -/
namespace ABX.Task
open ExtSort SideOps Sampler
open Database (Text)
variable {ρ : Type}

theorem generate_eq (e : Env) (N : Num) (g : GenArgs) (T : Task ρ) : generate e N g.threshold g.src g.bl1 g.bl2 T = match nbTriplets e T with
    | .error er => .error er
    | .ok total => generateFrom total (T.levels.map (fun L => (groupKeys e "stats" (T.on :: T.across) L.frame).length)).sum e N g T := by
  unfold generate generateFrom
  cases nbTriplets e T with
  | error er => rfl
  | ok total =>
    dsimp only
    by_cases h0 : total = 0
    · rw [if_pos h0, if_pos h0]
    rw [if_neg h0, if_neg h0]
    cases fitIntegerType total with
    | error er => rfl
    | ok t =>
      dsimp only
      cases fitIntegerType ((T.levels.map (fun L => (groupKeys e "stats" (T.on :: T.across) L.frame).length)).sum : Nat) with
      | error er => rfl
      | ok tb =>
        dsimp only
        cases sequence (T.levels.map (fun L => (levelOut e N g.threshold g.src T L).map (fun o => (L.key, o)))) with
        | error er => rfl
        | ok outs =>
          dsimp only
          generalize byLoop (outs.map (fun p => (p.1, (p.2.map (fun o => o.trips.length)).sum))) 0 [0] [] = r
          obtain ⟨b, ys⟩ := r
          dsimp only
          cases fitIntegerType (b.getLastD 0 : Nat) with
          | error er => rfl
          | ok ti =>
            dsimp only
            generalize writeDataset (0, 0, 0) "triplets/data" total.toNat g.bl1 (some (b.getLastD 0)) ((outs.flatMap (·.2)).map (fun o => o.trips.map (castTrip t))) = w
            cases w with
            | error er => rfl
            | ok data =>
              dsimp only
              generalize writeDataset (α := Int) 0 "triplets/on_across_block_index" (T.levels.map (fun L => (groupKeys e "stats" (T.on :: T.across) L.frame).length)).sum g.bl2 none
                ((outs.flatMap (·.2)).map (fun o => o.index.map (fun n : Nat => tb.cast n))) = w
              cases w with
              | error er => rfl
              | ok bi => rfl

/-- the file written for the blocks of the levels -/
def fileOf (t tb : IntType) (nb : Nat) (outs : List (List Val × List BlkOut)) : File :=
  ⟨((kept outs).flatMap levelTrips).map (castTrip t),
   ((outs.flatMap (·.2)).flatMap (fun o => o.index.map (fun n : Nat => tb.cast n))) ++ List.replicate (nb - ((outs.flatMap (·.2)).flatMap BlkOut.index).length) 0,
   (kept outs).map (·.1),
   (intervals 0 ((kept outs).map (fun p => (levelTrips p).length))).map (fun p => (((p.1 : Nat) : Int), ((p.2 : Nat) : Int))),
   outs.map (fun p => (p.1, (p.2.map BlkOut.regs).foldl appendCols []))⟩

theorem generateFrom_eq (total : Int) (nb : Nat) (e : Env) (N : Num) (g : GenArgs) (h1 : 0 < g.bl1) (h2 : 0 < g.bl2) (T : Task ρ) :
    generateFrom total nb e N g T = if total = 0 then .ok none else match fitIntegerType total with
      | .error e => .error e
      | .ok t => match fitIntegerType nb with
        | .error e => .error e
        | .ok tb => match sequence (T.levels.map (fun L => (levelOut e N g.threshold g.src T L).map (fun o => (L.key, o)))) with
          | .error e => .error e
          | .ok outs => match fitIntegerType (((kept outs).map (fun p => (levelTrips p).length)).sum : Nat) with
            | .error e => .error e
            | .ok _ => .ok (some (fileOf t tb nb outs)) := by
  unfold generateFrom
  by_cases h0 : total = 0
  · rw [if_pos h0, if_pos h0]
  rw [if_neg h0, if_neg h0]
  cases ht : fitIntegerType total with
  | error er => rfl
  | ok t =>
  dsimp only
  cases htb : fitIntegerType nb with
  | error er => rfl
  | ok tb =>
  dsimp only
  cases houts : sequence (T.levels.map (fun L => (levelOut e N g.threshold g.src T L).map (fun o => (L.key, o)))) with
  | error er => rfl
  | ok outs =>
  dsimp only
  have hloop := byLoop_ok (outs.map (fun p => (p.1, (p.2.map (fun o => o.trips.length)).sum))) 0 [0] [] (by decide)
  rw [kept_map, List.map_map, List.map_map] at hloop
  generalize byLoop (outs.map (fun p => (p.1, (p.2.map (fun o => o.trips.length)).sum))) 0 [0] [] = r at hloop ⊢
  have eb := congrArg Prod.fst hloop
  have ey := congrArg Prod.snd hloop
  dsimp only at eb ey
  clear hloop
  have hbnd : ∀ (l : List Nat), [0] ++ cuts 0 l = 0 :: cuts 0 l := fun _ => rfl
  rw [hbnd] at eb
  have el := cuts_last 0 (List.map ((fun p : List Val × Nat => p.2) ∘ fun p : List Val × List BlkOut => (p.1, (levelTrips p).length)) (kept outs))
  rw [← eb] at el
  have hdata : ((outs.flatMap (·.2)).map (fun o => o.trips.map (castTrip t))).flatten = ((kept outs).flatMap levelTrips).map (castTrip t) := by
    rw [kept_flatMap, data_eq]
  have hlen : 0 + (List.map ((fun p : List Val × Nat => p.2) ∘ fun p : List Val × List BlkOut => (p.1, (levelTrips p).length)) (kept outs)).sum =
      ((outs.flatMap (·.2)).map (fun o => o.trips.map (castTrip t))).flatten.length := by
    rw [hdata, List.length_map, List.length_flatMap, Nat.zero_add]
    rfl
  have hsum : r.1.getLastD 0 = ((kept outs).map (fun p => (levelTrips p).length)).sum := by rw [el, Nat.zero_add]; rfl
  obtain ⟨bounds, bys⟩ := r
  dsimp only at eb ey el hsum ⊢
  rw [hsum]
  rw [← hsum, el, hlen, ← hlen, ← el, hsum]
  cases hti : fitIntegerType (((kept outs).map (fun p => (levelTrips p).length)).sum : Nat) with
  | error er => rfl
  | ok ti =>
    dsimp only
    have hL : ((kept outs).map (fun p => (levelTrips p).length)).sum = ((outs.flatMap (·.2)).map (fun o => o.trips.map (castTrip t))).flatten.length := by
      rw [← hlen, Nat.zero_add]; rfl
    rw [hL, writeDataset_resize _ _ _ h1]
    dsimp only
    rw [writeDataset_plain _ _ _ h2]
    dsimp only
    have hcast : ∀ x ∈ 0 :: cuts 0 ((kept outs).map (fun p => (levelTrips p).length)), ti.cast (x : Int) = (x : Int) := by
      intro x hx
      refine fit_cast hti ?_
      have := cuts_le 0 _ x hx
      omega
    have : (0 :: cuts 0 ((kept outs).map (fun p => (levelTrips p).length))).map (fun n : Nat => ti.cast n) =
        (0 :: cuts 0 ((kept outs).map (fun p => (levelTrips p).length))).map (fun n : Nat => (n : Int)) := List.map_congr_left hcast
    have e0 : List.map ((fun p : List Val × Nat => p.2) ∘ fun p : List Val × List BlkOut => (p.1, (levelTrips p).length)) (kept outs) =
      (kept outs).map (fun p => (levelTrips p).length) := rfl
    rw [eb, e0, this, ← List.map_tail, List.zip_map, List.tail_cons, cuts_zip, hdata, index_eq, index_len, ey]
    rfl

theorem seq_of_forall₂ {α β : Type} {f : α → Except Err β} {l : List α} {m : List β} (h : List.Forall₂ (fun x y => f x = .ok y) l m) : sequence (l.map f) = .ok m := by
  induction h with
  | nil => rfl
  | cons hx _ ih =>
    rw [List.map_cons, hx]
    unfold sequence
    rw [ih]

/-- leaving out elements that give results that are left out as well -/
theorem seq_filter {α β : Type} {f : α → Except Err β} {p : α → Bool} {q : β → Bool} : ∀ {l : List α}, (∀ x ∈ l, p x = false → ∃ y, f x = .ok y) →
    (∀ x ∈ l, ∀ y, f x = .ok y → q y = p x) → sequence ((l.filter p).map f) = (sequence (l.map f)).map (List.filter q)
  | [], _, _ => rfl
  | x :: l, h1, h2 => by
    have ih := seq_filter (f := f) (p := p) (q := q) (l := l) (fun y hy => h1 y (by simp [hy])) (fun y hy => h2 y (by simp [hy]))
    cases hx : f x with
    | error er =>
      have hp : p x = true := by
        by_contra hn
        obtain ⟨y, hy⟩ := h1 x (by simp) (by simpa using hn)
        rw [hx] at hy; cases hy
      rw [List.filter_cons, if_pos hp, List.map_cons, List.map_cons, hx]
      rfl
    | ok y =>
      have hq := h2 x (by simp) y hx
      rw [List.filter_cons, List.map_cons, hx]
      cases hp : p x with
      | true =>
        rw [if_pos rfl, List.map_cons, hx]
        unfold sequence
        rw [ih]
        cases sequence (l.map f) with
        | error er => rfl
        | ok ys => simp [Except.map, hq, hp]
      | false =>
        rw [if_neg (by simp), ih]
        conv => rhs; unfold sequence
        cases sequence (l.map f) with
        | error er => rfl
        | ok ys => simp [Except.map, hq, hp]

/-! ### a level without triplets -/

theorem sortBlock_nil {N : Num} (hN : ArgsortLaw N.argsort) {threshold : Nat} {src : Nat → Src} {trips : List (Nat × Nat × Nat)} {cols : List (List Nat)} {p ix : List Nat}
    (h : sortBlock N threshold src trips cols = .ok ([], p, ix)) (threshold' : Nat) (src' : Nat → Src) : sortBlock N threshold' src' trips cols = .ok ([], p, ix) := by
  unfold sortBlock at h ⊢
  by_cases hr : (rowsOf cols).isEmpty = true
  · rw [if_pos hr] at h ⊢
    exact h
  · rw [if_neg hr] at h
    split at h
    · cases h
    dsimp only at h
    split at h
    · cases h
    rename_i p' ix' hst
    split at h
    · cases h
    rename_i tr hg
    have hl := gather_length hg
    simp only [Except.ok.injEq, Prod.mk.injEq] at h
    obtain ⟨rfl, rfl, rfl⟩ := h
    have hne := sortAndThreshold_ne (by
      have hp := (hN.perm ((rowsOf cols).map (N.index (nRegs cols)))).length_eq
      intro hnil
      rw [hnil] at hp
      simp only [List.length_nil, List.length_range, List.length_map] at hp
      exact hr (by rw [List.isEmpty_iff]; exact List.length_eq_zero_iff.mp hp.symm)) hst
    exact absurd (List.length_eq_zero_iff.mp hl.symm) hne

theorem finishBlock_nil {N : Num} (hN : ArgsortLaw N.argsort) {threshold : Nat} {src : Nat → Src} {m : Mgr Nat} {scalars : List Nat} {fr : Frame} {row : Row} {b : Blk} {o : BlkOut}
    (h : finishBlock N threshold src m scalars fr row b = .ok o) (ho : o.trips = []) (threshold' : Nat) (src' : Nat → Src) :
    finishBlock N threshold' src' m scalars fr row b = .ok o := by
  unfold finishBlock at h ⊢
  generalize itemRegs m .A (m.aCtx .A) fr row b.A = rA at h ⊢
  cases rA with
  | error er => cases h
  | ok regA =>
  dsimp only at h ⊢
  generalize itemRegs m .B (m.bCtx .B) fr row b.B = rB at h ⊢
  cases rB with
  | error er => cases h
  | ok regB =>
  dsimp only at h ⊢
  generalize itemRegs m .X (m.xCtx .X) fr row b.X = rX at h ⊢
  cases rX with
  | error er => cases h
  | ok regX =>
  dsimp only at h ⊢
  generalize sortCols regB regX b = cc at h ⊢
  cases cc with
  | error er => cases h
  | ok cols =>
  dsimp only at h ⊢
  cases hsb : sortBlock N threshold src b.trips cols with
  | error er => rw [hsb] at h; cases h
  | ok r =>
  obtain ⟨trips, p, ix⟩ := r
  rw [hsb] at h
  have ht : trips = [] := by
    rw [← ho]
    dsimp only at h
    split at h
    · cases h
    split at h
    · cases h
    split at h
    · cases h; rfl
    · split at h
      · cases h; rfl
      · cases h
  subst ht
  rw [sortBlock_nil hN hsb threshold' src']
  exact h

theorem blockOut_nil {e : Env} {N : Num} (hN : ArgsortLaw N.argsort) {threshold : Nat} {src : List Val → List Val → Nat → Src} {T : Task ρ} {L : Level ρ} {byR : List Nat}
    {key : List Val} {o : Option BlkOut} (h : blockOut e N threshold src T L byR key = .ok o) (ho : ∀ b, o = some b → b.trips = []) (threshold' : Nat)
    (src' : List Val → List Val → Nat → Src) : blockOut e N threshold' src' T L byR key = .ok o := by
  unfold blockOut at h ⊢
  generalize blockTriplets e T L key = bt at h ⊢
  rcases bt with er | _ | ⟨row, b⟩
  · cases h
  · exact h
  dsimp only at h ⊢
  generalize onAcrossByRegs T.regressors row = rr at h ⊢
  cases rr with
  | error er => cases h
  | ok obR =>
  dsimp only at h ⊢
  cases hf : finishBlock N threshold (src L.key key) T.regressors (byR ++ obR) L.frame row b with
  | error er => rw [hf] at h; cases h
  | ok o' =>
  rw [hf] at h
  dsimp only at h
  cases h
  rw [finishBlock_nil hN hf (ho _ rfl) threshold' (src' L.key key)]

/-- the blocks of a level without triplets do not depend on the threshold and on the random numbers -/
theorem levelOut_nil {e : Env} {N : Num} (hN : ArgsortLaw N.argsort) {threshold : Nat} {src : List Val → List Val → Nat → Src} {T : Task ρ} {L : Level ρ} {os : List BlkOut}
    (h : levelOut e N threshold src T L = .ok os) (ho : os.flatMap BlkOut.trips = []) (threshold' : Nat) (src' : List Val → List Val → Nat → Src) :
    levelOut e N threshold' src' T L = .ok os := by
  unfold levelOut at h ⊢
  generalize iloc L.frame 0 = il at h ⊢
  cases il with
  | error er => cases h
  | ok row =>
  dsimp only at h ⊢
  generalize byRegs T.regressors row = br at h ⊢
  cases br with
  | error er => cases h
  | ok byR =>
  dsimp only at h ⊢
  cases hs : sequence ((groupKeys e "gen" (T.on :: T.across) L.frame).map (blockOut e N threshold src T L byR)) with
  | error er => rw [hs] at h; cases h
  | ok bs =>
  rw [hs] at h
  dsimp only at h
  cases h
  have hF := sequence_inv hs
  have : sequence ((groupKeys e "gen" (T.on :: T.across) L.frame).map (blockOut e N threshold' src' T L byR)) = .ok bs := by
    refine seq_of_forall₂ ?_
    have key : ∀ {ks : List (List Val)} {bs : List (Option BlkOut)}, List.Forall₂ (fun k b => blockOut e N threshold src T L byR k = .ok b) ks bs →
        (bs.filterMap id).flatMap BlkOut.trips = [] → List.Forall₂ (fun k b => blockOut e N threshold' src' T L byR k = .ok b) ks bs := by
      intro ks bs hF
      induction hF with
      | nil => intro _; exact .nil
      | @cons k b ks bs hb _ ih =>
        intro ho
        cases b with
        | none => exact .cons (blockOut_nil hN hb (by intro b hb; cases hb) _ _) (ih (by simpa using ho))
        | some b =>
          rw [List.filterMap_cons] at ho
          simp only [id, List.flatMap_cons, List.append_eq_nil_iff] at ho
          exact .cons (blockOut_nil hN hb (by intro b' hb'; cases hb'; exact ho.1) _ _) (ih ho.2)
    exact key hF ho
  rw [this]

/-! ### levels left in the object -/

/-- the level has triplets -/
def hasTrips (a : Args ρ) (L : Level ρ) : Bool := !(tripsSpec a L.key).isEmpty

theorem levelOut_empty {e : Env} (he : e.Lawful) {a : Args ρ} (ha : a.OK) (hb : Spec'.KeptFirst a) {T : Task ρ} (h : init e a = .ok T)
    {L : Level ρ} (hL : L ∈ T.levels) {N : Num} (hN : ArgsortLaw N.argsort) {threshold : Nat} {src : List Val → List Val → Nat → Src} (hs : ∀ k k' j, (src k k' j).Lawful)
    {os : List BlkOut} (ho : levelOut e N threshold src T L = .ok os) : (!(levelTrips (L.key, os)).isEmpty) = hasTrips a L := by
  unfold hasTrips levelTrips
  congr 1
  rw [Bool.eq_iff_iff, List.isEmpty_iff, List.isEmpty_iff]
  have hpos := positional he ha hb h hL
  constructor
  · intro hnil
    have h0 := levelOut_nil hN ho hnil 0 src
    obtain ⟨S, M, -⟩ := level_main he ha h hL hpos hN hs h0
    have h1 := M.trips
    dsimp only at hnil
    rw [hnil] at h1
    have hS : S = [] := List.map_eq_nil_iff.mp h1.symm
    have := M.perm rfl
    rw [hS] at this
    exact List.nil_perm.mp this
  · intro hnil
    obtain ⟨S, M, -⟩ := level_main he ha h hL hpos hN hs ho
    dsimp only
    rw [M.trips]
    have : S = [] := List.eq_nil_iff_forall_not_mem.mpr (fun t ht => by have := M.sub t ht; rw [hnil] at this; cases this)
    rw [this]
    rfl

/-- the two files hold the same triplets, levels and regressors of these levels -/
def SameFile (F F0 : File) : Prop := F.data = F0.data ∧ F.bys = F0.bys ∧ F.byIndex = F0.byIndex ∧
  F.regs.filter (fun p => F.bys.contains p.1) = F0.regs.filter (fun p => F0.bys.contains p.1)

theorem kept_kept (outs : List (List Val × List BlkOut)) : kept (kept outs) = kept outs := by
  unfold kept
  rw [List.filter_filter]
  simp

theorem kept_keys {outs : List (List Val × List BlkOut)} (hnd : (outs.map (·.1)).Nodup) {p : List Val × List BlkOut} (hp : p ∈ outs) :
    ((kept outs).map (·.1)).contains p.1 = !(levelTrips p).isEmpty := by
  rw [Bool.eq_iff_iff, List.contains_iff_mem, List.mem_map]
  constructor
  · rintro ⟨q, hq, he⟩
    obtain ⟨hq1, hq2⟩ := List.mem_filter.mp hq
    have := List.inj_on_of_nodup_map hnd hq1 hp he
    rw [← this]
    exact hq2
  · intro h
    exact ⟨p, List.mem_filter.mpr ⟨hp, h⟩, rfl⟩

theorem sameFile_kept (t tb : IntType) (nb : Nat) {outs : List (List Val × List BlkOut)} (hnd : (outs.map (·.1)).Nodup) :
    SameFile (fileOf t tb nb (kept outs)) (fileOf t tb nb outs) := by
  unfold fileOf
  refine ⟨by simp only [kept_kept], by simp only [kept_kept], by simp only [kept_kept], ?_⟩
  dsimp only
  rw [kept_kept, List.filter_map, List.filter_map]
  congr 1
  have h1 : ((kept outs).filter ((fun p : List Val × List (List Nat) => ((kept outs).map (·.1)).contains p.1) ∘ fun p => (p.1, (p.2.map BlkOut.regs).foldl appendCols []))) = kept outs := by
    rw [List.filter_eq_self]
    intro p hp
    simp only [Function.comp_apply, List.contains_iff_mem]
    exact List.mem_map.mpr ⟨p, hp, rfl⟩
  rw [h1]
  conv => lhs; unfold kept
  apply List.filter_congr
  intro p hp
  simp only [Function.comp_apply]
  exact (kept_keys hnd hp).symm

/-- the task after the levels without triplets are deleted (`gen`) or not -/
def shrink (a : Args ρ) (T : Task ρ) (gen : Bool) : Task ρ := if gen then { T with levels := T.levels.filter (hasTrips a) } else T

theorem outs_keys {e : Env} {N : Num} {g : GenArgs} {T : Task ρ} {outs : List (List Val × List BlkOut)}
    (h : sequence (T.levels.map (fun L => (levelOut e N g.threshold g.src T L).map (fun o => (L.key, o)))) = .ok outs) :
    List.Forall₂ (fun L p => p.1 = L.key ∧ levelOut e N g.threshold g.src T L = .ok p.2) T.levels outs ∧ outs.map (·.1) = T.levels.map (·.key) := by
  have hF : List.Forall₂ (fun L p => p.1 = L.key ∧ levelOut e N g.threshold g.src T L = .ok p.2) T.levels outs := by
    refine (sequence_inv h).imp ?_
    intro L p hp
    cases hl : levelOut e N g.threshold g.src T L with
    | error er => rw [hl] at hp; cases hp
    | ok os => rw [hl] at hp; cases hp; exact ⟨rfl, rfl⟩
  refine ⟨hF, ?_⟩
  clear h
  generalize T.levels = ls at hF
  induction hF with
  | nil => rfl
  | cons hp _ ih => rw [List.map_cons, List.map_cons, ih, hp.1]

/-- generating from the object with or without the levels that have no triplets -/
theorem generateFrom_shrink {e : Env} (he : e.Lawful) {a : Args ρ} (ha : a.OK) (hb : Spec'.KeptFirst a) {T : Task ρ} (h : init e a = .ok T)
    {N : Num} (hN : ArgsortLaw N.argsort) {g : GenArgs} (h1 : 0 < g.bl1) (h2 : 0 < g.bl2) (hs : ∀ k k' j, (g.src k k' j).Lawful) (total : Int) (nb : Nat) {gen : Bool}
    (hgen : gen = true → ∀ L ∈ T.levels, hasTrips a L = false → ∃ th src os, levelOut e N th src T L = .ok os ∧ os.flatMap BlkOut.trips = []) :
    (∀ er, generateFrom total nb e N g T = .error er → generateFrom total nb e N g (shrink a T gen) = .error er) ∧
    (generateFrom total nb e N g T = .ok none → generateFrom total nb e N g (shrink a T gen) = .ok none) ∧
    (∀ F0, generateFrom total nb e N g T = .ok (some F0) → ∃ F, generateFrom total nb e N g (shrink a T gen) = .ok (some F) ∧ SameFile F F0 ∧
      (shrink a T gen).levels.filter (fun L => F.bys.contains L.key) = T.levels.filter (hasTrips a) ∧
      ∀ L ∈ T.levels, hasTrips a L = false → ∃ th src os, levelOut e N th src T L = .ok os ∧ os.flatMap BlkOut.trips = []) := by
  have hseq : sequence ((shrink a T gen).levels.map (fun L => (levelOut e N g.threshold g.src (shrink a T gen) L).map (fun o => (L.key, o)))) =
      (sequence (T.levels.map (fun L => (levelOut e N g.threshold g.src T L).map (fun o => (L.key, o))))).map (fun outs => if gen then kept outs else outs) := by
    cases gen with
    | false =>
      show sequence (T.levels.map (fun L => (levelOut e N g.threshold g.src T L).map (fun o => (L.key, o)))) = _
      cases sequence (T.levels.map (fun L => (levelOut e N g.threshold g.src T L).map (fun o => (L.key, o)))) <;> rfl
    | true =>
      show sequence ((T.levels.filter (hasTrips a)).map (fun L => (levelOut e N g.threshold g.src T L).map (fun o => (L.key, o)))) = _
      have := seq_filter (f := fun L => (levelOut e N g.threshold g.src T L).map (fun o => (L.key, o))) (p := hasTrips a)
        (q := fun p : List Val × List BlkOut => !(levelTrips p).isEmpty) (l := T.levels) (by
          intro L hL hp
          obtain ⟨th, src, os, ho, hnil⟩ := hgen rfl L hL hp
          exact ⟨(L.key, os), by rw [levelOut_nil hN ho hnil g.threshold g.src]; rfl⟩) (by
          intro L hL y hy
          cases hl : levelOut e N g.threshold g.src T L with
          | error er => rw [hl] at hy; cases hy
          | ok os =>
            rw [hl] at hy
            cases hy
            exact levelOut_empty he ha hb h hL hN hs hl)
      rw [this]
      rfl
  rw [generateFrom_eq total nb e N g h1 h2 T, generateFrom_eq total nb e N g h1 h2 (shrink a T gen), hseq]
  by_cases h0 : total = 0
  · rw [if_pos h0, if_pos h0]
    exact ⟨fun er h => h, fun h => h, by intro F0 h; cases h⟩
  rw [if_neg h0, if_neg h0]
  cases ht : fitIntegerType total with
  | error er => exact ⟨fun er h => h, (by intro h; cases h), by intro F0 h; cases h⟩
  | ok t =>
  dsimp only
  cases htb : fitIntegerType nb with
  | error er => exact ⟨fun er h => h, (by intro h; cases h), by intro F0 h; cases h⟩
  | ok tb =>
  dsimp only
  cases houts : sequence (T.levels.map (fun L => (levelOut e N g.threshold g.src T L).map (fun o => (L.key, o)))) with
  | error er => exact ⟨fun er h => h, (by intro h; cases h), by intro F0 h; cases h⟩
  | ok outs =>
  simp only [Except.map]
  have hk : kept (if gen then kept outs else outs) = kept outs := by
    cases gen
    · rfl
    · exact kept_kept outs
  rw [hk]
  cases hti : fitIntegerType (((kept outs).map (fun p => (levelTrips p).length)).sum : Nat) with
  | error er => exact ⟨fun er h => h, (by intro h; cases h), by intro F0 h; cases h⟩
  | ok ti =>
  dsimp only
  refine ⟨(by intro er h; cases h), (by intro h; cases h), ?_⟩
  intro F0 hF0
  cases hF0
  obtain ⟨hF, hkeys⟩ := outs_keys houts
  have hnd : (outs.map (·.1)).Nodup := by rw [hkeys]; exact init_keys_nodup he ha h
  have hflag : ∀ L ∈ T.levels, ((kept outs).map (·.1)).contains L.key = hasTrips a L := by
    intro L hL
    obtain ⟨p, hp, hpk, hpo⟩ := forall₂_mem_left hF L hL
    rw [← hpk, kept_keys hnd hp, ← levelOut_empty he ha hb h hL hN hs hpo]
    rfl
  refine ⟨_, rfl, ?_, ?_, ?_⟩
  · cases gen
    · exact ⟨rfl, rfl, rfl, rfl⟩
    · exact sameFile_kept t tb nb hnd
  · have e1 : (fileOf t tb nb (if gen then kept outs else outs)).bys = (kept outs).map (·.1) := by
      show (kept (if gen then kept outs else outs)).map (·.1) = _
      rw [hk]
    rw [e1]
    cases gen
    · exact List.filter_congr hflag
    · show (T.levels.filter (hasTrips a)).filter _ = _
      rw [List.filter_filter]
      apply List.filter_congr
      intro L hL
      rw [hflag L hL, Bool.and_self]
  · intro L hL hno
    obtain ⟨p, hp, hpk, hpo⟩ := forall₂_mem_left hF L hL
    refine ⟨_, _, p.2, hpo, ?_⟩
    have := levelOut_empty he ha hb h hL hN hs hpo
    rw [hno] at this
    simpa [levelTrips] using this

end ABX.Task
