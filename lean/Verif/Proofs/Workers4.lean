import Verif.Proofs.Workers3
/-! Helper lemmas for the workers: executions without exceptions; executions whose failures leave the lock free; blocks with floats. -/
namespace ABX.Distances
open ExtSort ABX.Task Pairs
variable {ρ φ δ : Type}

/-- steps other than the killing of a process -/
def Calm (I : Inputs ρ φ δ) (ld : Except Err Unit) (sync : Bool) (s s' : State ρ δ) : Prop := (∃ i, advance I ld sync i s = some s') ∨ stepMain sync s = some s'

theorem Calm.step {I : Inputs ρ φ δ} {ld : Except Err Unit} {sync : Bool} {s s' : State ρ δ} (h : Calm I ld sync s s') : Step I ld sync s s' := by
  rcases h with ⟨i, h⟩ | h
  · exact .work i h
  · exact .main h

/-- executions without killing, with their number of steps -/
inductive Calms (I : Inputs ρ φ δ) (ld : Except Err Unit) (sync : Bool) : Nat → State ρ δ → State ρ δ → Prop
  | refl {s} : Calms I ld sync 0 s s
  | step {n s s' s''} (h : Calms I ld sync n s s') (h' : Calm I ld sync s' s'') : Calms I ld sync (n + 1) s s''

theorem Calms.steps {I : Inputs ρ φ δ} {ld : Except Err Unit} {sync : Bool} {n : Nat} {s s' : State ρ δ} (h : Calms I ld sync n s s') : Steps I ld sync s s' := by
  induction h with
  | refl => exact .refl
  | step _ h' ih => exact .step ih h'.step

theorem Calm.rank {I : Inputs ρ φ δ} {ld : Except Err Unit} {sync : Bool} {s s' : State ρ δ} (h : Calm I ld sync s s') : s'.rank < s.rank := by
  rcases h with ⟨i, h⟩ | h
  · exact advance_rank h
  · exact main_rank h

theorem Calms.rank {I : Inputs ρ φ δ} {ld : Except Err Unit} {sync : Bool} {n : Nat} {s s' : State ρ δ} (h : Calms I ld sync n s s') : s'.rank + n ≤ s.rank := by
  induction h with
  | refl => exact Nat.le_refl _
  | step _ h' ih => have := h'.rank; omega

theorem begin_rank (zero : δ) (n : Nat) (jobs : List (List Block)) : (begin (ρ := ρ) zero n jobs).rank = 8 * jobs.flatten.length + 8 * jobs.length + 2 := by
  unfold begin State.rank
  dsimp only
  rw [List.map_map]
  have : (jobs.map (Worker.rank ∘ fun j => (⟨j, .start⟩ : Worker ρ δ))).sum = 8 * jobs.flatten.length + 8 * jobs.length := by
    induction jobs with
    | nil => rfl
    | cons j js ih =>
      rw [List.map_cons, List.sum_cons, ih, List.flatten_cons, List.length_append, List.length_cons]
      simp only [Function.comp, Worker.rank]
      omega
  rw [this]
  rfl

/-- no process has failed -/
def Fine (p : Phase ρ δ) : Prop := (∀ e, p ≠ .failed e) ∧ p ≠ .dead

theorem stepWorker_fine {I : Inputs ρ φ δ} {sync : Bool} {i : Nat} {lock lock' : Option Nat} {w w' : Worker ρ δ} {rows rows' : List δ} {job : List Block}
    (hb : ∀ b ∈ job, BlockIn I.pairs b) (hr : ∀ b ∈ job, ∃ r dis, readBlock I b = .ok r ∧ computeBlock I r.1 r.2.2.1 r.2.2.2 = .ok dis)
    (hl : rows.length = I.pairs.data.length) (hw : WorkerOK I rows job w)
    (h : stepWorker I (.ok ()) sync i lock w rows = some (lock', w', rows')) (hf : Fine w.phase) : Fine w'.phase := by
  obtain ⟨todo, phase⟩ := w
  obtain ⟨⟨pre, h1, -⟩, h3⟩ := hw
  dsimp only at h1 h3
  unfold stepWorker at h
  cases phase with
  | start => cases h; exact ⟨fun e h => (by cases h), fun h => (by cases h)⟩
  | ready =>
    cases todo with
    | nil => cases h
    | cons b bs => dsimp only at h; split at h <;> cases h; exact ⟨fun e h => (by cases h), fun h => (by cases h)⟩
  | reading =>
    obtain ⟨b, bs, rfl⟩ := h3
    obtain ⟨r, dis, r1, r2⟩ := hr b (by rw [h1]; simp)
    dsimp only at h
    rw [r1] at h
    cases h
    exact ⟨fun e h => (by cases h), fun h => (by cases h)⟩
  | read r => cases h; exact ⟨fun e h => (by cases h), fun h => (by cases h)⟩
  | loaded r =>
    obtain ⟨b, bs, rfl, h4⟩ := h3
    obtain ⟨r', dis, r1, r2⟩ := hr b (by rw [h1]; simp)
    rw [h4] at r1
    cases r1
    dsimp only at h
    rw [r2] at h
    cases h
    exact ⟨fun e h => (by cases h), fun h => (by cases h)⟩
  | computed r dis => dsimp only at h; split at h <;> cases h; exact ⟨fun e h => (by cases h), fun h => (by cases h)⟩
  | writing r dis =>
    obtain ⟨b, bs, rfl, h4, h5⟩ := h3
    obtain ⟨rows'', w1, -, -⟩ := write_ok (hb b (by rw [h1]; simp)) h4 h5 hl
    dsimp only at h
    rw [w1] at h
    cases h
    exact ⟨fun e h => (by cases h), fun h => (by cases h)⟩
  | written =>
    obtain ⟨b, bs, rfl, h4⟩ := h3
    cases h
    exact ⟨fun e h => (by cases h), fun h => (by cases h)⟩
  | failed e => exact absurd rfl (hf.1 e)
  | dead => exact absurd rfl hf.2

/-- without exceptions, nor killing: the processes are fine and the lock is held by a process inside a section -/
structure Healthy (s : State ρ δ) : Prop where
  fine : ∀ w ∈ s.ws, Fine w.phase
  holder : ∀ i, s.lock = some i → ∃ w, s.ws[i]? = some w ∧ w.phase.critical = true
  main : ∀ e, s.main ≠ .raised e

theorem stepWorker_holder {I : Inputs ρ φ δ} {ld : Except Err Unit} {i : Nat} {lock lock' : Option Nat} {w w' : Worker ρ δ} {rows rows' : List δ}
    (hl : w.phase.critical = true → lock = some i) (h : stepWorker I ld true i lock w rows = some (lock', w', rows')) (hf : Fine w'.phase ∨ w.phase.critical = false) :
    (lock' = some i ∧ w'.phase.critical = true) ∨ lock' = none ∨ (lock' = lock ∧ w.phase.critical = false) := by
  unfold stepWorker at h
  split at h
  · next hp => split at h <;> cases h <;> exact .inr (.inr ⟨rfl, by rw [hp]; rfl⟩)
  · next hp ht =>
    split at h
    · cases h
    · next l hl =>
      cases h
      unfold acquire at hl
      rw [if_pos rfl] at hl
      split at hl <;> cases hl
      exact .inl ⟨rfl, rfl⟩
  · next hp ht =>
    rw [hp] at hl hf
    split at h <;> cases h
    · rcases hf with hf | hf
      · exact absurd rfl (hf.1 _)
      · cases hf
    · exact .inl ⟨hl rfl, rfl⟩
  · cases h; exact .inr (.inl rfl)
  · next hp => split at h <;> cases h <;> exact .inr (.inr ⟨rfl, by rw [hp]; rfl⟩)
  · next hp =>
    split at h
    · cases h
    · next l hl =>
      cases h
      unfold acquire at hl
      rw [if_pos rfl] at hl
      split at hl <;> cases hl
      exact .inl ⟨rfl, rfl⟩
  · next hp ht =>
    rw [hp] at hl hf
    split at h <;> cases h
    · rcases hf with hf | hf
      · exact absurd rfl (hf.1 _)
      · cases hf
    · exact .inl ⟨hl rfl, rfl⟩
  · cases h; exact .inr (.inl rfl)
  · cases h

/-- a step in which no process fails or is killed between acquire and release -/
def Outside (s s' : State ρ δ) : Prop :=
  ∀ (i : Nat) (w w' : Worker ρ δ), s.ws[i]? = some w → s'.ws[i]? = some w' → w.phase.critical = true → Fine w'.phase

/-- the lock is held by a process inside a section -/
def Held (s : State ρ δ) : Prop := ∀ i, s.lock = some i → ∃ w, s.ws[i]? = some w ∧ w.phase.critical = true

theorem Held.step {I : Inputs ρ φ δ} {ld : Except Err Unit} {s s' : State ρ δ} (h : Held s) (hl : LockOK s) (hs : Step I ld true s s') (ho : Outside s s') : Held s' := by
  cases hs with
  | work i ha =>
    unfold advance at ha
    split at ha
    · cases ha
    · next w hw =>
      split at ha
      · cases ha
      · next lock' w' rows' hst =>
        cases ha
        have hi := (List.getElem?_eq_some_iff.mp hw).1
        have hset : (s.ws.set i w')[i]? = some w' := by rw [List.getElem?_set, if_pos rfl, if_pos hi]
        have hf : Fine w'.phase ∨ w.phase.critical = false := by
          cases hc : w.phase.critical with
          | false => exact .inr rfl
          | true => exact .inl (ho i w w' hw hset hc)
        intro j hj
        dsimp only at hj ⊢
        rcases stepWorker_holder (hl i w hw) hst hf with ⟨h1, h2⟩ | h1 | ⟨h1, h2⟩
        · rw [h1] at hj
          cases hj
          exact ⟨w', hset, h2⟩
        · rw [h1] at hj; cases hj
        · rw [h1] at hj
          obtain ⟨v, v1, v2⟩ := h j hj
          refine ⟨v, ?_, v2⟩
          rw [List.getElem?_set, if_neg]
          · exact v1
          · intro hij
            subst hij
            rw [hw] at v1
            cases v1
            rw [h2] at v2
            cases v2
  | kill i w rows' hw ht =>
    intro j hj
    obtain ⟨v, v1, v2⟩ := h j hj
    refine ⟨v, ?_, v2⟩
    dsimp only
    rw [List.getElem?_set, if_neg]
    · exact v1
    · intro hij
      subst hij
      have hi := (List.getElem?_eq_some_iff.mp hw).1
      exact (ho i v ⟨w.todo, .dead⟩ v1 (by rw [List.getElem?_set, if_pos rfl, if_pos hi]) v2).2 rfl
  | main hm =>
    unfold stepMain at hm
    split at hm
    · split at hm
      · split at hm <;> cases hm <;> exact h
      · cases hm
    · cases hm; exact h
    · cases hm

/-- executions in which no process fails or is killed between acquire and release -/
inductive SafeSteps (I : Inputs ρ φ δ) (ld : Except Err Unit) : State ρ δ → State ρ δ → Prop
  | refl {s} : SafeSteps I ld s s
  | step {s s' s''} (h : SafeSteps I ld s s') (h' : Step I ld true s' s'') (ho : Outside s' s'') : SafeSteps I ld s s''

theorem SafeSteps.steps {I : Inputs ρ φ δ} {ld : Except Err Unit} {s s' : State ρ δ} (h : SafeSteps I ld s s') : Steps I ld true s s' := by
  induction h with
  | refl => exact .refl
  | step _ h' _ ih => exact .step ih h'

theorem SafeSteps.held {I : Inputs ρ φ δ} {ld : Except Err Unit} {s s' : State ρ δ} (hl : LockOK s) (hh : Held s) (h : SafeSteps I ld s s') : Held s' := by
  induction h with
  | refl => exact hh
  | step h h' ho ih => exact ih.step (hl.steps h.steps) h' ho

/-- when the lock is free, or held by a process inside a section, some process can make a step unless all have ended or been killed -/
theorem progress {I : Inputs ρ φ δ} {ld : Except Err Unit} {sync : Bool} {zero : δ} {jobs : List (List Block)} {s : State ρ δ} (hi : Inv I zero jobs s) (hh : sync = true → Held s)
    {w : Worker ρ δ} (hw : w ∈ s.ws) (he : w.ended = false) (hd : w.phase ≠ .dead) : ∃ i s', advance I ld sync i s = some s' := by
  have key : ∀ (i : Nat) (w : Worker ρ δ), s.ws[i]? = some w → (sync = false ∨ s.lock = none ∨ w.phase.critical = true) → w.ended = false → w.phase ≠ .dead →
      ∃ i s', advance I ld sync i s = some s' := by
    intro i w hw hl he hd
    obtain ⟨job, -, hwj⟩ := forall₂_getElem hi.workers.flip hw
    obtain ⟨r, hr⟩ := stepWorker_some (ld := ld) (i := i) hwj.2 hl he hd
    refine ⟨i, { s with lock := r.1, ws := s.ws.set i r.2.1, rows := r.2.2 }, ?_⟩
    unfold advance
    rw [hw]
    dsimp only
    rw [hr]
  obtain ⟨i, hiw⟩ := List.getElem?_of_mem hw
  cases hs : sync with
  | false => subst hs; exact key i w hiw (.inl rfl) he hd
  | true =>
    subst hs
    cases hlk : s.lock with
    | none => exact key i w hiw (.inr (.inl hlk)) he hd
    | some j =>
      obtain ⟨v, v1, v2⟩ := hh rfl j hlk
      refine key j v v1 (.inr (.inr v2)) ?_ ?_
      · obtain ⟨todo, phase⟩ := v
        cases phase <;> first | rfl | cases v2
      · intro h; rw [h] at v2; cases v2

theorem Healthy.step {I : Inputs ρ φ δ} {sync : Bool} {zero : δ} {jobs : List (List Block)} {s s' : State ρ δ} (hb : ∀ job ∈ jobs, ∀ b ∈ job, BlockIn I.pairs b)
    (hr : ∀ job ∈ jobs, ∀ b ∈ job, ∃ r dis, readBlock I b = .ok r ∧ computeBlock I r.1 r.2.2.1 r.2.2.2 = .ok dis)
    (hi : Inv I zero jobs s) (h : (∀ w ∈ s.ws, Fine w.phase) ∧ ∀ e, s.main ≠ .raised e) (hs : Calm I (.ok ()) sync s s') : (∀ w ∈ s'.ws, Fine w.phase) ∧ ∀ e, s'.main ≠ .raised e := by
  rcases hs with ⟨i, ha⟩ | hm
  · unfold advance at ha
    split at ha
    · cases ha
    · next w hw =>
      split at ha
      · cases ha
      · next lock' w' rows' hst =>
        cases ha
        refine ⟨?_, h.2⟩
        intro v hv
        rcases List.mem_or_eq_of_mem_set hv with hv | rfl
        · exact h.1 v hv
        · obtain ⟨job, hj, hwj⟩ := forall₂_getElem hi.workers.flip hw
          exact stepWorker_fine (hb job (List.mem_of_getElem? hj)) (hr job (List.mem_of_getElem? hj)) hi.length hwj hst (h.1 w (List.mem_of_getElem? hw))
  · unfold stepMain at hm
    split at hm
    · split at hm
      · split at hm
        · next e he =>
          exfalso
          obtain ⟨w, hw, hx⟩ := List.exists_of_findSome?_eq_some he
          unfold Worker.exception at hx
          split at hx
          · next hp => exact (h.1 w hw).1 _ hp
          · cases hx
        · cases hm; refine ⟨h.1, ?_⟩; intro e; dsimp only; split <;> exact fun h => by cases h
      · cases hm
    · cases hm; exact ⟨h.1, fun e h => by cases h⟩
    · cases hm

/-- blocks with floats can not be read -/
theorem float_read {I : Inputs ρ φ δ} {b : Block} (hb : b.float = true) {r : Loaded ρ} : readBlock I b ≠ .ok r := by
  intro h
  obtain ⟨_, _, _, _, _, _, h, _⟩ := readBlock_start h
  rw [hb] at h
  cases h

/-- phases before a block has been read -/
def Early : Phase ρ δ → Bool
  | .start => true
  | .ready => true
  | .reading => true
  | .failed _ => true
  | .dead => true
  | _ => false

theorem map_set_same {α β : Type} (f : α → β) {l : List α} {i : Nat} {x y : α} (h : l[i]? = some x) (hf : f y = f x) : (l.set i y).map f = l.map f := by
  rw [List.map_set]
  apply List.ext_getElem?
  intro j
  rw [List.getElem?_set]
  split
  · next hij =>
    subst hij
    split
    · rw [List.getElem?_map, h, hf]; rfl
    · next hn => rw [List.length_map] at hn; exact absurd (List.getElem?_eq_some_iff.mp h).1 hn
  · rfl

structure Floats (jobs : List (List Block)) (n : Nat) (zero : δ) (s : State ρ δ) : Prop where
  early : ∀ w ∈ s.ws, Early w.phase = true
  todo : s.ws.map (·.todo) = jobs
  rows : s.rows = List.replicate n zero
  main : (∃ job ∈ jobs, job ≠ []) → s.main ≠ .marking ∧ s.main ≠ .returned

theorem Floats.step {I : Inputs ρ φ δ} {ld : Except Err Unit} {sync : Bool} {zero : δ} {n : Nat} {jobs : List (List Block)} (hf : ∀ job ∈ jobs, ∀ b ∈ job, b.float = true) {s s' : State ρ δ}
    (h : Floats jobs n zero s) (hs : Step I ld sync s s') : Floats jobs n zero s' := by
  have hfl : ∀ w ∈ s.ws, ∀ b ∈ w.todo, b.float = true := by
    intro w hw b hb
    exact hf w.todo (by rw [← h.todo]; exact List.mem_map_of_mem hw) b hb
  cases hs with
  | work i ha =>
    unfold advance at ha
    split at ha
    · cases ha
    · next w hw =>
      split at ha
      · cases ha
      · next lock' w' rows' hst =>
        cases ha
        have he := h.early w (List.mem_of_getElem? hw)
        have hf := hfl w (List.mem_of_getElem? hw)
        have : Early w'.phase = true ∧ w'.todo = w.todo ∧ rows' = s.rows := by
          unfold stepWorker at hst
          split at hst
          · split at hst <;> cases hst <;> exact ⟨rfl, rfl, rfl⟩
          · next ht => split at hst <;> cases hst; exact ⟨rfl, ht.symm, rfl⟩
          · next hp ht =>
            split at hst
            · cases hst; exact ⟨rfl, ht.symm, rfl⟩
            · next r hr => exact absurd hr (float_read (hf _ (by rw [ht]; simp)))
          · next hp => rw [hp] at he; cases he
          · next hp => rw [hp] at he; cases he
          · next hp => rw [hp] at he; cases he
          · next hp _ => rw [hp] at he; cases he
          · next hp _ => rw [hp] at he; cases he
          · cases hst
        refine ⟨?_, ?_, this.2.2.trans h.rows, h.main⟩
        · intro v hv
          rcases List.mem_or_eq_of_mem_set hv with hv | rfl
          · exact h.early v hv
          · exact this.1
        · exact (map_set_same _ hw this.2.1).trans h.todo
  | kill i w rows' hw ht =>
    have he := h.early w (List.mem_of_getElem? hw)
    refine ⟨?_, (map_set_same _ (y := ⟨w.todo, .dead⟩) hw rfl).trans h.todo, ?_, h.main⟩
    · intro v hv
      rcases List.mem_or_eq_of_mem_set hv with hv | rfl
      · exact h.early v hv
      · rfl
    · unfold Torn at ht
      split at ht
      · next hp _ => rw [hp] at he; cases he
      · exact ht.trans h.rows
  | main hm =>
    unfold stepMain at hm
    split at hm
    · split at hm
      · next hend =>
        split at hm
        · cases hm; exact ⟨h.early, h.todo, h.rows, fun _ => ⟨fun h => (by cases h), fun h => (by cases h)⟩⟩
        · next hnone =>
          cases hm
          refine ⟨h.early, h.todo, h.rows, ?_⟩
          rintro ⟨job, hj, hne⟩
          exfalso
          rw [← h.todo] at hj
          obtain ⟨w, hw, rfl⟩ := List.mem_map.mp hj
          have he := List.all_eq_true.mp hend w hw
          have hx := List.findSome?_eq_none_iff.mp hnone w hw
          unfold Worker.ended at he
          unfold Worker.exception at hx
          split at he
          · next hp ht => exact hne ht
          · next hp => rw [hp] at hx; cases hx
          · cases he
      · cases hm
    · next hmk => cases hm; exact ⟨h.early, h.todo, h.rows, fun hj => absurd hmk (h.main hj).1⟩
    · cases hm

theorem Floats.steps {I : Inputs ρ φ δ} {ld : Except Err Unit} {sync : Bool} {zero : δ} {n : Nat} {jobs : List (List Block)} (hf : ∀ job ∈ jobs, ∀ b ∈ job, b.float = true) {s : State ρ δ}
    (hs : Steps I ld sync (begin zero n jobs) s) : Floats jobs n zero s := by
  generalize h0 : begin zero n jobs = s0 at hs
  induction hs with
  | refl =>
    subst h0
    refine ⟨?_, ?_, rfl, fun _ => ⟨fun h => (by cases h), fun h => (by cases h)⟩⟩
    · intro w hw
      obtain ⟨j, hj, rfl⟩ := List.mem_map.mp hw
      rfl
    · unfold begin
      dsimp only
      rw [List.map_map]
      exact List.map_id jobs
  | step _ h' ih => exact ih.step hf h'

end ABX.Distances
