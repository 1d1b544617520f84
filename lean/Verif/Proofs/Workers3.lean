import Verif.Proofs.Workers2
/-! Helper lemmas for the workers: the lock, progress and termination. -/
namespace ABX.Distances
open ExtSort ABX.Task Pairs
variable {ρ φ δ : Type}

/-- processes between acquire and release hold the lock -/
def LockOK (s : State ρ δ) : Prop := ∀ (i : Nat) (w : Worker ρ δ), s.ws[i]? = some w → w.phase.critical = true → s.lock = some i

theorem stepWorker_lock {I : Inputs ρ φ δ} {ld : Except Err Unit} {i : Nat} {lock lock' : Option Nat} {w w' : Worker ρ δ} {rows rows' : List δ}
    (hw : w.phase.critical = true → lock = some i) (h : stepWorker I ld true i lock w rows = some (lock', w', rows')) :
    (w'.phase.critical = true → lock' = some i) ∧ (lock' = lock ∨ lock = none ∨ lock = some i) := by
  unfold stepWorker at h
  split at h
  · split at h <;> cases h <;> exact ⟨fun h => (by cases h), .inl rfl⟩
  · next hp ht =>
    split at h
    · cases h
    · next l hl =>
      cases h
      unfold acquire at hl
      rw [if_pos rfl] at hl
      split at hl
      · next h0 => cases hl; exact ⟨fun _ => rfl, .inr (.inl h0)⟩
      · cases hl
  · next hp ht =>
    rw [hp] at hw
    split at h <;> cases h
    · exact ⟨fun h => (by cases h), .inl rfl⟩
    · exact ⟨fun _ => hw rfl, .inl rfl⟩
  · next hp => rw [hp] at hw; cases h; exact ⟨fun h => (by cases h), .inr (.inr (hw rfl))⟩
  · split at h <;> cases h <;> exact ⟨fun h => (by cases h), .inl rfl⟩
  · next hp =>
    split at h
    · cases h
    · next l hl =>
      cases h
      unfold acquire at hl
      rw [if_pos rfl] at hl
      split at hl
      · next h0 => cases hl; exact ⟨fun _ => rfl, .inr (.inl h0)⟩
      · cases hl
  · next hp ht =>
    rw [hp] at hw
    split at h <;> cases h
    · exact ⟨fun h => (by cases h), .inl rfl⟩
    · exact ⟨fun _ => hw rfl, .inl rfl⟩
  · next hp ht => rw [hp] at hw; cases h; exact ⟨fun h => (by cases h), .inr (.inr (hw rfl))⟩
  · cases h

theorem LockOK.step {I : Inputs ρ φ δ} {ld : Except Err Unit} {s s' : State ρ δ} (h : LockOK s) (hs : Step I ld true s s') : LockOK s' := by
  cases hs with
  | work i ha =>
    unfold advance at ha
    split at ha
    · cases ha
    · next w hw =>
      split at ha
      · cases ha
      · next lock' w' rows' hst =>
        cases ha
        obtain ⟨h1, h2⟩ := stepWorker_lock (h i w hw) hst
        intro j v hv hc
        dsimp only at hv ⊢
        rw [List.getElem?_set] at hv
        split at hv
        · next hij =>
          subst hij
          split at hv
          · cases hv; exact h1 hc
          · cases hv
        · next hij =>
          have := h j v hv hc
          rcases h2 with h2 | h2 | h2
          · rw [h2]; exact this
          · rw [h2] at this; cases this
          · rw [h2] at this; cases this; exact absurd rfl hij
  | kill i w rows' hw ht =>
    intro j v hv hc
    dsimp only at hv ⊢
    rw [List.getElem?_set] at hv
    split at hv
    · split at hv
      · cases hv; cases hc
      · cases hv
    · exact h j v hv hc
  | main hm =>
    unfold stepMain at hm
    split at hm
    · split at hm
      · split at hm <;> cases hm <;> exact h
      · cases hm
    · cases hm; exact h
    · cases hm

theorem LockOK.steps {I : Inputs ρ φ δ} {ld : Except Err Unit} {s s' : State ρ δ} (h : LockOK s) (hs : Steps I ld true s s') : LockOK s' := by
  induction hs with
  | refl => exact h
  | step _ h' ih => exact ih.step h'

theorem LockOK.begin (zero : δ) (n : Nat) (jobs : List (List Block)) : LockOK (begin (ρ := ρ) zero n jobs) := by
  intro i w hw hc
  unfold Distances.begin at hw
  dsimp only at hw
  rw [List.getElem?_map, Option.map_eq_some_iff] at hw
  obtain ⟨j, -, rfl⟩ := hw
  cases hc

/-- a process that is neither waiting nor ended can make a step -/
theorem stepWorker_some {I : Inputs ρ φ δ} {ld : Except Err Unit} {sync : Bool} {i : Nat} {lock : Option Nat} {w : Worker ρ δ} {rows : List δ} (hp : PhaseOK I rows w.todo w.phase)
    (hl : sync = false ∨ lock = none ∨ w.phase.critical = true) (he : w.ended = false) (hd : w.phase ≠ .dead) : ∃ r, stepWorker I ld sync i lock w rows = some r := by
  have hacq : ∀ {p : Phase ρ δ}, p.critical = false → w.phase = p → ∃ l, acquire sync i lock = some l := by
    intro p hc hwp
    unfold acquire
    rcases hl with rfl | rfl | hl
    · exact ⟨_, rfl⟩
    · cases sync <;> exact ⟨_, rfl⟩
    · rw [hwp, hc] at hl; cases hl
  obtain ⟨todo, phase⟩ := w
  dsimp only at hp hd hacq
  unfold stepWorker
  cases phase with
  | start => dsimp only; cases ld <;> exact ⟨_, rfl⟩
  | ready =>
    cases todo with
    | nil => cases he
    | cons b bs => obtain ⟨l, hl⟩ := hacq rfl rfl; dsimp only; rw [hl]; exact ⟨_, rfl⟩
  | reading => obtain ⟨b, bs, rfl⟩ := hp; dsimp only; cases readBlock I b <;> exact ⟨_, rfl⟩
  | read r => exact ⟨_, rfl⟩
  | loaded r => dsimp only; cases computeBlock I r.1 r.2.2.1 r.2.2.2 <;> exact ⟨_, rfl⟩
  | computed r dis => obtain ⟨l, hl⟩ := hacq rfl rfl; dsimp only; rw [hl]; exact ⟨_, rfl⟩
  | writing r dis => obtain ⟨b, bs, rfl, -, -⟩ := hp; dsimp only; cases h5Assign rows (r.2.1 + b.start) (r.2.1 + b.stop) dis <;> exact ⟨_, rfl⟩
  | written => obtain ⟨b, bs, rfl, -⟩ := hp; exact ⟨_, rfl⟩
  | failed e => cases he
  | dead => exact absurd rfl hd

/-- remaining steps of a process, at most -/
def Worker.rank (w : Worker ρ δ) : Nat :=
  match w.phase with
  | .start => 8 * w.todo.length + 8
  | .ready => 8 * w.todo.length + 7
  | .reading => 8 * w.todo.length + 6
  | .read _ => 8 * w.todo.length + 5
  | .loaded _ => 8 * w.todo.length + 4
  | .computed _ _ => 8 * w.todo.length + 3
  | .writing _ _ => 8 * w.todo.length + 2
  | .written => 8 * w.todo.length + 1
  | .failed _ => 0
  | .dead => 0

theorem stepWorker_rank {I : Inputs ρ φ δ} {ld : Except Err Unit} {sync : Bool} {i : Nat} {lock lock' : Option Nat} {w w' : Worker ρ δ} {rows rows' : List δ}
    (h : stepWorker I ld sync i lock w rows = some (lock', w', rows')) : w'.rank < w.rank := by
  unfold stepWorker at h
  unfold Worker.rank
  split at h
  · next hp => split at h <;> cases h <;> rw [hp] <;> dsimp only <;> omega
  · next hp ht => split at h <;> cases h; rw [hp, ht]; dsimp only; omega
  · next hp ht => split at h <;> cases h <;> rw [hp] <;> try rw [ht] <;> dsimp only <;> omega
  · next hp => cases h; rw [hp]; dsimp only; omega
  · next hp => split at h <;> cases h <;> rw [hp] <;> dsimp only <;> omega
  · next hp => split at h <;> cases h; rw [hp]; dsimp only; omega
  · next hp ht => split at h <;> cases h <;> rw [hp] <;> try rw [ht] <;> dsimp only <;> omega
  · next hp ht => cases h; rw [hp, ht]; dsimp only; rw [List.length_cons]; omega
  · cases h

def Main.rank : Main → Nat
  | .running => 2
  | .marking => 1
  | _ => 0

/-- remaining steps, at most, other than the killing of processes -/
def State.rank (s : State ρ δ) : Nat := (s.ws.map Worker.rank).sum + s.main.rank

theorem sum_set {α : Type} (f : α → Nat) : ∀ {l : List α} {i : Nat} {x : α} (y : α), l[i]? = some x → ((l.set i y).map f).sum + f x = (l.map f).sum + f y
  | [], i, x, y, h => by simp at h
  | a :: l, 0, x, y, h => by
    simp at h
    subst h
    simp
    omega
  | a :: l, i + 1, x, y, h => by
    have := sum_set f y (l := l) (i := i) (x := x) (by simpa using h)
    simp only [List.set_cons_succ, List.map_cons, List.sum_cons]
    omega

theorem advance_rank {I : Inputs ρ φ δ} {ld : Except Err Unit} {sync : Bool} {i : Nat} {s s' : State ρ δ} (h : advance I ld sync i s = some s') : s'.rank < s.rank := by
  unfold advance at h
  split at h
  · cases h
  · next w hw =>
    split at h
    · cases h
    · next lock' w' rows' hst =>
      cases h
      have h1 := stepWorker_rank hst
      have h2 := sum_set Worker.rank w' hw
      unfold State.rank
      dsimp only
      omega

theorem main_rank {sync : Bool} {s s' : State ρ δ} (h : stepMain sync s = some s') : s'.rank < s.rank := by
  unfold stepMain at h
  unfold State.rank
  split at h
  · next hr =>
    split at h
    · split at h
      · cases h; rw [hr]; simp [Main.rank]
      · cases h; rw [hr]; cases sync <;> simp [Main.rank]
    · cases h
  · next hr => cases h; rw [hr]; simp [Main.rank]
  · cases h

theorem kill_rank {s : State ρ δ} {i : Nat} {w : Worker ρ δ} (hw : s.ws[i]? = some w) (rows' : List δ) :
    ({ s with ws := s.ws.set i ⟨w.todo, .dead⟩, rows := rows' } : State ρ δ).rank ≤ s.rank := by
  have h2 := sum_set Worker.rank (⟨w.todo, .dead⟩ : Worker ρ δ) hw
  unfold State.rank
  dsimp only
  have : Worker.rank (⟨w.todo, .dead⟩ : Worker ρ δ) = 0 := rfl
  omega

end ABX.Distances
