import Verif.Proofs.Workers
/-! Helper lemmas for the workers: invariant of the executions. -/
namespace ABX.Distances
open ExtSort ABX.Task Pairs
variable {ρ φ δ : Type}

/-- the rows may change from `rows` to `rows'` -/
def Change (I : Inputs ρ φ δ) (rows rows' : List δ) : Prop :=
  rows'.length = rows.length ∧ ∀ k : Nat, rows'[k]? = rows[k]? ∨ Good I rows' k

theorem Change.refl (I : Inputs ρ φ δ) (rows : List δ) : Change I rows rows := ⟨rfl, fun _ => .inl rfl⟩

theorem Good.mono {I : Inputs ρ φ δ} {rows rows' : List δ} (h : Change I rows rows') {k : Nat} (hg : Good I rows k) : Good I rows' k := by
  rcases h.2 k with h | h
  · obtain ⟨d, h1, h2⟩ := hg
    exact ⟨d, by rw [h, h1], h2⟩
  · exact h

theorem BlockDone.mono {I : Inputs ρ φ δ} {rows rows' : List δ} (h : Change I rows rows') {b : Block} (hg : BlockDone I rows b) : BlockDone I rows' b :=
  fun base start stop h1 k h2 h3 => (hg base start stop h1 k h2 h3).mono h

/-- what a phase implies -/
def PhaseOK (I : Inputs ρ φ δ) (rows : List δ) (todo : List Block) : Phase ρ δ → Prop
  | .reading => ∃ b bs, todo = b :: bs
  | .read r => ∃ b bs, todo = b :: bs ∧ readBlock I b = .ok r
  | .loaded r => ∃ b bs, todo = b :: bs ∧ readBlock I b = .ok r
  | .computed r dis => ∃ b bs, todo = b :: bs ∧ readBlock I b = .ok r ∧ computeBlock I r.1 r.2.2.1 r.2.2.2 = .ok dis
  | .writing r dis => ∃ b bs, todo = b :: bs ∧ readBlock I b = .ok r ∧ computeBlock I r.1 r.2.2.1 r.2.2.2 = .ok dis
  | .written => ∃ b bs, todo = b :: bs ∧ BlockDone I rows b
  | _ => True

theorem PhaseOK.mono {I : Inputs ρ φ δ} {rows rows' : List δ} (h : Change I rows rows') {todo : List Block} {p : Phase ρ δ} (hp : PhaseOK I rows todo p) : PhaseOK I rows' todo p := by
  cases p with
  | written => obtain ⟨b, bs, h1, h2⟩ := hp; exact ⟨b, bs, h1, h2.mono h⟩
  | _ => exact hp

/-- what is known of a process -/
def WorkerOK (I : Inputs ρ φ δ) (rows : List δ) (job : List Block) (w : Worker ρ δ) : Prop :=
  (∃ pre, job = pre ++ w.todo ∧ ∀ b ∈ pre, BlockDone I rows b) ∧ PhaseOK I rows w.todo w.phase

theorem WorkerOK.mono {I : Inputs ρ φ δ} {rows rows' : List δ} (h : Change I rows rows') {job : List Block} {w : Worker ρ δ} (hw : WorkerOK I rows job w) : WorkerOK I rows' job w := by
  obtain ⟨⟨pre, h1, h2⟩, h3⟩ := hw
  exact ⟨⟨pre, h1, fun b hb => (h2 b hb).mono h⟩, h3.mono h⟩

theorem readBlock_start {I : Inputs ρ φ δ} {b : Block} {r : Loaded ρ} (h : readBlock I b = .ok r) :
    ∃ base start stop db, I.pairs.attrs.lookup b.by_ = some (base, start, stop) ∧ I.feats.lookup b.by_ = some db ∧ b.float = false ∧
      r = (db, start.toNat, base, npSlice I.pairs.data (start.toNat + b.start) (start.toNat + b.stop)) := by
  unfold readBlock at h
  split at h
  · cases h
  · next db hdb =>
    split at h
    · cases h
    · next base start stop ha =>
      split at h
      · cases h
      · next hf =>
        injection h with h
        exact ⟨base, start, stop, db, ha, hdb, by simpa using hf, h.symm⟩

/-- the writing of a block -/
theorem write_ok {I : Inputs ρ φ δ} {b : Block} (hb : BlockIn I.pairs b) {r : Loaded ρ} (hr : readBlock I b = .ok r) {dis : List δ}
    (hd : computeBlock I r.1 r.2.2.1 r.2.2.2 = .ok dis) {rows : List δ} (hl : rows.length = I.pairs.data.length) :
    ∃ rows', h5Assign rows (r.2.1 + b.start) (r.2.1 + b.stop) dis = .ok rows' ∧ Change I rows rows' ∧ BlockDone I rows' b := by
  obtain ⟨h1, h2, h3, h4⟩ := block_ok hb hr hd
  have ha := h5Assign_ok rows dis (r.2.1 + b.start) (r.2.1 + b.stop) (by omega) (by omega) (by omega)
  have hin : ∀ k : Nat, r.2.1 + b.start ≤ k → k < r.2.1 + b.stop → Good I (rows.take (r.2.1 + b.start) ++ dis ++ rows.drop (r.2.1 + b.stop)) k := by
    intro k k1 k2
    have hj : k - (r.2.1 + b.start) < dis.length := by omega
    refine ⟨dis[k - (r.2.1 + b.start)], ?_, ?_⟩
    · rw [List.getElem?_append_left (by simp; omega), List.getElem?_append_right (by simp; omega), List.length_take, Nat.min_eq_left (by omega)]
      exact List.getElem?_eq_getElem hj
    · have := h4 (k - (r.2.1 + b.start)) _ (List.getElem?_eq_getElem hj)
      rwa [show r.2.1 + b.start + (k - (r.2.1 + b.start)) = k by omega] at this
  refine ⟨_, ha, ⟨?_, ?_⟩, ?_⟩
  · simp; omega
  · intro k
    by_cases k1 : k < r.2.1 + b.start
    · left
      rw [List.getElem?_append_left (by simp; omega), List.getElem?_append_left (by simp; omega), List.getElem?_take, if_pos k1]
    · by_cases k2 : k < r.2.1 + b.stop
      · exact .inr (hin k (by omega) k2)
      · left
        rw [List.getElem?_append_right (by simp; omega), List.getElem?_drop]
        congr 1
        simp
        omega
  · intro base start stop hat k k1 k2
    obtain ⟨base', start', stop', db, q1, -, -, q4⟩ := readBlock_start hr
    rw [hat] at q1
    injection q1 with q1
    injection q1 with q1 q2
    injection q2 with q2 q3
    subst q2
    have : r.2.1 = start.toNat := by rw [q4]
    exact hin k (by omega) (by omega)

theorem stepWorker_ok {I : Inputs ρ φ δ} {ld : Except Err Unit} {sync : Bool} {i : Nat} {lock lock' : Option Nat} {w w' : Worker ρ δ} {rows rows' : List δ} {job : List Block}
    (hb : ∀ b ∈ job, BlockIn I.pairs b) (hl : rows.length = I.pairs.data.length) (hw : WorkerOK I rows job w)
    (h : stepWorker I ld sync i lock w rows = some (lock', w', rows')) : WorkerOK I rows' job w' ∧ Change I rows rows' := by
  obtain ⟨todo, phase⟩ := w
  obtain ⟨⟨pre, h1, h2⟩, h3⟩ := hw
  dsimp only at h1 h3
  cases phase with
  | start =>
    unfold stepWorker at h; dsimp only at h
    split at h <;> cases h <;> exact ⟨⟨⟨pre, h1, h2⟩, trivial⟩, Change.refl _ _⟩
  | ready =>
    cases todo with
    | nil => unfold stepWorker at h; cases h
    | cons b bs =>
      unfold stepWorker at h; dsimp only at h
      split at h
      · cases h
      · cases h; exact ⟨⟨⟨pre, h1, h2⟩, b, bs, rfl⟩, Change.refl _ _⟩
  | reading =>
    obtain ⟨b, bs, rfl⟩ := h3
    unfold stepWorker at h; dsimp only at h
    split at h
    · cases h; exact ⟨⟨⟨pre, h1, h2⟩, trivial⟩, Change.refl _ _⟩
    · next r hr => cases h; exact ⟨⟨⟨pre, h1, h2⟩, b, bs, rfl, hr⟩, Change.refl _ _⟩
  | read r =>
    unfold stepWorker at h; dsimp only at h
    cases h; exact ⟨⟨⟨pre, h1, h2⟩, h3⟩, Change.refl _ _⟩
  | loaded r =>
    obtain ⟨b, bs, rfl, hr⟩ := h3
    unfold stepWorker at h; dsimp only at h
    split at h
    · cases h; exact ⟨⟨⟨pre, h1, h2⟩, trivial⟩, Change.refl _ _⟩
    · next dis hd => cases h; exact ⟨⟨⟨pre, h1, h2⟩, b, bs, rfl, hr, hd⟩, Change.refl _ _⟩
  | computed r dis =>
    unfold stepWorker at h; dsimp only at h
    split at h
    · cases h
    · cases h; exact ⟨⟨⟨pre, h1, h2⟩, h3⟩, Change.refl _ _⟩
  | writing r dis =>
    obtain ⟨b, bs, rfl, hr, hd⟩ := h3
    obtain ⟨rows'', w1, w2, w3⟩ := write_ok (hb b (by rw [h1]; simp)) hr hd hl
    unfold stepWorker at h; dsimp only at h
    rw [w1] at h
    cases h
    exact ⟨⟨⟨pre, h1, fun b hb => (h2 b hb).mono w2⟩, b, bs, rfl, w3⟩, w2⟩
  | written =>
    obtain ⟨b, bs, rfl, hd⟩ := h3
    unfold stepWorker at h; dsimp only at h
    cases h
    refine ⟨⟨⟨pre ++ [b], by rw [h1]; simp, ?_⟩, trivial⟩, Change.refl _ _⟩
    intro c hc
    rcases List.mem_append.mp hc with hc | hc
    · exact h2 c hc
    · rw [List.mem_singleton] at hc; subst hc; exact hd
  | failed e => unfold stepWorker at h; cases h
  | dead => unfold stepWorker at h; cases h

theorem forall₂_set {α β : Type} {R R' : α → β → Prop} : ∀ {l : List α} {m : List β} {i : Nat} {y : β}, List.Forall₂ R l m → (∀ x y, R x y → R' x y) → (∀ x, l[i]? = some x → R' x y) →
    List.Forall₂ R' l (m.set i y)
  | _, _, _, _, .nil, _, _ => .nil
  | _, _, 0, _, .cons h1 h2, hm, hy => .cons (hy _ rfl) (h2.imp hm)
  | _, _, i + 1, _, .cons h1 h2, hm, hy => .cons (hm _ _ h1) (forall₂_set h2 hm (fun x hx => hy x (by simpa using hx)))

/-- the invariant -/
structure Inv (I : Inputs ρ φ δ) (zero : δ) (jobs : List (List Block)) (s : State ρ δ) : Prop where
  length : s.rows.length = I.pairs.data.length
  rows : ∀ (k : Nat) (d : δ), s.rows[k]? = some d → d = zero ∨ RowOK I k d
  workers : List.Forall₂ (WorkerOK I s.rows) jobs s.ws
  main : (s.main = .marking ∨ s.main = .returned ∨ s.done = true) → ∀ job ∈ jobs, ∀ b ∈ job, BlockDone I s.rows b

theorem Inv.change {I : Inputs ρ φ δ} {zero : δ} {jobs : List (List Block)} {s : State ρ δ} (h : Inv I zero jobs s) {rows' : List δ} (hc : Change I s.rows rows') {ws' : List (Worker ρ δ)}
    (hw : List.Forall₂ (WorkerOK I rows') jobs ws') (lock' : Option Nat) : Inv I zero jobs { s with lock := lock', ws := ws', rows := rows' } where
  length := by rw [hc.1, h.length]
  rows := by
    intro k d hd
    rcases hc.2 k with h1 | ⟨d', h1, h2⟩
    · exact h.rows k d (h1 ▸ hd)
    · dsimp only at hd
      rw [h1] at hd
      cases hd
      exact .inr h2
  workers := hw
  main := fun hm job hj b hb => (h.main hm job hj b hb).mono hc

theorem Inv.step {I : Inputs ρ φ δ} {ld : Except Err Unit} {sync : Bool} {zero : δ} {jobs : List (List Block)} {s s' : State ρ δ} (hb : ∀ job ∈ jobs, ∀ b ∈ job, BlockIn I.pairs b)
    (h : Inv I zero jobs s) (hs : Step I ld sync s s') : Inv I zero jobs s' := by
  cases hs with
  | work i ha =>
    unfold advance at ha
    split at ha
    · cases ha
    · next w hw =>
      split at ha
      · cases ha
      · next lock' w' rows' hst =>
        cases ha
        have hc : Change I s.rows rows' := by
          obtain ⟨job, hj, hwj⟩ := forall₂_getElem h.workers.flip hw
          exact (stepWorker_ok (hb job (List.mem_of_getElem? hj)) h.length hwj hst).2
        refine h.change hc (forall₂_set h.workers (fun x y hxy => hxy.mono hc) ?_) lock'
        intro job hj
        obtain ⟨w'', h1, h2⟩ := forall₂_getElem h.workers hj
        rw [hw] at h1
        cases h1
        exact (stepWorker_ok (hb job (List.mem_of_getElem? hj)) h.length h2 hst).1
  | kill i w rows' hw ht =>
    obtain ⟨job, hj, hwj⟩ := forall₂_getElem h.workers.flip hw
    have hc : Change I s.rows rows' := by
      unfold Torn at ht
      split at ht
      · next r dis b bs hp htodo =>
        obtain ⟨new, n1, n2, n3⟩ := ht
        obtain ⟨⟨pre, h1, h2⟩, h3⟩ := hwj
        rw [hp] at h3
        obtain ⟨b', bs', q1, q2, q3⟩ := h3
        rw [htodo] at q1 h1
        cases q1
        obtain ⟨new', w1, w2, w3⟩ := write_ok (hb job (List.mem_of_getElem? hj) b (by rw [h1]; simp)) q2 q3 h.length
        rw [n1] at w1
        cases w1
        refine ⟨n2, fun k => ?_⟩
        rcases n3 k with n3 | n3
        · exact .inl n3
        · rcases w2.2 k with w2 | ⟨d, d1, d2⟩
          · exact .inl (n3.trans w2)
          · exact .inr ⟨d, n3.trans d1, d2⟩
      · rw [ht]; exact Change.refl _ _
    refine h.change hc (forall₂_set h.workers (fun x y hxy => hxy.mono hc) ?_) s.lock
    intro job' hj'
    rw [hj] at hj'
    cases hj'
    exact ⟨(WorkerOK.mono hc hwj).1, trivial⟩
  | main hm =>
    unfold stepMain at hm
    split at hm
    · next hr =>
      split at hm
      · next hend =>
        split at hm
        · cases hm; exact ⟨h.length, h.rows, h.workers, fun hx => h.main (by rcases hx with hx | hx | hx <;> first | cases hx | exact .inr (.inr hx))⟩
        · next hnone =>
          cases hm
          refine ⟨h.length, h.rows, h.workers, fun _ job hj b hbj => ?_⟩
          obtain ⟨w, hw, hwj⟩ := forall₂_mem_left h.workers job hj
          have he := List.all_eq_true.mp hend w hw
          have hx := List.findSome?_eq_none_iff.mp hnone w hw
          obtain ⟨⟨pre, h1, h2⟩, -⟩ := hwj
          obtain ⟨todo, phase⟩ := w
          unfold Worker.ended at he
          unfold Worker.exception at hx
          dsimp only at he hx h1
          split at he
          · rw [h1, List.append_nil] at hbj; exact h2 b hbj
          · cases hx
          · cases he
      · cases hm
    · next hr => cases hm; exact ⟨h.length, h.rows, h.workers, fun _ => h.main (.inl hr)⟩
    · cases hm

theorem Inv.steps {I : Inputs ρ φ δ} {ld : Except Err Unit} {sync : Bool} {zero : δ} {jobs : List (List Block)} {s s' : State ρ δ} (hb : ∀ job ∈ jobs, ∀ b ∈ job, BlockIn I.pairs b)
    (h : Inv I zero jobs s) (hs : Steps I ld sync s s') : Inv I zero jobs s' := by
  induction hs with
  | refl => exact h
  | step _ h' ih => exact ih.step hb h'

theorem Inv.begin (I : Inputs ρ φ δ) (zero : δ) (jobs : List (List Block)) : Inv I zero jobs (begin zero I.pairs.data.length jobs) where
  length := by simp [Distances.begin]
  rows := by
    intro k d hd
    exact .inl (List.mem_replicate.mp (List.mem_of_getElem? hd)).2
  workers := by
    unfold Distances.begin
    dsimp only
    rw [List.forall₂_map_right_iff, List.forall₂_same]
    intro job _
    exact ⟨⟨[], rfl, by simp⟩, trivial⟩
  main := by rintro (h | h | h) <;> cases h

end ABX.Distances
