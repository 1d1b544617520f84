import Verif.Model.ExtSort
import Verif.Proofs.H52NP
import Verif.Proofs.NP2H5
namespace ABX

theorem npSlice_map (f : α → β) (a : List α) (lo hi : Nat) :
    npSlice (a.map f) lo hi = (npSlice a lo hi).map f := by
  simp [npSlice]

theorem npAssign_map (f : α → β) (a v : List α) (lo hi : Nat) :
    npAssign (a.map f) lo hi (v.map f) = (npAssign a lo hi v).map (List.map f) := by
  unfold npAssign
  simp only [List.length_map]
  split
  · simp [Except.map]
  · cases v with
    | nil => rfl
    | cons x xs => cases xs with
      | nil => simp [Except.map]
      | cons y ys => rfl

namespace H52NP

/-- apply a function to every row -/
def RBuf.map (f : α → β) (b : RBuf α) : RBuf β :=
  { ds := b.ds.map f, dsIx := b.dsIx, nRows := b.nRows, bufLen := b.bufLen, buf := b.buf.map f, bufIx := b.bufIx }

theorem refill_map (f : α → β) (pol : Policy) (b : RBuf α) :
    (b.map f).refill pol = (b.refill pol).map (RBuf.map f) := by
  unfold RBuf.refill
  dsimp only [RBuf.map]
  by_cases c1 : b.dsIx = b.nRows
  · simp [c1, Except.map, RBuf.map]
  by_cases c2 : b.bufLen = 0
  · simp only [c1, c2, if_true, if_false]; rfl
  by_cases c3 : pol b.bufIx b.bufLen = true
  · simp only [c1, c2, c3, if_true, if_false]
    rw [← List.map_drop, npAssign_map]
    cases h1 : npAssign b.buf (b.dsIx + b.bufIx - b.nRows) (b.dsIx + b.bufIx - b.nRows + (b.bufLen - b.bufIx)) (b.buf.drop b.bufIx) with
    | error e => rfl
    | ok buf =>
      simp only [Except.map]
      rw [npSlice_map, npAssign_map]
      cases h2 : npAssign buf (b.dsIx + b.bufIx - b.nRows + (b.bufLen - b.bufIx)) b.bufLen (npSlice b.ds b.dsIx (min (b.dsIx + b.bufIx) b.nRows)) with
      | error e => rfl
      | ok buf => simp [Except.map, RBuf.map]
  · simp only [c1, c2, c3, if_false]; rfl

theorem isEmpty_map (f : α → β) (b : RBuf α) : (b.map f).isEmpty = b.isEmpty := rfl

theorem readLoop_map (f : α → β) (pol : Policy) (fuel : Nat) : ∀ (b : RBuf α) (amount found : Nat) (acc : List α),
    (b.map f).readLoop pol fuel amount found (acc.map f) =
      (b.readLoop pol fuel amount found acc).map (Prod.map (RBuf.map f) (List.map f)) := by
  induction fuel with
  | zero =>
    intro b amount found acc
    unfold RBuf.readLoop
    rw [isEmpty_map]
    by_cases c : found < amount ∧ b.isEmpty = false
    · simp only [if_pos c]; rfl
    · simp only [if_neg c]; rfl
  | succ n ih =>
    intro b amount found acc
    unfold RBuf.readLoop
    rw [isEmpty_map]
    by_cases c : found < amount ∧ b.isEmpty = false
    · simp only [if_pos c]
      have e1 : (b.map f).bufLen = b.bufLen := rfl
      have e2 : (b.map f).bufIx = b.bufIx := rfl
      have e3 : (b.map f).buf = b.buf.map f := rfl
      rw [e1, e2, e3]
      generalize (if b.bufLen - b.bufIx > amount - found then b.bufIx + (amount - found) else b.bufLen) = next
      generalize (if b.bufLen - b.bufIx > amount - found then amount else found + (b.bufLen - b.bufIx)) = found'
      have e4 : ({ ds := (b.map f).ds, dsIx := (b.map f).dsIx, nRows := (b.map f).nRows, bufLen := b.bufLen, buf := b.buf.map f, bufIx := next } : RBuf β) = RBuf.map f { b with bufIx := next } := rfl
      rw [e4, refill_map]
      cases h : RBuf.refill pol { b with bufIx := next } with
      | error e => rfl
      | ok b' =>
        simp only [Except.map]
        rw [npSlice_map, ← List.map_append, ih]
        rfl
    · simp only [if_neg c]; rfl

theorem read_map (f : α → β) (pol : Policy) (b : RBuf α) (a : Option Int) :
    (b.map f).read pol a = (b.read pol a).map (Prod.map (RBuf.map f) (List.map f)) := by
  unfold RBuf.read
  have e1 : (b.map f).bufLen = b.bufLen := rfl
  have e2 : (b.map f).bufIx = b.bufIx := rfl
  have e3 : (b.map f).nRows = b.nRows := rfl
  rw [isEmpty_map, e1, e2, e3]
  cases a with
  | some a =>
    dsimp only
    by_cases c1 : a ≤ 0
    · simp only [if_pos c1]; rfl
    by_cases c2 : b.isEmpty = true
    · simp only [if_neg c1, if_pos c2]; rfl
    · simp only [if_neg c1, if_neg c2]
      exact readLoop_map f pol _ b _ 0 []
  | none =>
    dsimp only
    by_cases c1 : b.isEmpty = true
    · simp only [if_pos c1]; rfl
    by_cases c2 : b.bufLen - b.bufIx = 0
    · simp only [if_neg c1, if_pos c2]; rfl
    · simp only [if_neg c1, if_neg c2]
      exact readLoop_map f pol _ b _ 0 []

theorem create_map (f : α → β) (pol : Policy) (zero : α) (ds : List α) (start stop bufLen : Nat) :
    RBuf.create (f zero) pol (ds.map f) start stop bufLen =
      (RBuf.create zero pol ds start stop bufLen).map (RBuf.map f) := by
  unfold RBuf.create
  rw [← refill_map]
  simp [RBuf.map]

end H52NP

namespace ExtSort
open H52NP NP2H5

theorem sequence_map_ok {f : α → Except Err β} {g : α → β} {l : List α} (h : ∀ x ∈ l, f x = .ok (g x)) :
    sequence (l.map f) = .ok (l.map g) := by
  induction l with
  | nil => rfl
  | cons x xs ih =>
    simp only [List.map_cons, h x (by simp), sequence, ih (fun y hy => h y (by simp [hy]))]

theorem gather_map (f : α → β) (data : List α) (order : List Nat) :
    gather (data.map f) order = (gather data order).map (List.map f) := by
  induction order with
  | nil => rfl
  | cons i is ih =>
    simp only [gather, List.getElem?_map]
    cases h : data[i]? with
    | none => rfl
    | some x =>
      simp only [Option.map_some, ih]
      cases gather data is <;> rfl

theorem gather_ok (data : List α) (order : List Nat) (h : ∀ i ∈ order, i < data.length) :
    gather data order = .ok (order.filterMap (fun i => data[i]?)) := by
  induction order with
  | nil => rfl
  | cons i is ih =>
    have hi := h i (by simp)
    simp only [gather, List.getElem?_eq_getElem hi, ih (fun j hj => h j (by simp [hj]))]
    simp [List.getElem?_eq_getElem hi]

theorem filterMap_range_getElem (data : List α) :
    (List.range data.length).filterMap (fun i => data[i]?) = data := by
  apply List.ext_getElem?
  intro i
  have : (List.range data.length).filterMap (fun i => data[i]?) = data := by
    induction data with
    | nil => rfl
    | cons x xs ih =>
      rw [List.length_cons, List.range_succ_eq_map]
      simp only [List.filterMap_cons, List.filterMap_map]
      simp only [List.getElem?_cons_zero]
      congr 1
  rw [this]

/-- the behaviour assumed of numpy's argsort: a permutation of the indices that sorts -/
structure ArgsortLaw (argsort : List Int → List Nat) : Prop where
  perm : ∀ l, (argsort l).Perm (List.range l.length)
  sorted : ∀ l s, gather l (argsort l) = .ok s → s.Pairwise (· ≤ ·)

theorem gather_perm (data : List α) (order : List Nat) (h : order.Perm (List.range data.length)) :
    ∃ r, gather data order = .ok r ∧ r.Perm data := by
  refine ⟨_, gather_ok data order (fun i hi => by
    have := h.mem_iff.mp hi; simpa using this), ?_⟩
  have := h.filterMap (fun i => data[i]?)
  rwa [filterMap_range_getElem] at this

/-- sorting tagged rows by key -/
theorem argsort_tagged {argsort} (hs : ArgsortLaw argsort) (key : α → Int) (data : List α) :
    ∃ r, gather data (argsort (data.map key)) = .ok r ∧ r.Perm data ∧
      r.Pairwise (fun x y => key x ≤ key y) := by
  have hp := hs.perm (data.map key)
  rw [List.length_map] at hp
  obtain ⟨r, h1, h2⟩ := gather_perm data _ hp
  refine ⟨r, h1, h2, ?_⟩
  have h3 := hs.sorted (data.map key) (r.map key) (by rw [gather_map, h1]; rfl)
  rwa [List.pairwise_map] at h3

/-! ### reading the chunks -/

theorem readAmounts_map (f : α → β) (pol : Policy) : ∀ (tb : List (RBuf α)) (am : List Nat),
    readAmounts pol (tb.map (RBuf.map f)) am =
      (readAmounts pol tb am).map (Prod.map (List.map (RBuf.map f)) (List.map f))
  | [], am => by simp [readAmounts, Except.map]
  | b :: bs, [] => by simp [readAmounts, Except.map]
  | b :: bs, a :: as => by
    simp only [List.map_cons, readAmounts]
    rw [read_map, readAmounts_map f pol bs as]
    by_cases c : a > 0
    · simp only [if_pos c]
      cases b.read pol (some (a : Int)) with
      | error e => rfl
      | ok p =>
        obtain ⟨b', d⟩ := p
        simp only [Except.map, Prod.map]
        cases readAmounts pol bs as with
        | error e => rfl
        | ok q => simp
    · simp only [if_neg c]
      cases readAmounts pol bs as with
      | error e => rfl
      | ok q => simp [Except.map]

theorem readRest_map (f : α → β) (pol : Policy) : ∀ (tb : List (RBuf α)),
    readRest pol (tb.map (RBuf.map f)) = (readRest pol tb).map (Prod.map (List.map (RBuf.map f)) (List.map f))
  | [] => by simp [readRest, Except.map]
  | b :: bs => by
    simp only [List.map_cons, readRest]
    rw [read_map, readRest_map f pol bs]
    have e1 : (b.map f).bufLen = b.bufLen := rfl
    have e2 : (b.map f).bufIx = b.bufIx := rfl
    rw [e1, e2]
    by_cases c : b.bufIx = b.bufLen
    · simp only [if_pos c]
      cases readRest pol bs with
      | error e => rfl
      | ok q => simp [Except.map]
    · simp only [if_neg c]
      cases b.read pol none with
      | error e => rfl
      | ok p =>
        obtain ⟨b', d⟩ := p
        simp only [Except.map, Prod.map]
        cases readRest pol bs with
        | error e => rfl
        | ok q => simp

/-- what the amounts must satisfy with respect to the remaining rows -/
def takeAll : List (RBuf α) → List Nat → List α
  | b :: bs, a :: as => b.remaining.take a ++ takeAll bs as
  | _, _ => []

theorem readAmounts_ok (pol : Policy) (hp : ∀ L, 0 < L → pol L L = true) : ∀ (tb : List (RBuf α)) (am : List Nat),
    (∀ b ∈ tb, RInv b) → am.length = tb.length →
    (∀ p ∈ tb.zip am, p.2 ≤ p.1.remaining.length) →
    ∃ tb', readAmounts pol tb am = .ok (tb', takeAll tb am) ∧ (∀ b ∈ tb', RInv b) ∧
      tb'.map RBuf.remaining = (tb.zip am).map (fun p => p.1.remaining.drop p.2)
  | [], am, _, _, _ => ⟨[], by simp [readAmounts, takeAll], by simp, by simp⟩
  | b :: bs, [], _, h, _ => by simp at h
  | b :: bs, a :: as, h1, h2, h3 => by
    obtain ⟨tb', e1, e2, e3⟩ := readAmounts_ok pol hp bs as (fun x hx => h1 x (by simp [hx])) (by simpa using h2)
      (fun p hp => h3 p (by simp [hp]))
    have ha : a ≤ b.remaining.length := h3 (b, a) (by simp)
    unfold readAmounts takeAll
    by_cases h0 : a > 0
    · rw [if_pos h0]
      obtain ⟨b', f1, f2, f3⟩ := read_some pol hp b (h1 b (by simp)) a h0 (by
        intro h; rw [h] at ha; simp at ha; omega)
      simp only [f1, e1]
      refine ⟨b' :: tb', rfl, ?_, by simp [f3, e3]⟩
      intro x hx; simp at hx; rcases hx with rfl | hx
      · exact f2
      · exact e2 x hx
    · have : a = 0 := by omega
      subst this
      rw [if_neg h0]
      simp only [e1]
      refine ⟨b :: tb', by simp, ?_, by simp [e3]⟩
      intro x hx; simp at hx; rcases hx with rfl | hx
      · exact h1 _ (by simp)
      · exact e2 x hx

theorem takeAll_perm (tb : List (RBuf α)) (am : List Nat) (h : am.length = tb.length) :
    (takeAll tb am ++ ((tb.zip am).map (fun p => p.1.remaining.drop p.2)).flatten).Perm
      (tb.map RBuf.remaining).flatten := by
  induction tb generalizing am with
  | nil => simp [takeAll]
  | cons b bs ih =>
    cases am with
    | nil => simp at h
    | cons a as =>
      have := ih as (by simpa using h)
      simp only [takeAll, List.zip_cons_cons, List.map_cons, List.flatten_cons]
      have e : b.remaining = b.remaining.take a ++ b.remaining.drop a := by simp
      conv => rhs; rw [e]
      rw [List.append_assoc, List.append_assoc]
      refine List.Perm.append_left _ ?_
      refine List.Perm.trans ?_ (List.Perm.append_left _ this)
      rw [← List.append_assoc, ← List.append_assoc]
      exact List.Perm.append_right _ List.perm_append_comm

theorem mem_takeAll {tb : List (RBuf α)} {am : List Nat} {x : α} (h : x ∈ takeAll tb am) :
    ∃ p ∈ tb.zip am, x ∈ p.1.remaining.take p.2 := by
  induction tb generalizing am with
  | nil => simp [takeAll] at h
  | cons b bs ih =>
    cases am with
    | nil => simp [takeAll] at h
    | cons a as =>
      simp only [takeAll, List.mem_append] at h
      rcases h with h | h
      · exact ⟨(b, a), by simp, h⟩
      · obtain ⟨p, h1, h2⟩ := ih h
        exact ⟨p, by simp [h1], h2⟩

/-! ### the amounts of one merge step -/

theorem takeWhile_length_map (key : α → Int) (p : Int → Bool) (l : List α) :
    ((l.map key).takeWhile p).length = (l.takeWhile (fun x => p (key x))).length := by
  induction l with
  | nil => rfl
  | cons x xs ih =>
    simp only [List.map_cons, List.takeWhile_cons]
    split <;> simp [ih]

theorem take_tw (p : α → Bool) (l : List α) : l.take (l.takeWhile p).length = l.takeWhile p := by
  induction l with
  | nil => rfl
  | cons x xs ih =>
    simp only [List.takeWhile_cons]
    split <;> simp_all

theorem drop_tw (p : α → Bool) (l : List α) : l.drop (l.takeWhile p).length = l.dropWhile p := by
  induction l with
  | nil => rfl
  | cons x xs ih =>
    simp only [List.takeWhile_cons, List.dropWhile_cons]
    split <;> simp_all

theorem mem_tw {p : α → Bool} {l : List α} {x : α} (h : x ∈ l.takeWhile p) : p x = true := by
  induction l with
  | nil => simp at h
  | cons y ys ih =>
    simp only [List.takeWhile_cons] at h
    split at h
    · rcases List.mem_cons.mp h with rfl | h
      · assumption
      · exact ih h
    · simp at h

theorem nbLowerThan_spec (key : α → Int) (b : RBuf α) (h : RInv b)
    (hs : b.remaining.Pairwise (fun x y => key x ≤ key y)) (m : Int)
    (hm : ∀ t, b.isEmpty = false → (b.map key).currentTail = .ok t → m ≤ t) :
    let a := (b.map key).nbLowerThan (fun x y => x ≤ y) m
    a ≤ b.remaining.length ∧ (∀ x ∈ b.remaining.take a, key x ≤ m) ∧ (∀ y ∈ b.remaining.drop a, m ≤ key y) ∧
    ((b.isEmpty = false ∧ (b.map key).currentTail = .ok m) → 0 < a) := by
  intro a
  have hbl : b.buf.length = b.bufLen := h.len
  generalize hB : b.buf.drop b.bufIx = B
  generalize hF : npSlice b.ds b.dsIx b.nRows = F
  have hrem : b.remaining = B ++ F := by rw [← hB, ← hF]; rfl
  have ha : a = (B.takeWhile (fun x => decide (key x ≤ m))).length := by
    show ((List.drop b.bufIx (b.buf.map key)).takeWhile _).length = _
    rw [← List.map_drop, hB, takeWhile_length_map]
  have hale : a ≤ B.length := by rw [ha]; exact (List.takeWhile_sublist _).length_le
  have htk : (B ++ F).take a = B.takeWhile (fun x => decide (key x ≤ m)) := by
    rw [List.take_append_of_le_length hale, ha, take_tw]
  have hdr : (B ++ F).drop a = B.dropWhile (fun x => decide (key x ≤ m)) ++ F := by
    rw [List.drop_append_of_le_length hale, ha, drop_tw]
  rw [hrem] at hs ⊢
  have hBs : B.Pairwise (fun x y => key x ≤ key y) := (List.pairwise_append.mp hs).1
  refine ⟨by simp; omega, ?_, ?_, ?_⟩
  · rw [htk]
    intro x hx
    have := mem_tw hx
    simpa using this
  · rw [hdr]
    intro y hy
    rw [List.mem_append] at hy
    have hdrop : ∀ y ∈ B.dropWhile (fun x => decide (key x ≤ m)), m ≤ key y := by
      intro y hy
      cases hd : B.dropWhile (fun x => decide (key x ≤ m)) with
      | nil => rw [hd] at hy; simp at hy
      | cons z zs =>
        have hz : ¬ (key z ≤ m) := by
          have := List.head_dropWhile_not (p := fun x => decide (key x ≤ m)) (l := B) (by rw [hd]; simp)
          simp only [hd, List.head_cons] at this
          simpa using this
        have hsub : (z :: zs).Pairwise (fun x y => key x ≤ key y) := by
          rw [← hd]; exact hBs.sublist (List.dropWhile_sublist _)
        rw [hd] at hy
        rcases List.mem_cons.mp hy with rfl | hy
        · omega
        · have := (List.pairwise_cons.mp hsub).1 y hy; omega
    rcases hy with hy | hy
    · exact hdrop y hy
    · -- y is still in the file: larger than the tail of the buffer
      by_cases hbe : B = []
      · -- buffer empty implies dataset empty
        have : b.bufIx = b.bufLen := by
          have h1 := congrArg List.length hB; simp [hbe] at h1; have := h.ix; omega
        have := h.full this
        rw [← hF, this, npSlice_self] at hy
        simp at hy
      · have hlast : (b.map key).currentTail = .ok (key (B.getLast hbe)) := by
          have hbne : b.buf ≠ [] := by intro h0; rw [h0] at hB; simp at hB; exact hbe hB
          have : b.buf.getLast hbne = B.getLast hbe := by
            simp only [← hB]
            rw [List.getLast_drop]
          simp only [RBuf.currentTail, RBuf.map, List.getLast?_map, List.getLast?_eq_some_getLast hbne, this, Option.map_some]
        have hne : b.isEmpty = false := by
          have h1 : ¬ b.isEmpty = true := by rw [h.isEmpty_iff, hrem]; simp [hbe]
          simpa using h1
        have hmt := hm _ hne hlast
        have := (List.pairwise_append.mp hs).2.2 (B.getLast hbe) (List.getLast_mem hbe) y hy
        omega
  · rintro ⟨hne, ht⟩
    have hpos := h.buf_pos hne
    have hbe : B ≠ [] := by
      intro h0; have h1 := congrArg List.length hB; simp [h0] at h1; omega
    have hlast : (b.map key).currentTail = .ok (key (B.getLast hbe)) := by
      have hbne : b.buf ≠ [] := by intro h0; rw [h0] at hB; simp at hB; exact hbe hB
      have : b.buf.getLast hbne = B.getLast hbe := by
        simp only [← hB]
        rw [List.getLast_drop]
      simp only [RBuf.currentTail, RBuf.map, List.getLast?_map, List.getLast?_eq_some_getLast hbne, this, Option.map_some]
    rw [hlast] at ht
    injection ht with ht
    rw [ha]
    cases hBc : B with
    | nil => exact absurd hBc hbe
    | cons z zs =>
      have hz : key z ≤ m := by
        rw [← ht]
        have hg : B.getLast hbe ∈ z :: zs := by rw [← hBc]; exact List.getLast_mem hbe
        rw [hBc] at hBs
        rcases List.mem_cons.mp hg with h | h
        · rw [h]; omega
        · exact (List.pairwise_cons.mp hBs).1 _ h
      simp [hz]

/-! ### one merge step -/

theorem foldl_min_le (l : List Int) : ∀ (x : Int), l.foldl min x ≤ x ∧ (∀ y ∈ l, l.foldl min x ≤ y) ∧
    (l.foldl min x = x ∨ l.foldl min x ∈ l) := by
  induction l with
  | nil => intro x; simp
  | cons z zs ih =>
    intro x
    simp only [List.foldl_cons]
    obtain ⟨h1, h2, h3⟩ := ih (min x z)
    refine ⟨by omega, ?_, ?_⟩
    · intro y hy
      rcases List.mem_cons.mp hy with rfl | hy
      · omega
      · exact h2 y hy
    · rcases h3 with h3 | h3
      · rcases Int.le_total x z with h | h
        · left; rw [h3]; omega
        · right; rw [h3]; simp; left; omega
      · right; simp [h3]

theorem minOf_spec (l : List Int) (h : l ≠ []) : ∃ m, minOf l = .ok m ∧ m ∈ l ∧ ∀ y ∈ l, m ≤ y := by
  cases l with
  | nil => exact absurd rfl h
  | cons x xs =>
    obtain ⟨h1, h2, h3⟩ := foldl_min_le xs x
    refine ⟨_, rfl, ?_, ?_⟩
    · rcases h3 with h3 | h3
      · rw [h3]; simp
      · simp [h3]
    · intro y hy
      rcases List.mem_cons.mp hy with rfl | hy
      · exact h1
      · exact h2 y hy

theorem currentTail_ok (b : RBuf α) (h : RInv b) : ∃ t, b.currentTail = .ok t := by
  unfold RBuf.currentTail
  have hne : b.buf ≠ [] := by
    intro h0; have h1 := h.len; have := h.pos; rw [h0] at h1; simp at h1; omega
  rw [List.getLast?_eq_some_getLast hne]
  exact ⟨_, rfl⟩

/-- the tails considered in a step -/
theorem tails_spec (key : α → Int) (tb : List (RBuf α)) (h : ∀ b ∈ tb, RInv b) :
    ∃ tails, sequence (((tb.map (RBuf.map key)).filter (fun b => !b.isEmpty)).map RBuf.currentTail) = .ok tails ∧
      (∀ b ∈ tb, b.isEmpty = false → ∃ t ∈ tails, (b.map key).currentTail = .ok t) ∧
      (∀ t ∈ tails, ∃ b ∈ tb, b.isEmpty = false ∧ (b.map key).currentTail = .ok t) := by
  induction tb with
  | nil => exact ⟨[], rfl, by simp, by simp⟩
  | cons b bs ih =>
    obtain ⟨ts, e1, e2, e3⟩ := ih (fun x hx => h x (by simp [hx]))
    simp only [List.map_cons, List.filter_cons]
    cases hb : b.isEmpty with
    | true =>
      have hb' : (b.map key).isEmpty = true := hb
      simp only [hb', Bool.not_true, Bool.false_eq_true, if_false]
      refine ⟨ts, e1, ?_, ?_⟩
      · intro x hx hxe
        rcases List.mem_cons.mp hx with rfl | hx
        · rw [hb] at hxe; cases hxe
        · exact e2 x hx hxe
      · intro t ht
        obtain ⟨x, hx, h1⟩ := e3 t ht
        exact ⟨x, by simp [hx], h1⟩
    | false =>
      have hR := h b (by simp)
      obtain ⟨t, ht⟩ := currentTail_ok b hR
      have ht' : (b.map key).currentTail = .ok (key t) := by
        unfold RBuf.currentTail at ht ⊢
        simp only [RBuf.map, List.getLast?_map]
        cases hg : b.buf.getLast? with
        | none => rw [hg] at ht; cases ht
        | some x => rw [hg] at ht; injection ht with ht; subst ht; rfl
      have hb' : (b.map key).isEmpty = false := hb
      simp only [hb', Bool.not_false, if_true, List.map_cons, ht', sequence, e1]
      refine ⟨key t :: ts, rfl, ?_, ?_⟩
      · intro x hx hxe
        rcases List.mem_cons.mp hx with rfl | hx
        · exact ⟨key t, by simp, ht'⟩
        · obtain ⟨t', h1, h2⟩ := e2 x hx hxe
          exact ⟨t', by simp [h1], h2⟩
      · intro t' ht''
        rcases List.mem_cons.mp ht'' with rfl | h1
        · exact ⟨b, by simp, hb, ht'⟩
        · obtain ⟨x, hx, h2⟩ := e3 t' h1
          exact ⟨x, by simp [hx], h2⟩

/-- companion writers: each has logged the image of `L` -/
def COut (zero : γ) (L : List α) : List (α → γ) → List (List γ) → List (Buf γ) → Prop
  | [], [], [] => True
  | f :: fs, d :: ds, o :: os => (NP2H5.Inv zero d o (L.map f) ∧ o.fixed = true) ∧ COut zero L fs ds os
  | _, _, _ => False

theorem perComp_ok (zero : γ) (order : List Nat) (rd : List (RBuf γ) → Except Err (List (RBuf γ) × List γ))
    (L : List α) (tb tb' : List (RBuf α)) (data r : List α) (n : Nat)
    (hrd : ∀ f : α → γ, rd (tb.map (RBuf.map f)) = .ok (tb'.map (RBuf.map f), data.map f))
    (hg : gather data order = .ok r) (hn : L.length + r.length ≤ n) :
    ∀ (fs : List (α → γ)) (ds : List (List γ)) (os : List (Buf γ)), COut zero L fs ds os →
      (∀ d ∈ ds, d.length = n) →
      ∃ os', perComp zero order rd (fs.map (fun f => tb.map (RBuf.map f))) os =
          .ok (fs.map (fun f => tb'.map (RBuf.map f)), os') ∧ COut zero (L ++ r) fs ds os'
  | [], [], [], _, _ => ⟨[], by simp [perComp], trivial⟩
  | f :: fs, d :: ds, o :: os, h, hd => by
    obtain ⟨⟨h1, h2⟩, h3⟩ := h
    obtain ⟨os', e1, e2⟩ := perComp_ok zero order rd L tb tb' data r n hrd hg hn fs ds os h3
      (fun x hx => hd x (by simp [hx]))
    obtain ⟨o', f1, f2, f3⟩ := NP2H5.write_inv zero d o (L.map f) (r.map f) h1 (by
      intro _; rw [hd d (by simp)]; simpa using hn)
    refine ⟨o' :: os', ?_, ⟨⟨by simpa using f3, by rw [f2, h2]⟩, e2⟩⟩
    simp only [List.map_cons, perComp, hrd f, gather_map, hg, Except.map, f1, e1]

structure MInv (key : α → Int) (zero : γ) (fs : List (α → γ)) (d0k : List Int) (d0c : List (List γ))
    (all : List α) (tb : List (RBuf α)) (L : List α) (s : MState γ) : Prop where
  kin : s.kin = tb.map (RBuf.map key)
  cin : s.cin = fs.map (fun f => tb.map (RBuf.map f))
  rinv : ∀ b ∈ tb, RInv b
  rsorted : ∀ b ∈ tb, b.remaining.Pairwise (fun x y => key x ≤ key y)
  kout : NP2H5.Inv 0 d0k s.kout (L.map key) ∧ s.kout.fixed = true
  cout : COut zero L fs d0c s.cout
  d0 : d0k.length = all.length ∧ ∀ d ∈ d0c, d.length = all.length
  sorted : L.Pairwise (fun x y => key x ≤ key y)
  le : ∀ x ∈ L, ∀ b ∈ tb, ∀ y ∈ b.remaining, key x ≤ key y
  perm : (L ++ (tb.map RBuf.remaining).flatten).Perm all

theorem MInv.step {key : α → Int} {zero : γ} {fs d0k d0c all tb L s} {argsort : List Int → List Nat}
    (hs : ArgsortLaw argsort)
    (pol : Policy) (hp : ∀ L, 0 < L → pol L L = true)
    (h : MInv key zero fs d0k d0c all tb L s) (hne : s.kin.all (fun b => b.dsIx == b.nRows) = false) :
    ∃ s' tb' L', mergeStep argsort zero pol s = .ok s' ∧ MInv key zero fs d0k d0c all tb' L' s' ∧
      L.length < L'.length := by
  obtain ⟨tails, t1, t2, t3⟩ := tails_spec key tb h.rinv
  have htne : tails ≠ [] := by
    rw [h.kin] at hne
    simp only [List.all_eq_false, List.mem_map] at hne
    obtain ⟨_, ⟨b, hb, rfl⟩, hbe⟩ := hne
    have : b.isEmpty = false := by
      have : ¬ b.dsIx = b.nRows := by simpa [RBuf.map] using hbe
      simp [RBuf.isEmpty, this]
    obtain ⟨t, ht, _⟩ := t2 b hb this
    intro h0; rw [h0] at ht; simp at ht
  obtain ⟨m, m1, m2, m3⟩ := minOf_spec tails htne
  generalize ham : s.kin.map (fun b => b.nbLowerThan (fun x y => decide (x ≤ y)) m) = am
  have ham' : am = tb.map (fun b => (b.map key).nbLowerThan (fun x y => decide (x ≤ y)) m) := by
    rw [← ham, h.kin, List.map_map]; rfl
  have spec : ∀ p ∈ tb.zip am, p.2 ≤ p.1.remaining.length ∧ (∀ x ∈ p.1.remaining.take p.2, key x ≤ m) ∧
      (∀ y ∈ p.1.remaining.drop p.2, m ≤ key y) ∧
      ((p.1.isEmpty = false ∧ (p.1.map key).currentTail = .ok m) → 0 < p.2) ∧ p.1 ∈ tb := by
    intro p hpz
    rw [ham', ← List.map_id tb, List.map_map, List.zip_map', List.mem_map] at hpz
    obtain ⟨b, hb, rfl⟩ := hpz
    have := nbLowerThan_spec key b (h.rinv b hb) (h.rsorted b hb) m (by
      intro t hte htt
      obtain ⟨t', h1, h2⟩ := t2 b hb hte
      rw [htt] at h2; injection h2 with h2; subst h2
      exact m3 _ h1)
    exact ⟨this.1, this.2.1, this.2.2.1, this.2.2.2, hb⟩
  have hlen : am.length = tb.length := by rw [ham']; simp
  obtain ⟨tb', r1, r2, r3⟩ := readAmounts_ok pol hp tb am h.rinv hlen (fun p hp => (spec p hp).1)
  obtain ⟨r, g1, g2, g3⟩ := argsort_tagged hs key (takeAll tb am)
  -- some amount is positive
  obtain ⟨b0, hb0, hb0e, hb0t⟩ := t3 m m2
  have hpos : ∃ p ∈ tb.zip am, 0 < p.2 := by
    refine ⟨(b0, (b0.map key).nbLowerThan (fun x y => decide (x ≤ y)) m), ?_, ?_⟩
    · rw [ham', ← List.map_id tb, List.map_map, List.zip_map', List.mem_map]
      exact ⟨b0, hb0, rfl⟩
    · have hm : (b0, (b0.map key).nbLowerThan (fun x y => decide (x ≤ y)) m) ∈ tb.zip am := by
        rw [ham', ← List.map_id tb, List.map_map, List.zip_map', List.mem_map]
        exact ⟨b0, hb0, rfl⟩
      exact (spec _ hm).2.2.2.1 ⟨hb0e, hb0t⟩
  have hnall : ¬ am.all (· == 0) = true := by
    obtain ⟨p, hp1, hp2⟩ := hpos
    intro hall
    have := List.all_eq_true.mp hall p.2 (List.of_mem_zip hp1).2
    simp at this; omega
  have htlen : 0 < (takeAll tb am).length := by
    obtain ⟨p, hp1, hp2⟩ := hpos
    have hle := (spec p hp1).1
    have hmem : ∃ x, x ∈ takeAll tb am := by
      have : ∀ (tb : List (RBuf α)) (am : List Nat), p ∈ tb.zip am → ∃ x, x ∈ takeAll tb am := by
        intro tb
        induction tb with
        | nil => intro am h; simp at h
        | cons b bs ih =>
          intro am h
          cases am with
          | nil => simp at h
          | cons a as =>
            simp only [List.zip_cons_cons] at h
            simp only [takeAll]
            rcases List.mem_cons.mp h with rfl | h
            · cases hr : b.remaining with
              | nil => rw [hr] at hle; simp at hle; simp at hp2; omega
              | cons x xs => 
                simp at hp2
                refine ⟨x, ?_⟩
                cases a with
                | zero => omega
                | succ a => simp
            · obtain ⟨x, hx⟩ := ih as h
              exact ⟨x, by simp [hx]⟩
      exact this tb am hp1
    obtain ⟨x, hx⟩ := hmem
    exact List.length_pos_of_mem hx
  have hsplit := takeAll_perm tb am hlen
  have htotal := h.perm.length_eq
  have hsl := hsplit.length_eq
  have hrl := g2.length_eq
  simp only [List.length_append] at htotal hsl
  have hroom : L.length + r.length ≤ all.length := by omega
  obtain ⟨ko, w1, w2, w3⟩ := NP2H5.write_inv 0 d0k s.kout (L.map key) (r.map key) h.kout.1 (by
    intro _; rw [h.d0.1]; simpa using hroom)
  obtain ⟨os', p1, p2⟩ := perComp_ok zero (argsort ((takeAll tb am).map key)) (fun r => readAmounts pol r am) L tb tb'
    (takeAll tb am) r all.length (fun f => by
      rw [readAmounts_map, r1]; rfl) g1 hroom fs d0c s.cout h.cout h.d0.2
  refine ⟨{ kin := tb'.map (RBuf.map key), cin := fs.map (fun f => tb'.map (RBuf.map f)), kout := ko, cout := os' }, tb', L ++ r, ?_, ?_, ?_⟩
  · unfold mergeStep
    rw [h.kin, t1]
    simp only [m1]
    have hamk : (tb.map (RBuf.map key)).map (fun b => b.nbLowerThan (fun x y => decide (x ≤ y)) m) = am := by
      rw [← ham, h.kin]
    rw [hamk, readAmounts_map, r1]
    simp only [Except.map, Prod.map]
    rw [if_neg hnall, gather_map, g1]
    simp only [Except.map, w1, h.cin, p1]
  · refine ⟨rfl, rfl, r2, ?_, ⟨by simpa using w3, by rw [w2, h.kout.2]⟩, p2, h.d0, ?_, ?_, ?_⟩
    · intro b hb
      have : b.remaining ∈ tb'.map RBuf.remaining := List.mem_map_of_mem hb
      rw [r3, List.mem_map] at this
      obtain ⟨p, hp1, hp2⟩ := this
      rw [← hp2]
      exact (h.rsorted p.1 (spec p hp1).2.2.2.2).sublist (List.drop_sublist _ _)
    · rw [List.pairwise_append]
      refine ⟨h.sorted, g3, ?_⟩
      intro x hx y hy
      obtain ⟨p, hp1, hp2⟩ := mem_takeAll (g2.mem_iff.mp hy)
      exact h.le x hx p.1 (spec p hp1).2.2.2.2 y (List.mem_of_mem_take hp2)
    · intro x hx b hb y hy
      have : b.remaining ∈ tb'.map RBuf.remaining := List.mem_map_of_mem hb
      rw [r3, List.mem_map] at this
      obtain ⟨p, hp1, hp2⟩ := this
      rw [← hp2] at hy
      rcases List.mem_append.mp hx with hx | hx
      · exact h.le x hx p.1 (spec p hp1).2.2.2.2 y (List.mem_of_mem_drop hy)
      · obtain ⟨q, hq1, hq2⟩ := mem_takeAll (g2.mem_iff.mp hx)
        have h1 := (spec q hq1).2.1 x hq2
        have h2 := (spec p hp1).2.2.1 y hy
        omega
    · rw [r3]
      refine List.Perm.trans ?_ h.perm
      rw [List.append_assoc]
      refine List.Perm.append_left _ ?_
      exact (List.Perm.append_right _ g2).trans hsplit
  · simp; omega

theorem MInv.loop {key : α → Int} {zero : γ} {fs d0k d0c all} {argsort : List Int → List Nat}
    (hs : ArgsortLaw argsort) (pol : Policy) (hp : ∀ L, 0 < L → pol L L = true) (fuel : Nat) :
    ∀ {tb L s}, MInv key zero fs d0k d0c all tb L s → all.length < fuel + L.length →
    ∃ s' tb' L', mergeLoop argsort zero pol fuel s = .ok s' ∧ MInv key zero fs d0k d0c all tb' L' s' ∧
      s'.kin.all (fun b => b.dsIx == b.nRows) = true := by
  induction fuel with
  | zero =>
    intro tb L s h hf
    have := h.perm.length_eq
    simp at this; omega
  | succ n ih =>
    intro tb L s h hf
    unfold mergeLoop
    cases hc : s.kin.all (fun b => b.dsIx == b.nRows) with
    | true => exact ⟨s, tb, L, by simp, h, hc⟩
    | false =>
      obtain ⟨s', tb', L', e1, e2, e3⟩ := h.step hs pol hp hc
      obtain ⟨s'', tb'', L'', f1, f2, f3⟩ := ih e2 (by omega)
      exact ⟨s'', tb'', L'', by simp [e1, f1], f2, f3⟩

/-! ### the end of the merge -/

theorem readRest_ok (pol : Policy) (hp : ∀ L, 0 < L → pol L L = true) : ∀ (tb : List (RBuf α)),
    (∀ b ∈ tb, RInv b) → (∀ b ∈ tb, b.dsIx = b.nRows) →
    ∃ tb', readRest pol tb = .ok (tb', (tb.map RBuf.remaining).flatten)
  | [], _, _ => ⟨[], by simp [readRest]⟩
  | b :: bs, h1, h2 => by
    obtain ⟨tb', e⟩ := readRest_ok pol hp bs (fun x hx => h1 x (by simp [hx])) (fun x hx => h2 x (by simp [hx]))
    have hR := h1 b (by simp)
    have hd := h2 b (by simp)
    have hl := remaining_length hR.toWInv
    unfold readRest
    by_cases hc : b.bufIx = b.bufLen
    · rw [if_pos hc]
      have : b.remaining = [] := by apply List.eq_nil_of_length_eq_zero; omega
      simp only [e]
      exact ⟨b :: tb', by simp [this]⟩
    · rw [if_neg hc]
      have hix := hR.ix
      obtain ⟨b', f1, _⟩ := read_none pol hp b hR (by intro h0; rw [h0] at hl; simp at hl; omega)
      simp only [f1, e]
      refine ⟨b' :: tb', ?_⟩
      simp only [List.map_cons, List.flatten_cons]
      rw [List.take_of_length_le (by omega)]

theorem MInv.finish {key : α → Int} {zero : γ} {fs d0k d0c all tb L s} {argsort : List Int → List Nat}
    (hs : ArgsortLaw argsort) (pol : Policy) (hp : ∀ L, 0 < L → pol L L = true)
    (h : MInv key zero fs d0k d0c all tb L s) (hd : s.kin.all (fun b => b.dsIx == b.nRows) = true) :
    ∃ s' F, mergeEnd argsort zero pol s = .ok s' ∧ F.Perm all ∧ F.Pairwise (fun x y => key x ≤ key y) ∧
      (NP2H5.Inv 0 d0k s'.kout (F.map key) ∧ s'.kout.fixed = true) ∧ COut zero F fs d0c s'.cout := by
  have hds : ∀ b ∈ tb, b.dsIx = b.nRows := by
    intro b hb
    rw [h.kin] at hd
    have := List.all_eq_true.mp hd (b.map key) (List.mem_map_of_mem hb)
    simpa [RBuf.map] using this
  obtain ⟨tb', e⟩ := readRest_ok pol hp tb h.rinv hds
  generalize hD : (tb.map RBuf.remaining).flatten = D at e
  have hperm := h.perm
  rw [hD] at hperm
  unfold mergeEnd
  rw [h.kin, readRest_map, e]
  simp only [Except.map, Prod.map]
  by_cases hall : (tb.map (RBuf.map key)).all (fun b => b.bufIx == b.bufLen) = true
  · rw [if_pos hall]
    have hDe : D = [] := by
      rw [← hD, List.flatten_eq_nil_iff]
      intro l hl
      obtain ⟨b, hb, rfl⟩ := List.mem_map.mp hl
      have h1 := List.all_eq_true.mp hall (b.map key) (List.mem_map_of_mem hb)
      have h2 : b.bufIx = b.bufLen := by simpa [RBuf.map] using h1
      have h3 := remaining_length (h.rinv b hb).toWInv
      have h4 := hds b hb
      apply List.eq_nil_of_length_eq_zero; omega
    rw [hDe, List.append_nil] at hperm
    exact ⟨s, L, rfl, hperm, h.sorted, h.kout, h.cout⟩
  · rw [if_neg hall]
    obtain ⟨r, g1, g2, g3⟩ := argsort_tagged hs key D
    have htotal := hperm.length_eq
    have hrl := g2.length_eq
    simp only [List.length_append] at htotal
    have hroom : L.length + r.length ≤ all.length := by omega
    obtain ⟨ko, w1, w2, w3⟩ := NP2H5.write_inv 0 d0k s.kout (L.map key) (r.map key) h.kout.1 (by
      intro _; rw [h.d0.1]; simpa using hroom)
    obtain ⟨os', p1, p2⟩ := perComp_ok zero (argsort (D.map key)) (readRest pol) L tb tb'
      D r all.length (fun f => by rw [readRest_map, e]; rfl) g1 hroom fs d0c s.cout h.cout h.d0.2
    rw [gather_map, g1]
    simp only [Except.map, w1, h.cin, p1]
    refine ⟨_, L ++ r, rfl, ?_, ?_, ⟨by simpa using w3, by rw [w2, h.kout.2]⟩, p2⟩
    · exact (List.Perm.append_left _ g2).trans hperm
    · rw [List.pairwise_append]
      refine ⟨h.sorted, g3, ?_⟩
      intro x hx y hy
      have : y ∈ D := g2.mem_iff.mp hy
      rw [← hD, List.mem_flatten] at this
      obtain ⟨l, hl, hyl⟩ := this
      obtain ⟨b, hb, rfl⟩ := List.mem_map.mp hl
      exact h.le x hx b hb y hyl

end ExtSort
end ABX
