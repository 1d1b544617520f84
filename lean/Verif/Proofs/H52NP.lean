import Verif.Model.H52NP
import Verif.Proofs.Base
namespace ABX.H52NP

/-- rows not yet delivered -/
def RBuf.remaining (b : RBuf α) : List α := b.buf.drop b.bufIx ++ npSlice b.ds b.dsIx b.nRows

structure WInv (b : RBuf α) : Prop where
  pos : 0 < b.bufLen
  len : b.buf.length = b.bufLen
  ix : b.bufIx ≤ b.bufLen
  dix : b.dsIx ≤ b.nRows
  rows : b.nRows ≤ b.ds.length

structure RInv (b : RBuf α) : Prop extends WInv b where
  full : b.bufIx = b.bufLen → b.dsIx = b.nRows

theorem npSlice_length (a : List α) (lo hi : Nat) : (npSlice a lo hi).length = min hi a.length - lo := by
  simp [npSlice]

theorem npSlice_append (a : List α) (i j k : Nat) (h1 : i ≤ j) (h2 : j ≤ k) :
    npSlice a i j ++ npSlice a j k = npSlice a i k := by
  unfold npSlice
  have : a.take j = (a.take k).take j := by rw [List.take_take]; congr 1; omega
  rw [this]
  generalize a.take k = l
  have h : l.drop i = ((l.take j) ++ l.drop j).drop i := by rw [List.take_append_drop]
  rw [h, List.drop_append]
  by_cases hj : j ≤ l.length
  · have : i - (l.take j).length = 0 := by simp; omega
    rw [this]; simp
  · have : l.drop j = [] := by simp; omega
    simp [this]

theorem npSlice_self (a : List α) (i : Nat) : npSlice a i i = [] := by
  simp [npSlice]

theorem refill_inv (pol : Policy) (hp : ∀ L, 0 < L → pol L L = true) (b : RBuf α) (h : WInv b) :
    ∃ b', b.refill pol = .ok b' ∧ RInv b' ∧ b'.remaining = b.remaining ∧ b'.bufLen = b.bufLen ∧
      b'.nRows = b.nRows ∧ b'.ds = b.ds := by
  unfold RBuf.refill
  by_cases h1 : b.dsIx = b.nRows
  · rw [if_pos h1]; exact ⟨b, rfl, ⟨h, fun _ => h1⟩, rfl, rfl, rfl, rfl⟩
  rw [if_neg h1, if_neg (by have := h.pos; omega)]
  by_cases h2 : pol b.bufIx b.bufLen = true
  · rw [if_pos h2]
    have hl := h.len; have hix := h.ix; have hd := h.dix; have hr := h.rows; have hpos := h.pos
    have hdl : (b.buf.drop b.bufIx).length = b.bufLen - b.bufIx := by simp; omega
    dsimp only
    have a1 := npAssign_ok b.buf (b.buf.drop b.bufIx) (b.dsIx + b.bufIx - b.nRows)
      (b.dsIx + b.bufIx - b.nRows + (b.bufLen - b.bufIx)) (by omega) (by omega) (by omega)
    simp only [a1]
    have hsl : (npSlice b.ds b.dsIx (min (b.dsIx + b.bufIx) b.nRows)).length =
        min (b.dsIx + b.bufIx) b.nRows - b.dsIx := by rw [npSlice_length]; congr 1; omega
    have a2 := npAssign_ok (b.buf.take (b.dsIx + b.bufIx - b.nRows) ++ b.buf.drop b.bufIx ++
        b.buf.drop (b.dsIx + b.bufIx - b.nRows + (b.bufLen - b.bufIx)))
      (npSlice b.ds b.dsIx (min (b.dsIx + b.bufIx) b.nRows))
      (b.dsIx + b.bufIx - b.nRows + (b.bufLen - b.bufIx)) b.bufLen (by omega) (by simp; omega) (by omega)
    simp only [a2]
    refine ⟨_, rfl, ⟨⟨hpos, ?_, ?_, ?_, hr⟩, ?_⟩, ?_, rfl, rfl, rfl⟩
    · simp [hsl]; omega
    · dsimp only; omega
    · dsimp only; omega
    · dsimp only; omega
    · unfold RBuf.remaining
      dsimp only
      have e1 : (b.buf.take (b.dsIx + b.bufIx - b.nRows) ++ b.buf.drop b.bufIx ++
        b.buf.drop (b.dsIx + b.bufIx - b.nRows + (b.bufLen - b.bufIx))).take
          (b.dsIx + b.bufIx - b.nRows + (b.bufLen - b.bufIx)) =
          b.buf.take (b.dsIx + b.bufIx - b.nRows) ++ b.buf.drop b.bufIx := by
        rw [List.take_append_of_le_length (by simp; omega), List.take_of_length_le (by simp; omega)]
      have e2 : (b.buf.take (b.dsIx + b.bufIx - b.nRows) ++ b.buf.drop b.bufIx ++
        b.buf.drop (b.dsIx + b.bufIx - b.nRows + (b.bufLen - b.bufIx))).drop b.bufLen = [] := by
        apply List.drop_eq_nil_of_le; simp; omega
      rw [e1, e2, List.append_nil, List.append_assoc, List.drop_append]
      have e3 : (b.buf.take (b.dsIx + b.bufIx - b.nRows)).drop (b.dsIx + b.bufIx - b.nRows) = [] := by
        simp
      have e4 : b.dsIx + b.bufIx - b.nRows - (b.buf.take (b.dsIx + b.bufIx - b.nRows)).length = 0 := by
        simp; omega
      rw [e3, e4]
      simp only [List.drop_zero, List.nil_append, List.append_assoc]
      rw [npSlice_append _ _ _ _ (by omega) (by omega)]
  · rw [if_neg h2]
    refine ⟨b, rfl, ⟨h, ?_⟩, rfl, rfl, rfl, rfl⟩
    intro h3
    rw [h3, hp _ h.pos] at h2
    exact absurd rfl h2

theorem RInv.isEmpty_iff {b : RBuf α} (h : RInv b) : b.isEmpty = true ↔ b.remaining = [] := by
  have h1 := h.len; have h2 := h.ix; have h3 := h.dix; have h4 := h.rows
  unfold RBuf.isEmpty RBuf.remaining
  rw [← List.length_eq_zero_iff, List.length_append, npSlice_length]
  simp
  constructor
  · rintro ⟨a, c⟩; omega
  · intro a; omega

theorem RInv.buf_pos {b : RBuf α} (h : RInv b) (he : b.isEmpty = false) : b.bufIx < b.bufLen := by
  have h2 := h.ix
  rcases Nat.lt_or_ge b.bufIx b.bufLen with hlt | hge
  · exact hlt
  · have := h.full (by omega)
    simp [RBuf.isEmpty] at he
    omega

theorem remaining_length {b : RBuf α} (h : WInv b) :
    b.remaining.length = (b.bufLen - b.bufIx) + (b.nRows - b.dsIx) := by
  have h1 := h.len; have h2 := h.ix; have h3 := h.dix; have h4 := h.rows
  unfold RBuf.remaining
  rw [List.length_append, npSlice_length]; simp; omega

theorem readLoop_ok (pol : Policy) (hp : ∀ L, 0 < L → pol L L = true) (fuel : Nat) :
    ∀ (b : RBuf α) (amount found : Nat) (acc : List α), RInv b → found ≤ amount →
    b.remaining.length < fuel →
    ∃ b', b.readLoop pol fuel amount found acc = .ok (b', acc ++ b.remaining.take (amount - found)) ∧
      RInv b' ∧ b'.remaining = b.remaining.drop (amount - found) ∧ b'.bufLen = b.bufLen ∧
      b'.nRows = b.nRows ∧ b'.ds = b.ds := by
  induction fuel with
  | zero => intro b amount found acc _ _ h; omega
  | succ n ih =>
    intro b amount found acc h hfa hfuel
    unfold RBuf.readLoop
    by_cases hc : found < amount ∧ b.isEmpty = false
    · rw [if_pos hc]
      dsimp only
      have hb := h.buf_pos hc.2
      have hlen := h.len
      generalize hnext : (if b.bufLen - b.bufIx > amount - found then b.bufIx + (amount - found) else b.bufLen) = next
      generalize hfound : (if b.bufLen - b.bufIx > amount - found then amount else found + (b.bufLen - b.bufIx)) = found'
      have hn : b.bufIx < next ∧ next ≤ b.bufLen ∧ found' - found = next - b.bufIx ∧ found < found' ∧ found' ≤ amount := by
        split at hnext <;> split at hfound <;> omega
      obtain ⟨hn1, hn2, hn3, hn4, hn5⟩ := hn
      have hw : WInv ({ b with bufIx := next } : RBuf α) := ⟨h.pos, h.len, hn2, h.dix, h.rows⟩
      obtain ⟨b1, e1, e2, e3, e4, e5, e6⟩ := refill_inv pol hp _ hw
      simp only [e1]
      dsimp only at e4 e5 e6
      have hrem : b.remaining = npSlice b.buf b.bufIx next ++ b1.remaining := by
        rw [e3]
        unfold RBuf.remaining
        dsimp only
        rw [← List.append_assoc]
        congr 1
        unfold npSlice
        have : b.buf.drop b.bufIx = ((b.buf.take next) ++ b.buf.drop next).drop b.bufIx := by
          rw [List.take_append_drop]
        rw [this, List.drop_append]
        have : b.bufIx - (b.buf.take next).length = 0 := by simp; omega
        rw [this]; simp
      have hsl : (npSlice b.buf b.bufIx next).length = found' - found := by
        rw [npSlice_length]; omega
      have hll : b.remaining.length = (npSlice b.buf b.bufIx next).length + b1.remaining.length := by
        rw [hrem, List.length_append]
      obtain ⟨b2, f1, f2, f3, f4, f5, f6⟩ := ih b1 amount found' (acc ++ npSlice b.buf b.bufIx next) e2 hn5 (by omega)
      refine ⟨b2, ?_, f2, ?_, by omega, by omega, by rw [f6, e6]⟩
      · have hk : amount - found = (npSlice b.buf b.bufIx next).length + (amount - found') := by omega
        rw [f1, hrem, hk, List.take_length_add_append, List.append_assoc]
      · have hk : amount - found = (npSlice b.buf b.bufIx next).length + (amount - found') := by omega
        rw [f3, hrem, hk, List.drop_length_add_append]
    · rw [if_neg hc]
      refine ⟨b, ?_, h, ?_, rfl, rfl, rfl⟩
      · by_cases h1 : found < amount
        · have : b.isEmpty = true := by
            cases hbe : b.isEmpty
            · exact absurd ⟨h1, hbe⟩ hc
            · rfl
          rw [h.isEmpty_iff] at this
          simp [this]
        · have : amount - found = 0 := by omega
          simp [this]
      · by_cases h1 : found < amount
        · have : b.isEmpty = true := by
            cases hbe : b.isEmpty
            · exact absurd ⟨h1, hbe⟩ hc
            · rfl
          rw [h.isEmpty_iff] at this
          simp [this]
        · have : amount - found = 0 := by omega
          simp [this]

theorem fuel_ok {b : RBuf α} (h : WInv b) : b.remaining.length < b.bufLen + b.nRows + 1 := by
  rw [remaining_length h]; omega

theorem read_some (pol : Policy) (hp : ∀ L, 0 < L → pol L L = true) (b : RBuf α) (h : RInv b) (a : Nat)
    (ha : 0 < a) (hne : b.remaining ≠ []) :
    ∃ b', b.read pol (some a) = .ok (b', b.remaining.take a) ∧ RInv b' ∧ b'.remaining = b.remaining.drop a := by
  have he : ¬ b.isEmpty = true := by rw [h.isEmpty_iff]; exact hne
  obtain ⟨b', e1, e2, e3, _⟩ := readLoop_ok pol hp (b.bufLen + b.nRows + 1) b a 0 [] h (by omega) (fuel_ok h.toWInv)
  refine ⟨b', ?_, e2, by simpa using e3⟩
  unfold RBuf.read
  dsimp only
  rw [if_neg (by omega), if_neg he]
  simpa using e1

theorem read_none (pol : Policy) (hp : ∀ L, 0 < L → pol L L = true) (b : RBuf α) (h : RInv b)
    (hne : b.remaining ≠ []) :
    ∃ b', b.read pol none = .ok (b', b.remaining.take (b.bufLen - b.bufIx)) ∧ RInv b' ∧
      b'.remaining = b.remaining.drop (b.bufLen - b.bufIx) ∧ 0 < b.bufLen - b.bufIx := by
  have he : ¬ b.isEmpty = true := by rw [h.isEmpty_iff]; exact hne
  have hpos := h.buf_pos (by simpa using he)
  obtain ⟨b', e1, e2, e3, _⟩ := readLoop_ok pol hp (b.bufLen + b.nRows + 1) b (b.bufLen - b.bufIx) 0 [] h (by omega) (fuel_ok h.toWInv)
  refine ⟨b', ?_, e2, by simpa using e3, by omega⟩
  unfold RBuf.read
  dsimp only
  rw [if_neg he, if_neg (by omega)]
  simpa using e1

theorem create_inv (zero : α) (pol : Policy) (hp : ∀ L, 0 < L → pol L L = true) (ds : List α)
    (start stop bufLen : Nat) (h1 : start ≤ stop) (h2 : stop ≤ ds.length) (hb : 0 < bufLen) :
    ∃ b, RBuf.create zero pol ds start stop bufLen = .ok b ∧ RInv b ∧ b.remaining = npSlice ds start stop := by
  unfold RBuf.create
  obtain ⟨b, e1, e2, e3, _⟩ := refill_inv pol hp
    { ds, dsIx := start, nRows := stop, bufLen, buf := List.replicate bufLen zero, bufIx := bufLen }
    ⟨hb, by simp, by simp, h1, h2⟩
  exact ⟨b, e1, e2, by rw [e3]; simp [RBuf.remaining]⟩

theorem iterate_ok (pol : Policy) (hp : ∀ L, 0 < L → pol L L = true) (fuel : Nat) : ∀ (b : RBuf α), RInv b →
    b.remaining.length < fuel → ∃ cs, b.iterate pol fuel = .ok cs ∧ cs.flatten = b.remaining ∧ ∀ c ∈ cs, c ≠ [] := by
  induction fuel with
  | zero => intro b _ h; omega
  | succ n ih =>
    intro b h hf
    unfold RBuf.iterate
    by_cases hne : b.remaining = []
    · have : b.read pol none = .error .stopIteration := by
        unfold RBuf.read; dsimp only; rw [if_pos (h.isEmpty_iff.mpr hne)]
      simp only [this]
      exact ⟨[], rfl, by simp [hne], by simp⟩
    · obtain ⟨b', e1, e2, e3, e4⟩ := read_none pol hp b h hne
      have hl : 0 < b.remaining.length := List.length_pos_iff.mpr hne
      obtain ⟨cs, f1, f2, f3⟩ := ih b' e2 (by rw [e3, List.length_drop]; omega)
      simp only [e1, f1]
      refine ⟨_, rfl, by simp [f2, e3], ?_⟩
      intro c hc
      simp at hc
      rcases hc with rfl | hc
      · intro h0
        have := congrArg List.length h0
        simp at this
        rcases this with h | h
        · omega
        · exact hne h
      · exact f3 c hc

end ABX.H52NP
