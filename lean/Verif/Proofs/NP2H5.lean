import Verif.Model.NP2H5
import Verif.Spec.Writer
import Verif.Proofs.Base
namespace ABX.NP2H5
open Spec

theorem writeLoop_ok (fuel : Nat) : ∀ (b : Buf α) (data : List α) (target : Nat) (fl rest : List α),
    0 < b.bufLen → b.buf.length = b.bufLen → b.bufIx < b.bufLen →
    target = b.bufIx + data.length → target < fuel →
    b.data = fl ++ rest → fl.length = b.dsIx → b.bufLen * (target / b.bufLen) ≤ rest.length →
    ∃ b' d' add, b.writeLoop fuel data target = .ok (b', d', target % b.bufLen) ∧
      b'.fixed = b.fixed ∧ b'.bufLen = b.bufLen ∧ b'.nRows = b.nRows ∧ b'.buf.length = b.bufLen ∧
      b'.bufIx + d'.length = target % b.bufLen ∧
      b.buf.take b.bufIx ++ data = add ++ (b'.buf.take b'.bufIx) ++ d' ∧
      b'.data = fl ++ add ++ rest.drop add.length ∧ b'.dsIx = b.dsIx + add.length ∧
      add.length = b.bufLen * (target / b.bufLen) := by
  induction fuel with
  | zero => intro b data target fl rest; intros; omega
  | succ n ih =>
    intro b data target fl rest h0 h1 h2 h3 h4 h5 h6 h7
    unfold Buf.writeLoop
    by_cases hc : b.bufLen ≤ target
    · rw [if_pos hc]
      have hdiv : target / b.bufLen = (target - b.bufLen) / b.bufLen + 1 := by
        rw [Nat.div_eq target]; simp [h0, hc]
      have hmod : target % b.bufLen = (target - b.bufLen) % b.bufLen := by
        rw [Nat.mod_eq target]; simp [h0, hc]
      have hmul : b.bufLen * (target / b.bufLen) = b.bufLen * ((target - b.bufLen) / b.bufLen) + b.bufLen := by
        rw [hdiv, Nat.mul_add]; simp
      have ha := npAssign_ok b.buf (data.take (b.bufLen - b.bufIx)) b.bufIx b.bufLen (by omega) (by omega)
        (by simp; omega)
      simp only [ha]
      have hd : List.drop b.bufLen b.buf = [] := by simp; omega
      rw [hd, List.append_nil]
      have hlen : (b.buf.take b.bufIx ++ data.take (b.bufLen - b.bufIx)).length = b.bufLen := by
        simp; omega
      have hb := h5Assign_ok b.data (b.buf.take b.bufIx ++ data.take (b.bufLen - b.bufIx)) b.dsIx
        (b.dsIx + b.bufLen) (by omega) (by rw [h5]; simp; omega) (by rw [hlen]; omega)
      simp only [hb]
      have ht : b.data.take b.dsIx = fl := by rw [h5, ← h6]; simp
      have hdr : b.data.drop (b.dsIx + b.bufLen) = rest.drop b.bufLen := by
        rw [h5, ← h6, List.drop_append]; simp
      rw [ht, hdr]
      obtain ⟨b', d', add, e1, e2, e3, e4, e5, e6, e7, e8, e9, e10⟩ := ih
        { b with buf := b.buf.take b.bufIx ++ data.take (b.bufLen - b.bufIx), data := fl ++ (b.buf.take b.bufIx ++ data.take (b.bufLen - b.bufIx)) ++ rest.drop b.bufLen, dsIx := b.dsIx + b.bufLen, bufIx := 0 } (data.drop (b.bufLen - b.bufIx)) (target - b.bufLen)
        (fl ++ (b.buf.take b.bufIx ++ data.take (b.bufLen - b.bufIx))) (rest.drop b.bufLen)
        h0 hlen h0 (by simp; omega) (by omega) rfl (by rw [List.length_append, hlen, h6]) (by simp; omega)
      simp only at e1 e2 e3 e4 e5 e6 e7 e8 e9 e10
      refine ⟨b', d', (b.buf.take b.bufIx ++ data.take (b.bufLen - b.bufIx)) ++ add, ?_, e2, e3, e4, e5, ?_, ?_, ?_, ?_, ?_⟩
      · rw [hmod]; exact e1
      · rw [hmod]; exact e6
      · simp only [List.take_zero, List.nil_append] at e7
        have : data = data.take (b.bufLen - b.bufIx) ++ data.drop (b.bufLen - b.bufIx) := by simp
        conv => lhs; rw [this, e7]
        simp [List.append_assoc]
      · rw [e8, List.length_append, hlen, List.drop_drop]
        simp [List.append_assoc]
      · rw [e9, List.length_append, hlen]; omega
      · rw [List.length_append, hlen]; omega
    · rw [if_neg hc]
      have hq : target / b.bufLen = 0 := Nat.div_eq_of_lt (by omega)
      have hr : target % b.bufLen = target := Nat.mod_eq_of_lt (by omega)
      refine ⟨b, data, [], by rw [hr], rfl, rfl, rfl, h1, by omega, by simp, by simp [h5], by simp, by simp [hq]⟩

/-- invariant of a writer: `w` is the log of rows written so far, `d0` the initial
content of the dataset -/
structure Inv (zero : α) (d0 : List α) (b : Buf α) (w : List α) : Prop where
  pos : 0 < b.bufLen
  len : b.buf.length = b.bufLen
  ix : b.bufIx < b.bufLen
  log : ∃ fl, fl.length = b.dsIx ∧ w = fl ++ b.buf.take b.bufIx ∧ b.data = fl ++ d0.drop b.dsIx
  rows1 : d0.length ≤ b.nRows
  rows2 : b.nRows ≤ max d0.length b.dsIx
  fix : b.fixed = true → w.length ≤ d0.length
  zeros : b.fixed = false → d0 = List.replicate d0.length zero

theorem Inv.length {zero : α} {d0 b w} (h : Inv zero d0 b w) : w.length = b.dsIx + b.bufIx := by
  obtain ⟨fl, h1, h2, h3⟩ := h.log
  have := h.len; have := h.ix
  subst h2; simp; omega

theorem h5Resize_inv (zero : α) (fl d0 : List α) (n : Nat) (hd : d0 = List.replicate d0.length zero)
    (h : max d0.length fl.length ≤ n) :
    h5Resize zero (fl ++ d0.drop fl.length) n = fl ++ List.replicate (n - fl.length) zero := by
  unfold h5Resize
  rw [List.take_of_length_le (by simp; omega)]
  have : d0.drop fl.length = List.replicate (d0.length - fl.length) zero := by
    conv => lhs; rw [hd]
    simp
  rw [this, List.append_assoc, List.replicate_append_replicate]
  congr 2
  simp; omega

theorem write_inv (zero : α) (d0 : List α) (b : Buf α) (w rows : List α) (h : Inv zero d0 b w)
    (hroom : b.fixed = true → w.length + rows.length ≤ d0.length) :
    ∃ b', b.write zero rows = .ok b' ∧ b'.fixed = b.fixed ∧ Inv zero d0 b' (w ++ rows) := by
  obtain ⟨fl, l1, l2, l3⟩ := h.log
  have hwl := h.length
  have hpos := h.pos
  have hdm := Nat.div_add_mod (b.bufIx + rows.length) b.bufLen
  have hml := Nat.mod_lt (b.bufIx + rows.length) hpos
  -- the state after the resize
  have key : ∀ (b1 : Buf α) (rest : List α), b1.bufLen = b.bufLen → b1.buf = b.buf → b1.bufIx = b.bufIx →
      b1.dsIx = b.dsIx → b1.data = fl ++ rest →
      b.bufLen * ((b.bufIx + rows.length) / b.bufLen) ≤ rest.length →
      ∃ b2 add, b1.fill rows (b.bufIx + rows.length) = Except.ok b2 ∧
        b2.fixed = b1.fixed ∧ b2.bufLen = b.bufLen ∧ b2.nRows = b1.nRows ∧ b2.buf.length = b.bufLen ∧
        b2.bufIx = (b.bufIx + rows.length) % b.bufLen ∧
        b.buf.take b.bufIx ++ rows = add ++ b2.buf.take b2.bufIx ∧
        b2.data = fl ++ add ++ rest.drop add.length ∧ b2.dsIx = b.dsIx + add.length ∧
        add.length = b.bufLen * ((b.bufIx + rows.length) / b.bufLen) := by
    intro b1 rest q1 q2 q3 q4 q5 q6
    obtain ⟨b', d', add, e1, e2, e3, e4, e5, e6, e7, e8, e9, e10⟩ :=
      writeLoop_ok (b.bufIx + rows.length + 1) b1 rows (b.bufIx + rows.length) fl rest
        (by omega) (by rw [q2, q1]; exact h.len) (by have := h.ix; omega) (by omega) (by omega) q5 (by omega)
        (by rw [q1]; exact q6)
    rw [q1] at e1 e3 e5 e6 e10
    rw [q2, q3] at e7
    rw [q4] at e9
    have hn := npAssign_ok b'.buf d' b'.bufIx ((b.bufIx + rows.length) % b.bufLen) (by omega) (by omega) (by omega)
    refine ⟨{ b' with buf := b'.buf.take b'.bufIx ++ d' ++ b'.buf.drop ((b.bufIx + rows.length) % b.bufLen), bufIx := (b.bufIx + rows.length) % b.bufLen }, add, ?_, e2, e3, e4, ?_, rfl, ?_, e8, e9, e10⟩
    · simp only [Buf.fill, e1, hn]
    · simp; omega
    · simp only [e7, List.append_assoc]
      congr 1
      have : (b'.buf.take b'.bufIx ++ d').length = (b.bufIx + rows.length) % b.bufLen := by
        simp; omega
      rw [← List.append_assoc, List.take_append_of_le_length (by omega), ← this, List.take_length]
  unfold Buf.write Buf.grow
  dsimp only
  by_cases hf : b.fixed = true
  · simp only [hf, if_true]
    have hr := hroom hf
    have hnr : b.nRows = d0.length := by have := h.rows1; have := h.rows2; have := h.fix hf; omega
    obtain ⟨b2, add, e1, e2, e3, e4, e5, e6, e7, e8, e9, e10⟩ :=
      key b (d0.drop b.dsIx) rfl rfl rfl rfl l3 (by simp; omega)
    refine ⟨b2, e1, by rw [e2, hf], ?_⟩
    refine ⟨by omega, by omega, by omega, ⟨fl ++ add, by simp [l1, e9], ?_, ?_⟩, by omega, by omega,
      fun _ => by simp; omega, fun h => by rw [e2, hf] at h; cases h⟩
    · rw [l2, List.append_assoc, e7, List.append_assoc]
    · rw [e8, e9, List.drop_drop]
  · have hf' : b.fixed = false := by simpa using hf
    simp only [hf', Bool.false_eq_true, if_false]
    rw [if_neg (by omega)]
    have hz := h.zeros hf'
    have rest_eq : d0.drop b.dsIx = List.replicate (d0.length - b.dsIx) zero := by
      conv => lhs; rw [hz]
      simp
    by_cases hn : b.dsIx + b.bufLen * ((b.bufIx + rows.length) / b.bufLen) > b.nRows
    · simp only [hn, if_true]
      have hr1 := h.rows1
      have hq : h5Resize zero b.data (b.dsIx + b.bufLen * ((b.bufIx + rows.length) / b.bufLen)) =
          fl ++ List.replicate (b.bufLen * ((b.bufIx + rows.length) / b.bufLen)) zero := by
        rw [l3, ← l1, h5Resize_inv zero fl d0 _ hz (by omega)]
        congr 2; omega
      obtain ⟨b2, add, e1, e2, e3, e4, e5, e6, e7, e8, e9, e10⟩ :=
        key { b with nRows := b.dsIx + b.bufLen * ((b.bufIx + rows.length) / b.bufLen), data := h5Resize zero b.data (b.dsIx + b.bufLen * ((b.bufIx + rows.length) / b.bufLen)) } (List.replicate (b.bufLen * ((b.bufIx + rows.length) / b.bufLen)) zero) rfl rfl rfl rfl hq (by simp)
      refine ⟨b2, ?_, by rw [e2]; exact hf', ?_⟩
      · simpa [hf'] using e1
      simp only at e4
      refine ⟨by omega, by omega, by omega, ⟨fl ++ add, by simp [l1, e9], ?_, ?_⟩, by omega, by omega,
        fun h => by rw [e2] at h; simp [hf'] at h, fun _ => hz⟩
      · rw [l2, List.append_assoc, e7, List.append_assoc]
      · rw [e8, e9, e10]
        have : d0.drop (b.dsIx + b.bufLen * ((b.bufIx + rows.length) / b.bufLen)) = [] := by
          simp; omega
        simp [this]
    · simp only [hn, if_false]
      obtain ⟨b2, add, e1, e2, e3, e4, e5, e6, e7, e8, e9, e10⟩ :=
        key b (d0.drop b.dsIx) rfl rfl rfl rfl l3 (by simp; have := h.rows2; omega)
      refine ⟨b2, ?_, by rw [e2, hf'], ?_⟩
      · simpa [hf'] using e1
      refine ⟨by omega, by omega, by omega, ⟨fl ++ add, by simp [l1, e9], ?_, ?_⟩, ?_, ?_,
        fun h => by rw [e2] at h; simp [hf'] at h, fun _ => hz⟩
      · rw [l2, List.append_assoc, e7, List.append_assoc]
      · rw [e8, e9, List.drop_drop]
      · have := h.rows1; omega
      · have := h.rows2; omega

theorem flush_inv (zero : α) (d0 : List α) (b : Buf α) (w : List α) (h : Inv zero d0 b w) :
    ∃ b', b.flush zero = .ok b' ∧ b'.fixed = b.fixed ∧ b'.bufIx = 0 ∧ Inv zero d0 b' w := by
  obtain ⟨fl, l1, l2, l3⟩ := h.log
  have hwl := h.length
  have hlen := h.len
  have hix := h.ix
  have hr1 := h.rows1
  have hr2 := h.rows2
  unfold Buf.flush
  by_cases h0 : b.bufIx > 0
  · simp only [h0, if_true]
    have htl : (b.buf.take b.bufIx).length = b.bufIx := by simp; omega
    by_cases hc : b.fixed = false ∧ b.dsIx + b.bufIx > b.nRows
    · simp only [hc, and_self, if_true]
      have hz := h.zeros hc.1
      have hq := h5Resize_inv zero fl d0 (b.dsIx + b.bufIx) hz (by omega)
      rw [l1] at hq
      rw [l3, hq]
      have ha := h5Assign_ok (fl ++ List.replicate (b.dsIx + b.bufIx - b.dsIx) zero) (b.buf.take b.bufIx)
        b.dsIx (b.dsIx + b.bufIx) (by omega) (by simp; omega) (by omega)
      simp only [ha]
      refine ⟨_, rfl, rfl, rfl, ?_⟩
      refine ⟨h.pos, hlen, h.pos, ⟨w, hwl, by simp, ?_⟩, hr1, by simp only; omega, ?_, fun _ => hz⟩
      · simp only
        have e1 : (fl ++ List.replicate (b.dsIx + b.bufIx - b.dsIx) zero).take b.dsIx = fl := by
          rw [← l1]; simp
        have e2 : (fl ++ List.replicate (b.dsIx + b.bufIx - b.dsIx) zero).drop (b.dsIx + b.bufIx) = [] := by
          simp; omega
        have e3 : d0.drop (b.dsIx + b.bufIx) = [] := by simp; omega
        rw [e1, e2, e3, l2]
      · intro hh; simp at hh
    · rw [if_neg hc]
      have hle : b.dsIx + b.bufIx ≤ b.data.length := by
        rw [l3]; simp
        by_cases hf : b.fixed = true
        · have := h.fix hf; omega
        · have : ¬ (b.dsIx + b.bufIx > b.nRows) := fun hh => hc ⟨by simpa using hf, hh⟩
          omega
      have ha := h5Assign_ok b.data (b.buf.take b.bufIx) b.dsIx (b.dsIx + b.bufIx) (by omega) hle (by omega)
      simp only [ha]
      refine ⟨_, rfl, rfl, rfl, ?_⟩
      refine ⟨h.pos, hlen, h.pos, ⟨w, hwl, by simp, ?_⟩, hr1, by simp only; omega, h.fix, h.zeros⟩
      simp only
      rw [l3, l2]
      have e1 : (fl ++ d0.drop b.dsIx).take b.dsIx = fl := by rw [← l1]; simp
      have e2 : (fl ++ d0.drop b.dsIx).drop (b.dsIx + b.bufIx) = d0.drop (b.dsIx + b.bufIx) := by
        rw [List.drop_append, List.drop_eq_nil_of_le (by omega), List.drop_drop]
        simp; congr 1; omega
      rw [e1, e2]
  · rw [if_neg h0]
    exact ⟨b, rfl, rfl, by omega, h⟩

theorem written_length_cons (o : Op α) (os : List (Op α)) :
    (written os).length ≤ (written (o :: os)).length := by
  cases o <;> simp [written]

theorem run_inv (zero : α) (d0 : List α) : ∀ (ops : List (Op α)) (b : Buf α) (w : List α),
    Inv zero d0 b w → (b.fixed = true → (w ++ written ops).length ≤ d0.length) →
    ∃ b', b.run zero ops = .ok b' ∧ b'.fixed = b.fixed ∧ Inv zero d0 b' (w ++ written ops)
  | [], b, w, h, _ => ⟨b, rfl, rfl, by simpa [written] using h⟩
  | .write r :: os, b, w, h, hr => by
    obtain ⟨b1, e1, e2, e3⟩ := write_inv zero d0 b w r h (fun hf => by
      have := hr hf; simp [written] at this; omega)
    obtain ⟨b2, f1, f2, f3⟩ := run_inv zero d0 os b1 (w ++ r) e3 (fun hf => by
      have := hr (by rw [← e2]; exact hf); simpa [written] using this)
    refine ⟨b2, ?_, by rw [f2, e2], by simpa [written] using f3⟩
    simp [Buf.run, Buf.step, e1, f1]
  | .flush :: os, b, w, h, hr => by
    obtain ⟨b1, e1, e2, _, e3⟩ := flush_inv zero d0 b w h
    obtain ⟨b2, f1, f2, f3⟩ := run_inv zero d0 os b1 w e3 (fun hf => by
      have := hr (by rw [← e2]; exact hf); simpa [written] using this)
    refine ⟨b2, ?_, by rw [f2, e2], by simpa [written] using f3⟩
    simp [Buf.run, Buf.step, e1, f1]

end ABX.NP2H5

namespace ABX.NP2H5
open Spec

/-! ### counting lemmas that hold also when too much is written -/

theorem writeLoop_count (fuel : Nat) : ∀ (b : Buf α) (data : List α) (target : Nat)
    (b' : Buf α) (d' : List α) (t' : Nat), b.bufIx < b.bufLen →
    target = b.bufIx + data.length → b.writeLoop fuel data target = .ok (b', d', t') →
    b'.name = b.name ∧ b'.fixed = b.fixed ∧ b'.bufLen = b.bufLen ∧ b'.nRows = b.nRows ∧ t' < b.bufLen ∧
    b'.dsIx + t' = b.dsIx + target := by
  induction fuel with
  | zero =>
    intro b data target b' d' t' h1 h2 h
    unfold Buf.writeLoop at h
    split at h
    · cases h
    · injection h with h; injection h with e1 h; injection h with e2 e3; subst e1; subst e3; subst e2
      refine ⟨rfl, rfl, rfl, rfl, by omega, by omega⟩
  | succ n ih =>
    intro b data target b' d' t' h1 h2 h
    unfold Buf.writeLoop at h
    split at h
    · rename_i hc
      dsimp only at h
      split at h
      · cases h
      · split at h
        · cases h
        · obtain ⟨a0, a1, a2, a3, a4, a5⟩ := ih _ _ _ b' d' t' (by dsimp only; omega) (by simp; omega) h
          dsimp only at a0 a1 a2 a3 a4 a5
          refine ⟨a0, a1, a2, a3, a4, by omega⟩
    · injection h with h; injection h with e1 h; injection h with e2 e3; subst e1; subst e3; subst e2
      refine ⟨rfl, rfl, rfl, rfl, by omega, by omega⟩

/-- weak invariant, sufficient to count -/
def Cnt (n : Nat) (b : Buf α) (k : Nat) : Prop :=
  b.bufIx < b.bufLen ∧ b.dsIx + b.bufIx = k ∧ b.nRows = n ∧ b.fixed = true

theorem write_count (zero : α) (n : Nat) (b b' : Buf α) (k : Nat) (rows : List α) (h : Cnt n b k)
    (hw : b.write zero rows = .ok b') : Cnt n b' (k + rows.length) := by
  obtain ⟨h1, h2, h3, h4⟩ := h
  unfold Buf.write Buf.grow at hw
  simp only [h4, if_true] at hw
  unfold Buf.fill at hw
  split at hw
  · cases hw
  · rename_i b1 d1 t1 he
    obtain ⟨a0, a1, a2, a3, a4, a5⟩ := writeLoop_count _ b rows _ b1 d1 t1 h1 rfl he
    split at hw
    · cases hw
    · injection hw with hw; subst hw
      exact ⟨by simp only; omega, by simp only; omega, by simp only; omega, by simp only; rw [a1]; exact h4⟩

theorem flush_count (zero : α) (n : Nat) (b b' : Buf α) (k : Nat) (h : Cnt n b k)
    (hw : b.flush zero = .ok b') : Cnt n b' k ∧ b'.bufIx = 0 := by
  obtain ⟨h1, h2, h3, h4⟩ := h
  unfold Buf.flush at hw
  split at hw
  · dsimp only at hw
    split at hw
    · cases hw
    · injection hw with hw; subst hw
      exact ⟨⟨by simp only; omega, by simp only; omega, h3, h4⟩, rfl⟩
  · injection hw with hw; subst hw
    exact ⟨⟨h1, h2, h3, h4⟩, by omega⟩

theorem run_count (zero : α) (n : Nat) : ∀ (ops : List (Op α)) (b b' : Buf α) (k : Nat), Cnt n b k →
    b.run zero ops = .ok b' → Cnt n b' (k + (written ops).length)
  | [], b, b', k, h, hr => by
    simp [Buf.run] at hr; subst hr; simpa [written] using h
  | .write r :: os, b, b', k, h, hr => by
    simp only [Buf.run, Buf.step] at hr
    split at hr
    · cases hr
    · rename_i b1 e
      have := run_count zero n os b1 b' _ (write_count zero n b b1 k r h e) hr
      simpa [written, Nat.add_assoc] using this
  | .flush :: os, b, b', k, h, hr => by
    simp only [Buf.run, Buf.step] at hr
    split at hr
    · cases hr
    · rename_i b1 e
      exact run_count zero n os b1 b' _ (flush_count zero n b b1 k h e).1 hr

/-! ### sessions -/

/-- every buffer of a session satisfies the invariant for its log -/
def SInv (zero : α) (d0 : Nat → List α) (w : Nat → List α) (bs : List (Buf α)) : Prop :=
  ∀ i (h : i < bs.length), Inv zero (d0 i) bs[i] (w i)

theorem step_inv (zero : α) (d0 : List α) (b : Buf α) (w : List α) (o : Op α) (h : Inv zero d0 b w)
    (hroom : b.fixed = true → (w ++ written [o]).length ≤ d0.length) :
    ∃ b', b.step zero o = .ok b' ∧ b'.fixed = b.fixed ∧ Inv zero d0 b' (w ++ written [o]) := by
  obtain ⟨b', e, h1, h2⟩ := run_inv zero d0 [o] b w h hroom
  refine ⟨b', ?_, h1, h2⟩
  simp only [Buf.run] at e
  split at e
  · cases e
  · rename_i x hx; rw [hx]; exact e

theorem writtenTo_cons (i j : Nat) (o : Op α) (os : List (Nat × Op α)) :
    writtenTo i ((j, o) :: os) = (if j = i then written [o] else []) ++ writtenTo i os := by
  cases o <;> simp [writtenTo, written] <;> split <;> simp

theorem session_inv (zero : α) (d0 : Nat → List α) : ∀ (ops : List (Nat × Op α)) (bs : List (Buf α))
    (w : Nat → List α), SInv zero d0 w bs → (∀ p ∈ ops, p.1 < bs.length) →
    (∀ i (h : i < bs.length), bs[i].fixed = true → (w i ++ writtenTo i ops).length ≤ (d0 i).length) →
    ∃ bs', runSession zero bs ops = .ok bs' ∧ bs'.length = bs.length ∧
      (∀ i (h : i < bs.length) (h' : i < bs'.length), bs'[i].fixed = bs[i].fixed) ∧
      SInv zero d0 (fun i => w i ++ writtenTo i ops) bs'
  | [], bs, w, h, _, _ => ⟨bs, rfl, rfl, fun _ _ _ => rfl, by simpa [SInv, writtenTo] using h⟩
  | (j, o) :: os, bs, w, h, hv, hr => by
    have hj : j < bs.length := hv (j, o) (by simp)
    have hjj : bs[j]? = some bs[j] := List.getElem?_eq_getElem hj
    obtain ⟨b1, e1, e2, e3⟩ := step_inv zero (d0 j) bs[j] (w j) o (h j hj) (fun hf => by
      have := hr j hj hf
      rw [writtenTo_cons] at this
      simp at this ⊢; omega)
    obtain ⟨bs', f1, f2, f3, f4⟩ := session_inv zero d0 os (bs.set j b1)
      (fun i => if j = i then w i ++ written [o] else w i)
      (by
        intro i hi
        by_cases hij : j = i
        · subst hij; simp only [List.getElem_set_self, if_true]; exact e3
        · simp only [hij, if_false]
          rw [List.getElem_set_ne hij]; exact h i (by simpa using hi))
      (by intro p hp; simpa using hv p (by simp [hp]))
      (by
        intro i hi hf
        have hi' : i < bs.length := by simpa using hi
        have hf' : bs[i].fixed = true := by
          by_cases hij : j = i
          · subst hij; rw [List.getElem_set_self] at hf; rw [← e2]; exact hf
          · rw [List.getElem_set_ne hij] at hf; exact hf
        have := hr i hi' hf'
        rw [writtenTo_cons] at this
        by_cases hij : j = i <;> simp [hij] at this ⊢ <;> omega)
    refine ⟨bs', ?_, by simpa using f2, ?_, ?_⟩
    · simp only [runSession, hjj, e1]; exact f1
    · intro i hi hi'
      rw [f3 i (by simpa using hi) hi']
      by_cases hij : j = i
      · subst hij; simp [e2]
      · rw [List.getElem_set_ne hij]
    · intro i hi
      have := f4 i hi
      dsimp only at this ⊢
      rw [writtenTo_cons]
      by_cases hij : j = i
      · simpa [hij] using this
      · simpa [hij] using this

theorem flushAll_inv (zero : α) : ∀ (bs : List (Buf α)) (d0 w : Nat → List α), SInv zero d0 w bs →
    ∃ bs', flushAll zero bs = .ok bs' ∧ bs'.length = bs.length ∧
      (∀ i (h : i < bs.length) (h' : i < bs'.length), bs'[i].fixed = bs[i].fixed ∧ bs'[i].bufIx = 0) ∧
      SInv zero d0 w bs'
  | [], d0, w, _ => ⟨[], rfl, rfl, fun _ h => by simp at h, fun _ h => by simp at h⟩
  | b :: bs, d0, w, h => by
    obtain ⟨b1, e1, e2, e3, e4⟩ := flush_inv zero (d0 0) b (w 0) (h 0 (by simp))
    obtain ⟨bs', f1, f2, f3, f4⟩ := flushAll_inv zero bs (fun i => d0 (i+1)) (fun i => w (i+1))
      (fun i hi => h (i+1) (by simpa using hi))
    refine ⟨b1 :: bs', by simp [flushAll, e1, f1], by simp [f2], ?_, ?_⟩
    · intro i hi hi'
      cases i with
      | zero => exact ⟨e2, e3⟩
      | succ i => exact f3 i (by simpa using hi) (by simpa using hi')
    · intro i hi
      cases i with
      | zero => exact e4
      | succ i => exact f4 i (by simpa using hi)

theorem create_inv (zero : α) (name : String) (n bufLen : Nat) (fixed : Bool) (hb : 0 < bufLen)
    (hn : fixed = true → 0 < n) :
    ∃ b, Buf.create zero name none n bufLen false fixed = .ok b ∧ b.fixed = fixed ∧ b.name = name ∧
      b.nRows = n ∧ Inv zero (List.replicate n zero) b [] := by
  unfold Buf.create
  rw [if_neg (by intro h; have := hn h.2; omega), if_neg (by simp)]
  refine ⟨_, rfl, rfl, rfl, rfl, ?_⟩
  refine ⟨hb, by simp, hb, ⟨[], rfl, by simp, by simp⟩, by simp, by simp only [List.length_replicate]; omega, fun _ => by simp, fun _ => by simp⟩

end ABX.NP2H5

namespace ABX.NP2H5
open Spec

theorem writeLoop_name (fuel : Nat) : ∀ (b : Buf α) (data : List α) (target : Nat)
    (b' : Buf α) (d' : List α) (t' : Nat), b.writeLoop fuel data target = .ok (b', d', t') →
    b'.name = b.name ∧ b'.bufLen = b.bufLen := by
  induction fuel with
  | zero =>
    intro b data target b' d' t' h
    unfold Buf.writeLoop at h
    split at h
    · cases h
    · injection h with h; injection h with e1 h; subst e1; exact ⟨rfl, rfl⟩
  | succ n ih =>
    intro b data target b' d' t' h
    unfold Buf.writeLoop at h
    split at h
    · dsimp only at h
      split at h
      · cases h
      · split at h
        · cases h
        · have := ih _ _ _ b' d' t' h; exact this
    · injection h with h; injection h with e1 h; subst e1; exact ⟨rfl, rfl⟩

theorem grow_name (zero : α) (b b' : Buf α) (t : Nat) (h : b.grow zero t = .ok b') :
    b'.name = b.name ∧ b'.bufLen = b.bufLen := by
  unfold Buf.grow at h
  split at h
  · injection h with h; subst h; exact ⟨rfl, rfl⟩
  · split at h
    · cases h
    · dsimp only at h; split at h <;> (injection h with h; subst h; exact ⟨rfl, rfl⟩)

theorem step_name (zero : α) (b b' : Buf α) (o : Op α) (h : b.step zero o = .ok b') :
    b'.name = b.name ∧ b'.bufLen = b.bufLen := by
  cases o with
  | write rows =>
    simp only [Buf.step, Buf.write] at h
    split at h
    · cases h
    · rename_i b1 e
      have h1 := grow_name zero b b1 _ e
      unfold Buf.fill at h
      split at h
      · cases h
      · rename_i b2 d2 t2 e2
        have h2 := writeLoop_name _ _ _ _ _ _ _ e2
        split at h
        · cases h
        · injection h with h; subst h; exact ⟨h2.1.trans h1.1, h2.2.trans h1.2⟩
  | flush =>
    simp only [Buf.step, Buf.flush] at h
    split at h
    · split at h
      · cases h
      · injection h with h; subst h; exact ⟨rfl, rfl⟩
    · injection h with h; subst h; exact ⟨rfl, rfl⟩

theorem run_name (zero : α) : ∀ (ops : List (Op α)) (b b' : Buf α), b.run zero ops = .ok b' →
    b'.name = b.name ∧ b'.bufLen = b.bufLen
  | [], b, b', h => by simp [Buf.run] at h; subst h; exact ⟨rfl, rfl⟩
  | o :: os, b, b', h => by
    simp only [Buf.run] at h
    split at h
    · cases h
    · rename_i b1 e
      have h1 := step_name zero b b1 o e
      have h2 := run_name zero os b1 b' h
      exact ⟨h2.1.trans h1.1, h2.2.trans h1.2⟩

theorem session_name (zero : α) : ∀ (ops : List (Nat × Op α)) (bs bs' : List (Buf α)),
    runSession zero bs ops = .ok bs' → bs'.map Buf.name = bs.map Buf.name
  | [], bs, bs', h => by simp [runSession] at h; subst h; rfl
  | (i, o) :: os, bs, bs', h => by
    simp only [runSession] at h
    split at h
    · cases h
    · rename_i b eb
      split at h
      · cases h
      · rename_i b1 e
        have h1 := (step_name zero b b1 o e).1
        have h2 := session_name zero os _ bs' h
        rw [h2, List.map_set, h1]
        obtain ⟨hi, rfl⟩ := List.getElem?_eq_some_iff.mp eb
        apply List.ext_getElem
        · simp
        · intro k _ _
          by_cases hk : i = k
          · subst hk; simp
          · simp [List.getElem_set_ne hk]

theorem flushAll_name (zero : α) : ∀ (bs bs' : List (Buf α)), flushAll zero bs = .ok bs' →
    bs'.map Buf.name = bs.map Buf.name
  | [], bs', h => by simp [flushAll] at h; subst h; rfl
  | b :: bs, bs', h => by
    simp only [flushAll] at h
    split at h
    · cases h
    · rename_i b1 e
      split at h
      · cases h
      · rename_i bs1 e1
        injection h with h; subst h
        simp [flushAll_name zero bs bs1 e1, (step_name zero b b1 .flush e).1]

theorem flushSome_name (zero : α) : ∀ (bs : List (Buf α)),
    (flushSome zero bs).1.map Buf.name = bs.map Buf.name
  | [] => rfl
  | b :: bs => by
    simp only [flushSome]
    split
    · rfl
    · rename_i b1 e
      simp [flushSome_name zero bs, (step_name zero b b1 .flush e).1]

/-- data of a flushed buffer -/
theorem Inv.flushed {zero : α} {d0 : List α} {b : Buf α} {w : List α} (h : Inv zero d0 b w)
    (h0 : b.bufIx = 0) : b.data = w ++ d0.drop w.length ∧ b.dsIx = w.length := by
  obtain ⟨fl, l1, l2, l3⟩ := h.log
  simp [h0] at l2
  subst l2; exact ⟨by rw [l3, l1], by omega⟩

/-- a session whose datasets have room for what is written to them, up to the final flush -/
theorem session_flush (zero : α) (d0 : Nat → List α) (ops : List (Nat × Op α)) (bs : List (Buf α))
    (h : SInv zero d0 (fun _ => []) bs) (hv : ∀ p ∈ ops, p.1 < bs.length)
    (hr : ∀ i (h : i < bs.length), bs[i].fixed = true → (writtenTo i ops).length ≤ (d0 i).length) :
    ∃ bs1 bs2, runSession zero bs ops = .ok bs1 ∧ flushAll zero bs1 = .ok bs2 ∧
      bs2.length = bs.length ∧ bs2.map Buf.name = bs.map Buf.name ∧
      ∀ i (h : i < bs.length) (h' : i < bs2.length), bs2[i].fixed = bs[i].fixed ∧
        bs2[i].dsIx = (writtenTo i ops).length ∧
        bs2[i].data = writtenTo i ops ++ (d0 i).drop (writtenTo i ops).length ∧
        (d0 i).length ≤ bs2[i].nRows ∧ bs2[i].nRows ≤ max (d0 i).length bs2[i].dsIx := by
  obtain ⟨bs1, e1, e2, e3, e4⟩ := session_inv zero d0 ops bs (fun _ => []) h hv (by simpa using hr)
  obtain ⟨bs2, f1, f2, f3, f4⟩ := flushAll_inv zero bs1 d0 _ e4
  refine ⟨bs1, bs2, e1, f1, by omega, ?_, ?_⟩
  · rw [flushAll_name zero _ _ f1, session_name zero _ _ _ e1]
  · intro i hi hi'
    have hi1 : i < bs1.length := by omega
    obtain ⟨g1, g2⟩ := f3 i hi1 hi'
    have inv := f4 i hi'
    simp only [List.nil_append] at inv
    obtain ⟨k1, k2⟩ := inv.flushed g2
    exact ⟨by rw [g1, e3 i hi hi1], k2, k1, inv.rows1, inv.rows2⟩

end ABX.NP2H5

namespace ABX.NP2H5
open Spec

theorem session_count (zero : α) (n i : Nat) : ∀ (ops : List (Nat × Op α)) (bs bs' : List (Buf α)) (b : Buf α) (k : Nat), bs[i]? = some b → Cnt n b k →
    runSession zero bs ops = .ok bs' → ∃ b', bs'[i]? = some b' ∧ Cnt n b' (k + (writtenTo i ops).length)
  | [], bs, bs', b, k, hb, h, hr => by
    simp only [runSession] at hr
    injection hr with hr
    subst hr
    exact ⟨b, hb, by simpa [writtenTo] using h⟩
  | (j, o) :: os, bs, bs', b, k, hb, h, hr => by
    simp only [runSession] at hr
    split at hr
    · cases hr
    rename_i c hc
    split at hr
    · cases hr
    rename_i c' hs
    obtain ⟨hj, -⟩ := List.getElem?_eq_some_iff.mp hc
    by_cases hij : j = i
    · subst hij
      rw [hb] at hc
      cases hc
      have hcnt : Cnt n c' (k + (written [o]).length) := by
        cases o with
        | write r => simpa [written] using write_count zero n b c' k r h hs
        | flush => simpa [written] using (flush_count zero n b c' k h hs).1
      obtain ⟨b', h1, h2⟩ := session_count zero n j os _ bs' c' _ (by rw [List.getElem?_set_self hj]) hcnt hr
      refine ⟨b', h1, ?_⟩
      rw [writtenTo_cons, if_pos rfl, List.length_append, ← Nat.add_assoc]
      exact h2
    · obtain ⟨b', h1, h2⟩ := session_count zero n i os _ bs' b k (by rw [List.getElem?_set_ne hij]; exact hb) h hr
      refine ⟨b', h1, ?_⟩
      rw [writtenTo_cons, if_neg hij]
      exact h2

theorem flushAll_count (zero : α) (n : Nat) : ∀ (bs bs' : List (Buf α)) (i : Nat) (b : Buf α) (k : Nat), bs[i]? = some b → Cnt n b k → flushAll zero bs = .ok bs' →
    ∃ b', bs'[i]? = some b' ∧ Cnt n b' k ∧ b'.bufIx = 0
  | [], _, _, _, _, hb, _, _ => by simp at hb
  | c :: bs, bs', i, b, k, hb, h, hr => by
    simp only [flushAll] at hr
    split at hr
    · cases hr
    rename_i c1 e
    split at hr
    · cases hr
    rename_i bs1 e1
    injection hr with hr
    subst hr
    cases i with
    | zero =>
      rw [List.getElem?_cons_zero] at hb
      cases hb
      exact ⟨c1, rfl, flush_count zero n c c1 k h e⟩
    | succ i => exact flushAll_count zero n bs bs1 i b k hb h e1

end ABX.NP2H5
