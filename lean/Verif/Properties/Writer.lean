import Verif.Proofs.NP2H5
/-!
C32, C33, C34: the buffered writer `NP2H5` (ABXpy/h5tools/np2h5.py).
-/
namespace ABX.NP2H5
open Spec

/-- The declaration of a dataset by the user: name, number of rows, buffer length, fixed size
or not. -/
structure Decl where
  name : String
  nRows : Nat
  bufLen : Nat
  fixed : Bool

/-- `add_dataset` for every declaration, in a file that contains none of them yet. -/
def createAll (zero : α) : List Decl → Except Err (List (Buf α))
  | [] => .ok []
  | d :: ds => match Buf.create zero d.name none d.nRows d.bufLen false d.fixed with
    | .error e => .error e
    | .ok b => match createAll zero ds with
      | .error e => .error e
      | .ok bs => .ok (b :: bs)

theorem createAll_inv (zero : α) : ∀ (ds : List Decl),
    (∀ d ∈ ds, 0 < d.bufLen ∧ (d.fixed = true → 0 < d.nRows)) →
    ∃ bs, createAll zero ds = .ok bs ∧ bs.length = ds.length ∧ bs.map Buf.name = ds.map Decl.name ∧
      ∀ i (h : i < ds.length) (h' : i < bs.length), bs[i].fixed = ds[i].fixed ∧
        bs[i].nRows = ds[i].nRows ∧ Inv zero (List.replicate ds[i].nRows zero) bs[i] []
  | [], _ => ⟨[], rfl, rfl, rfl, fun _ h => by simp at h⟩
  | d :: ds, h => by
    obtain ⟨b, e1, e2, e3, e4, e5⟩ := create_inv zero d.name d.nRows d.bufLen d.fixed
      (h d (by simp)).1 (h d (by simp)).2
    obtain ⟨bs, f1, f2, f3, f4⟩ := createAll_inv zero ds (fun x hx => h x (by simp [hx]))
    refine ⟨b :: bs, by simp [createAll, e1, f1], by simp [f2], by simp [f3, e3], ?_⟩
    intro i hi hi'
    cases i with
    | zero => exact ⟨e2, e4, e5⟩
    | succ i => exact f4 i (by simpa using hi) (by simpa using hi')

/-- C32.  For any datasets declared in one session, any interleaving of `write` and `flush` calls
to them, any buffer lengths: provided no dataset of fixed size is asked to hold more rows than
declared, nothing raises, and after the final flush of the `with` block each dataset holds the
concatenation of what was written to it, in order, followed by the fill rows not reached. -/
theorem C32_session_concat (zero : α) (ds : List Decl) (ops : List (Nat × Op α))
    (hd : ∀ d ∈ ds, 0 < d.bufLen ∧ (d.fixed = true → 0 < d.nRows))
    (hv : ∀ p ∈ ops, p.1 < ds.length)
    (hroom : ∀ i (h : i < ds.length), ds[i].fixed = true → (writtenTo i ops).length ≤ ds[i].nRows) :
    ∃ bs bs1 bs2, createAll zero ds = .ok bs ∧ runSession zero bs ops = .ok bs1 ∧
      flushAll zero bs1 = .ok bs2 ∧
      fileOf bs2 = ds.mapIdx (fun i d => (d.name,
        writtenTo i ops ++ List.replicate (d.nRows - (writtenTo i ops).length) zero)) := by
  obtain ⟨bs, e1, e2, e3, e4⟩ := createAll_inv zero ds hd
  obtain ⟨bs1, bs2, f1, f2, f3, f4, f5⟩ := session_flush zero
    (fun i => List.replicate (if h : i < ds.length then ds[i].nRows else 0) zero) ops bs
    (fun i hi => by
      have h' : i < ds.length := by omega
      simp only [h', dif_pos]
      exact (e4 i h' hi).2.2)
    (fun p hp => by rw [e2]; exact hv p hp)
    (fun i hi hf => by
      have h' : i < ds.length := by omega
      simp only [h', dif_pos, List.length_replicate]
      exact hroom i h' (by rw [← (e4 i h' hi).1]; exact hf))
  refine ⟨bs, bs1, bs2, e1, f1, f2, ?_⟩
  apply List.ext_getElem
  · simp [fileOf, f3, e2]
  · intro i h1 h2
    have hi2 : i < bs2.length := by simpa [fileOf] using h1
    have hib : i < bs.length := by omega
    have hid : i < ds.length := by omega
    obtain ⟨_, _, g, _⟩ := f5 i hib hi2
    have hn : bs2[i].name = ds[i].name := by
      have : (bs2.map Buf.name)[i]'(by simpa using hi2) = (ds.map Decl.name)[i]'(by simpa using hid) := by
        simp only [f4, e3]
      simpa using this
    simp [fileOf, hn, g, hid]

/-- non-vacuity: two datasets, a fixed one with buffer length 2 and a growing one with buffer
length 3, interleaved -/
example : ∃ bs bs1 bs2,
    createAll (0:Nat) [⟨"a", 3, 2, true⟩, ⟨"b", 0, 3, false⟩] = .ok bs ∧
    runSession 0 bs [(0, .write [1, 2]), (1, .write [5]), (1, .flush), (1, .write [6, 7, 8, 9]), (0, .write [3])]
      = .ok bs1 ∧ flushAll 0 bs1 = .ok bs2 ∧ fileOf bs2 = [("a", [1, 2, 3]), ("b", [5, 6, 7, 8, 9])] := by
  have := C32_session_concat (0:Nat) [⟨"a", 3, 2, true⟩, ⟨"b", 0, 3, false⟩]
    [(0, .write [1, 2]), (1, .write [5]), (1, .flush), (1, .write [6, 7, 8, 9]), (0, .write [3])]
    (by decide) (by decide) (by decide)
  simpa [writtenTo] using this

/-- C32, one growing dataset: the session also ends without complaint. -/
theorem C32_writer_concat (zero : α) (name : String) (n bufLen : Nat) (hb : 0 < bufLen)
    (ops : List (Op α)) :
    ∃ b b1 b2, Buf.create zero name none n bufLen false false = .ok b ∧ b.run zero ops = .ok b1 ∧
      exitOk zero [b1] = .ok [b2] ∧
      fileOf [b2] = [(name, written ops ++ List.replicate (n - (written ops).length) zero)] := by
  obtain ⟨b, e1, e2, en, e3, e4⟩ := create_inv zero name n bufLen false hb (by simp)
  obtain ⟨b1, f1, f2, f3⟩ := run_inv zero _ ops b [] e4 (by simp [e2])
  obtain ⟨b2, g1, g2, g3, g4⟩ := flush_inv zero _ b1 _ f3
  have hc : b2.isComplete = true := by simp [Buf.isComplete, g2, f2, e2]
  refine ⟨b, b1, b2, e1, f1, by simp [exitOk, flushAll, g1, hc], ?_⟩
  have h1 := (run_name zero ops b b1 f1).1
  have h2 := (step_name zero b1 b2 .flush g1).1
  have h3 := (g4.flushed g3).1
  simp only [fileOf, List.map_cons, List.map_nil, h2, h1, en, h3]
  simp

example : ∃ b, Buf.create (0:Nat) "triplets/data" none 0 2 false false = .ok b := ⟨_, rfl⟩

/-- C33.  A fixed-size dataset: the session (calls, then leaving the `with` block) succeeds iff
exactly the declared number of rows was written; otherwise some exception is raised.  When it
succeeds the dataset is what was written. -/
theorem C33_fixed_iff (zero : α) (name : String) (n bufLen : Nat) (hb : 0 < bufLen) (hn : 0 < n)
    (ops : List (Op α)) :
    ∃ b, Buf.create zero name none n bufLen false true = .ok b ∧
      ((∃ b1 bs2, b.run zero ops = .ok b1 ∧ exitOk zero [b1] = .ok bs2) ↔ (written ops).length = n) ∧
      (∀ b1 bs2, b.run zero ops = .ok b1 → exitOk zero [b1] = .ok bs2 →
        fileOf bs2 = [(name, written ops)]) := by
  obtain ⟨b, e1, e2, en, e3, e4⟩ := create_inv zero name n bufLen true hb (fun _ => hn)
  have hcnt : Cnt n b 0 := ⟨e4.ix, by have := e4.length; simp at this; omega, e3, e2⟩
  have fwd : ∀ b1 bs2, b.run zero ops = .ok b1 → exitOk zero [b1] = .ok bs2 → (written ops).length = n := by
    intro b1 bs2 h1 h2
    have c1 := run_count zero n ops b b1 0 hcnt h1
    unfold exitOk flushAll at h2
    split at h2
    · cases h2
    · rename_i bs hx
      split at hx
      · cases hx
      · rename_i b2 hfl
        simp only [flushAll] at hx
        injection hx with hx; subst hx
        obtain ⟨c2, c3⟩ := flush_count zero n b1 b2 _ c1 hfl
        split at h2
        · rename_i hall
          simp [Buf.isComplete, c2.2.2.2] at hall
          have := c2.2.1; have := c2.2.2.1; omega
        · cases h2
  refine ⟨b, e1, ⟨?_, ?_⟩, ?_⟩
  · rintro ⟨b1, bs2, h1, h2⟩; exact fwd b1 bs2 h1 h2
  · intro hl
    obtain ⟨b1, f1, f2, f3⟩ := run_inv zero _ ops b [] e4 (by simp [hl])
    obtain ⟨b2, g1, g2, g3, g4⟩ := flush_inv zero _ b1 _ f3
    have hds := (g4.flushed g3).2
    have c1 := (flush_count zero n b1 b2 _ (run_count zero n ops b b1 0 hcnt f1) g1).1
    have hc : b2.isComplete = true := by
      simp [Buf.isComplete, g2, f2, e2]; simp at hds; rw [hds, hl, c1.2.2.1]
    exact ⟨b1, [b2], f1, by simp [exitOk, flushAll, g1, hc]⟩
  · intro b1 bs2 h1 h2
    have hl := fwd b1 bs2 h1 h2
    obtain ⟨b1', f1, f2, f3⟩ := run_inv zero _ ops b [] e4 (by simp [hl])
    rw [f1] at h1; injection h1 with h1; subst h1
    obtain ⟨b2, g1, g2, g3, g4⟩ := flush_inv zero _ b1' _ f3
    simp only [exitOk, flushAll, g1] at h2
    split at h2
    · injection h2 with h2; subst h2
      have k1 := (run_name zero ops b b1' f1).1
      have k2 := (step_name zero b1' b2 .flush g1).1
      have k3 := (g4.flushed g3).1
      simp [fileOf, k2, k1, en, k3, hl]
    · cases h2

/-- C33, several datasets in one session (of fixed size or growing), interleaved calls: the session succeeds iff every dataset of fixed size got exactly the declared number of rows. -/
theorem C33_session_iff (zero : α) (ds : List Decl) (ops : List (Nat × Op α)) (hd : ∀ d ∈ ds, 0 < d.bufLen ∧ (d.fixed = true → 0 < d.nRows)) (hv : ∀ p ∈ ops, p.1 < ds.length) :
    ∃ bs, createAll zero ds = .ok bs ∧
      ((∃ bs1 bs2, runSession zero bs ops = .ok bs1 ∧ exitOk zero bs1 = .ok bs2) ↔ ∀ i (h : i < ds.length), ds[i].fixed = true → (writtenTo i ops).length = ds[i].nRows) := by
  obtain ⟨bs, e1, e2, e3, e4⟩ := createAll_inv zero ds hd
  refine ⟨bs, e1, ?_, ?_⟩
  · rintro ⟨bs1, bs2, h1, h2⟩ i hi hf
    have hib : i < bs.length := by omega
    obtain ⟨g1, g2, g3⟩ := e4 i hi hib
    have hc : Cnt ds[i].nRows bs[i] 0 := ⟨g3.ix, by have := g3.length; simp at this; omega, g2, by rw [g1]; exact hf⟩
    obtain ⟨b1, c1, c2⟩ := session_count zero _ i ops bs bs1 _ 0 (List.getElem?_eq_getElem hib) hc h1
    unfold exitOk at h2
    split at h2
    · cases h2
    rename_i bs3 hfl
    split at h2
    · rename_i hall
      injection h2 with h2
      subst h2
      obtain ⟨b2, d1, d2, d3⟩ := flushAll_count zero _ bs1 bs3 i b1 _ c1 c2 hfl
      have := List.all_eq_true.mp hall b2 (List.mem_of_getElem? d1)
      obtain ⟨k1, k2, k3, k4⟩ := d2
      simp only [Buf.isComplete, k4, if_true, beq_iff_eq] at this
      omega
    · cases h2
  · intro hl
    obtain ⟨bs1, bs2, f1, f2, f3, f4, f5⟩ := session_flush zero
      (fun i => List.replicate (if h : i < ds.length then ds[i].nRows else 0) zero) ops bs
      (fun i hi => by
        have h' : i < ds.length := by omega
        simp only [h', dif_pos]
        exact (e4 i h' hi).2.2)
      (fun p hp => by rw [e2]; exact hv p hp)
      (fun i hi hf => by
        have h' : i < ds.length := by omega
        simp only [h', dif_pos, List.length_replicate]
        exact Nat.le_of_eq (hl i h' (by rw [← (e4 i h' hi).1]; exact hf)))
    refine ⟨bs1, bs2, f1, ?_⟩
    unfold exitOk
    rw [f2]
    have : bs2.all Buf.isComplete = true := by
      rw [List.all_eq_true]
      intro b hb
      obtain ⟨i, hi, rfl⟩ := List.mem_iff_getElem.mp hb
      have hib : i < bs.length := by omega
      have hid : i < ds.length := by omega
      obtain ⟨k1, k2, -, k4, k5⟩ := f5 i hib hi
      simp only [hid, dif_pos, List.length_replicate] at k4 k5
      unfold Buf.isComplete
      by_cases hf : bs2[i].fixed = true
      · rw [if_pos hf, beq_iff_eq]
        have := hl i hid (by rw [← (e4 i hid hib).1, ← k1]; exact hf)
        omega
      · rw [if_neg hf]
    simp only [this, if_true]

/-- non-vacuity of `C33_session_iff`: a session of two datasets of fixed size of which one is incomplete raises a Warning -/
example : ∃ bs, createAll (0:Nat) [⟨"a", 2, 2, true⟩, ⟨"b", 2, 2, true⟩] = .ok bs ∧ ∃ bs1, runSession 0 bs [(0, .write [1, 2]), (1, .write [5])] = .ok bs1 ∧ exitOk 0 bs1 = .error .warning :=
  ⟨_, rfl, _, rfl, rfl⟩

/-- non-vacuity: both sides of the equivalence are inhabited -/
example : (written [Op.write [1, 2], .flush, .write [3]]).length = 3 ∧
    (written [Op.write [1, 2], .write [3, 4]]).length ≠ 3 := by decide

/-- C33: a fixed-size dataset of zero rows is refused. -/
theorem C33_zero_rows_refused (zero : α) (name : String) (ex : Option (List α)) (bufLen : Nat) (ow : Bool) :
    Buf.create zero name ex 0 bufLen ow true = .error .valueError := by
  simp [Buf.create]

/-- An existing dataset is never clobbered unless `overwrite` is given, and then only if it has
the declared number of rows. -/
theorem C33_existing_refused (zero : α) (name : String) (d : List α) (n bufLen : Nat) (fixed : Bool)
    (ow : Bool) (h : ow = false ∨ d.length ≠ n) :
    ∃ e, Buf.create zero name (some d) n bufLen ow fixed = .error e := by
  unfold Buf.create
  split
  · exact ⟨_, rfl⟩
  · split
    · exact ⟨_, rfl⟩
    · rcases h with h | h <;> cases ow <;> simp_all

/-- C32, error branch: with a buffer of length 0 (a row larger than twice the buffer size, see
`nb_lines`) a growing dataset raises ZeroDivisionError at the first write... -/
theorem C32_zero_buffer_growing (zero : α) (b : Buf α) (rows : List α) (h : b.bufLen = 0)
    (hf : b.fixed = false) : b.write zero rows = .error .zeroDivision := by
  simp [Buf.write, Buf.grow, h, hf]

/-- ... and with a fixed-size one the write loop never ends: whatever the fuel, it is exhausted
(when the dataset has the declared size, so that the empty buffer dump does not raise). -/
theorem C32_zero_buffer_fixed_diverges (fuel : Nat) : ∀ (b : Buf α) (rows : List α) (target : Nat),
    b.bufLen = 0 → b.buf = [] → b.bufIx = 0 →
    b.writeLoop fuel rows target = .error .diverge := by
  induction fuel with
  | zero => intro b rows target h1 h2 h3; unfold Buf.writeLoop; simp [h1]
  | succ n ih =>
    intro b rows target h1 h2 h3
    unfold Buf.writeLoop
    simp only [h1, Nat.zero_le, if_true, h2, h3]
    simp only [npAssign, h5Assign]
    simp
    exact ih _ _ _ rfl rfl rfl

/-- `nb_lines` gives 0 exactly when a row weighs at least twice the buffer. -/
theorem C32_nbLines_zero (itemSize nCols kb : Nat) (h : itemSize * nCols ≠ 0) :
    nbLines itemSize nCols kb = .ok 0 ↔ 2 * (kb * 1000) ≤ itemSize * nCols := by
  simp only [nbLines, h, if_false, Except.ok.injEq]
  generalize itemSize * nCols = b at *
  generalize kb * 1000 = a
  have hb : 0 < b := by omega
  have hm := Nat.mod_lt a hb
  have hd := Nat.div_add_mod a b
  unfold roundDiv
  constructor
  · intro hr
    have hq : a / b = 0 := by
      dsimp only at hr
      split at hr
      · exact hr
      · split at hr
        · exact absurd hr (Nat.succ_ne_zero _)
        · split at hr
          · exact hr
          · exact absurd hr (Nat.succ_ne_zero _)
    rw [hq] at hd hr
    simp at hd hr
    omega
  · intro hle
    have hq : a / b = 0 := Nat.div_eq_of_lt (by omega)
    have hr : a % b = a := Nat.mod_eq_of_lt (by omega)
    dsimp only
    rw [hq, hr]
    split
    · rfl
    · rw [if_neg (by omega)]; simp

example : nbLines 8 25000 100 = .ok 0 ∧ nbLines 8 3 100 = .ok 4167 := by decide

/-- C34 is violated: whatever was done before the exception, every dataset created in the session
is still in the file afterwards (`del self.dataset` does not touch the file). -/
theorem C34_violated (zero : α) (bs : List (Buf α)) :
    (fileOf (exitErr zero bs)).map Prod.fst = bs.map Buf.name := by
  have h := flushSome_name zero bs
  unfold exitErr fileOf
  split
  · rename_i x hx
    rw [hx] at h
    simp only [List.map_map]
    exact h
  · rename_i x hx
    rw [hx] at h
    simp only [List.map_map]
    exact h

/-- Concrete witness of the violation: two rows out of three written, then user code raises; the file
keeps a dataset of three rows, the last one never written. -/
theorem C34_violated_witness : ∃ b b1, Buf.create 0 "unique_pairs/data" none 3 10 false true = .ok b ∧
    b.run 0 [.write [7, 8]] = .ok b1 ∧
    fileOf (exitErr 0 [b1]) = [("unique_pairs/data", [7, 8, 0])] := by
  refine ⟨_, _, rfl, rfl, by decide⟩

/-- C34, what holds: leaving through an exception of the user's code flushes the buffers, so the
datasets left behind hold exactly what was written so far (no row is lost or invented). -/
theorem C34_partial (zero : α) (name : String) (n bufLen : Nat) (hb : 0 < bufLen) (ops : List (Op α)) :
    ∃ b b1, Buf.create zero name none n bufLen false false = .ok b ∧ b.run zero ops = .ok b1 ∧
      fileOf (exitErr zero [b1]) =
        [(name, written ops ++ List.replicate (n - (written ops).length) zero)] := by
  obtain ⟨b, b1, b2, h1, h2, h3, h4⟩ := C32_writer_concat zero name n bufLen hb ops
  refine ⟨b, b1, h1, h2, ?_⟩
  rw [← h4]
  have hfl : b1.flush zero = .ok b2 := by
    simp only [exitOk, flushAll] at h3
    split at h3
    · cases h3
    · rename_i bs hx
      split at hx
      · cases hx
      · injection hx with hx; subst hx
        split at h3
        · rename_i b2' hfl _
          injection h3 with h3; injection h3 with h3 _; rw [← h3]; exact hfl
        · cases h3
  simp [exitErr, flushSome, hfl, fileOf, Buf.delete]

#print axioms C32_session_concat
#print axioms C32_writer_concat
#print axioms C33_fixed_iff
#print axioms C33_session_iff
#print axioms C33_zero_rows_refused
#print axioms C33_existing_refused
#print axioms C32_zero_buffer_growing
#print axioms C32_zero_buffer_fixed_diverges
#print axioms C32_nbLines_zero
#print axioms C34_violated
#print axioms C34_violated_witness
#print axioms C34_partial

end ABX.NP2H5
