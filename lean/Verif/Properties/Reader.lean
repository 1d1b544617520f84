import Verif.Proofs.H52NP
/-!
C35: the buffered reader `H52NP` (ABXpy/h5tools/h52np.py).
-/
namespace ABX.H52NP

/-- Specification of a reader: a list of rows not yet delivered.  A request gives the next rows
(fewer if there are not enough); requests of a non-positive amount and requests after the end
raise. -/
def specRead (rows : List α) (amount : Int) : Except Err (List α × List α) :=
  if amount ≤ 0 then .error .valueError
  else if rows.length = 0 then .error .stopIteration
  else .ok (rows.drop amount.toNat, rows.take amount.toNat)

/-- results of a sequence of `read(amount)` calls by the code; the object is unchanged by a call
that raises -/
def RBuf.reads (pol : Policy) (b : RBuf α) : List Int → List (Except Err (List α))
  | [] => []
  | a :: as => match b.read pol (some a) with
    | .error e => .error e :: b.reads pol as
    | .ok (b', r) => .ok r :: b'.reads pol as

/-- results of the same sequence according to the specification -/
def specReads (rows : List α) : List Int → List (Except Err (List α))
  | [] => []
  | a :: as => match specRead rows a with
    | .error e => .error e :: specReads rows as
    | .ok (rows', r) => .ok r :: specReads rows' as

/-- C35, reads.  For every dataset, sub-range, buffer length and refill policy that refills at least
an entirely consumed buffer, any sequence of `read(amount)` calls behaves like taking rows
from the list `ds[start:stop]`. -/
theorem C35_reads (zero : α) (pol : Policy) (hp : ∀ L, 0 < L → pol L L = true) (ds : List α)
    (start stop bufLen : Nat) (h1 : start ≤ stop) (h2 : stop ≤ ds.length) (hb : 0 < bufLen)
    (amounts : List Int) :
    ∃ b, RBuf.create zero pol ds start stop bufLen = .ok b ∧
      b.reads pol amounts = specReads ((ds.take stop).drop start) amounts := by
  obtain ⟨b, e1, e2, e3⟩ := create_inv zero pol hp ds start stop bufLen h1 h2 hb
  refine ⟨b, e1, ?_⟩
  rw [show (ds.take stop).drop start = b.remaining from e3.symm]
  clear e1 e3
  induction amounts generalizing b with
  | nil => rfl
  | cons a as ih =>
    unfold RBuf.reads specReads specRead
    by_cases ha : a ≤ 0
    · have : b.read pol (some a) = .error .valueError := by unfold RBuf.read; simp [ha]
      simp only [this, ha, if_true, ih b e2]
    · by_cases hr : b.remaining = []
      · have : b.read pol (some a) = .error .stopIteration := by
          unfold RBuf.read; simp [ha, e2.isEmpty_iff.mpr hr]
        simp only [this, ha, if_false, hr, List.length_nil, if_true, ih b e2]
      · obtain ⟨b', f1, f2, f3⟩ := read_some pol hp b e2 a.toNat (by omega) hr
        have hcast : ((a.toNat : Nat) : Int) = a := by omega
        rw [hcast] at f1
        have hl : ¬ b.remaining.length = 0 := by simpa using hr
        simp only [f1, ha, if_false, hl, ih b' f2, f3]

/-- the policy of the code satisfies the hypothesis -/
theorem quarter_ok (L : Nat) (h : 0 < L) : quarter L L = true := by simp [quarter, h]

/-- non-vacuity: a run over a buffer of 4 rows, sub-range 1..9 of a dataset of ten rows -/
example : ∃ b, RBuf.create 0 quarter [0,1,2,3,4,5,6,7,8,9] 1 9 4 = .ok b ∧
    b.reads quarter [3, 0, 2, 7, 1] = [.ok [1,2,3], .error .valueError, .ok [4,5], .ok [6,7,8], .error .stopIteration] := by
  obtain ⟨b, h1, h2⟩ := C35_reads 0 quarter quarter_ok [0,1,2,3,4,5,6,7,8,9] 1 9 4 (by decide) (by decide) (by decide) [3, 0, 2, 7, 1]
  exact ⟨b, h1, by rw [h2]; simp [specReads, specRead]⟩

/-- C35, a read never returns more than asked or more than what is left. -/
theorem C35_read_length (zero : α) (pol : Policy) (hp : ∀ L, 0 < L → pol L L = true) (ds : List α)
    (start stop bufLen : Nat) (h1 : start ≤ stop) (h2 : stop ≤ ds.length) (hb : 0 < bufLen)
    (amount : Nat) (ha : 0 < amount) (hne : start < stop) :
    ∃ b b' r, RBuf.create zero pol ds start stop bufLen = .ok b ∧ b.read pol (some amount) = .ok (b', r) ∧
      r.length = min amount (stop - start) := by
  obtain ⟨b, e1, e2, e3⟩ := create_inv zero pol hp ds start stop bufLen h1 h2 hb
  have hl : b.remaining.length = stop - start := by rw [e3, npSlice_length]; omega
  obtain ⟨b', f1, _⟩ := read_some pol hp b e2 amount ha (by intro h; rw [h] at hl; simp at hl; omega)
  exact ⟨b, b', _, e1, f1, by simp [hl]⟩

/-- C35, iteration.  `for chunk in reader` terminates, yields non-empty chunks, and their
concatenation is exactly the rows of the sub-range, each once and in order. -/
theorem C35_iterate (zero : α) (pol : Policy) (hp : ∀ L, 0 < L → pol L L = true) (ds : List α)
    (start stop bufLen : Nat) (h1 : start ≤ stop) (h2 : stop ≤ ds.length) (hb : 0 < bufLen) :
    ∃ b cs, RBuf.create zero pol ds start stop bufLen = .ok b ∧
      b.iterate pol (stop - start + 1) = .ok cs ∧
      cs.flatten = (ds.take stop).drop start ∧ ∀ c ∈ cs, c ≠ [] := by
  obtain ⟨b, e1, e2, e3⟩ := create_inv zero pol hp ds start stop bufLen h1 h2 hb
  have hl : b.remaining.length = stop - start := by rw [e3, npSlice_length]; omega
  obtain ⟨cs, f1, f2, f3⟩ := iterate_ok pol hp (stop - start + 1) b e2 (by omega)
  exact ⟨b, cs, e1, f1, by rw [f2, e3]; rfl, f3⟩

/-- C35, error branch: a buffer of length zero (row larger than twice the buffer size) raises
ZeroDivisionError as soon as the range is not empty. -/
theorem C35_zero_buffer (zero : α) (pol : Policy) (ds : List α) (start stop : Nat) (h : start ≠ stop) :
    RBuf.create zero pol ds start stop 0 = .error .zeroDivision := by
  simp [RBuf.create, RBuf.refill, h]

/-- C35, error branch: with `minimum_occupied_portion = 0` (a policy that never refills) a read on a
non-empty dataset never returns. -/
theorem C35_no_refill_diverges (zero : α) (ds : List α) (start stop bufLen : Nat) (hb : 0 < bufLen)
    (h : start ≠ stop) (amount : Nat) (ha : 0 < amount) (fuel : Nat) :
    ∃ b, RBuf.create zero (fun _ _ => false) ds start stop bufLen = .ok b ∧
      b.readLoop (fun _ _ => false) fuel amount 0 [] = .error .diverge := by
  have hb' : ¬ bufLen = 0 := by omega
  refine ⟨_, by simp [RBuf.create, RBuf.refill, h, hb']; rfl, ?_⟩
  induction fuel with
  | zero => unfold RBuf.readLoop; simp [RBuf.isEmpty, h, ha]
  | succ n ih =>
    unfold RBuf.readLoop
    simp only [RBuf.isEmpty, ha, true_and]
    simp [h]
    simp [RBuf.refill, h, hb', npSlice]
    exact ih

#print axioms C35_reads
#print axioms C35_read_length
#print axioms C35_iterate
#print axioms C35_zero_buffer
#print axioms C35_no_refill_diverges

end ABX.H52NP
