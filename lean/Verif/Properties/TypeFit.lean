import Verif.Model.TypeFit
/-!
C43: `fit_integer_type` returns the smallest type that holds `n`.
-/
namespace ABX

/-- storing a value in range is lossless -/
theorem C43_cast_lossless (t : IntType) (x : Int) (hb : 0 < t.bits) (h1 : t.lo ≤ x) (h2 : x < t.hi) :
    t.cast x = x := by
  obtain ⟨b, s⟩ := t
  have hp : (2:Int) ^ b = 2 * 2 ^ (b - 1) := by
    have : b = (b - 1) + 1 := by simp at hb; omega
    rw [this, Int.pow_succ]; simp; omega
  have : (x - IntType.lo ⟨b, s⟩) % 2 ^ b = x - IntType.lo ⟨b, s⟩ := by
    apply Int.emod_eq_of_lt
    · omega
    · cases s <;> simp [IntType.lo, IntType.hi] at * <;> omega
  simp only [IntType.cast]; rw [this]; omega

example : (IntType.mk 8 true).cast 127 = 127 ∧ (IntType.mk 8 true).cast 128 = -128 := by decide

/-- storing a value out of range is never lossless -/
theorem C43_cast_lossy (t : IntType) (x : Int) (hb : 0 < t.bits) (h : ¬ (t.lo ≤ x ∧ x < t.hi)) :
    t.cast x ≠ x := by
  obtain ⟨b, s⟩ := t
  have hp : (2:Int) ^ b = 2 * 2 ^ (b - 1) := by
    have : b = (b - 1) + 1 := by simp at hb; omega
    rw [this, Int.pow_succ]; simp; omega
  have hpos : (0:Int) < 2 ^ b := Int.pow_pos (by omega)
  intro e
  simp only [IntType.cast] at e
  have h1 := Int.emod_nonneg (x - IntType.lo ⟨b, s⟩) (Int.ne_of_gt hpos)
  have h2 := Int.emod_lt_of_pos (x - IntType.lo ⟨b, s⟩) hpos
  apply h
  cases s <;> simp [IntType.lo, IntType.hi] at * <;> omega

/-- The result holds every value of `0..n`. -/
theorem C43_holds (n : Int) (sg : Bool) (t : IntType) (h : fitIntegerType n sg = .ok t)
    (x : Int) (h0 : 0 ≤ x) (hx : x ≤ n) : t.cast x = x := by
  unfold fitIntegerType at h
  cases sg <;> simp at h <;> (repeat' split at h) <;>
    first
    | (injection h with h; subst h; apply C43_cast_lossless <;> simp [IntType.lo, IntType.hi] <;> omega)
    | (exact absurd h (by simp))

example : fitIntegerType 300 true = .ok ⟨16, true⟩ ∧ fitIntegerType 255 false = .ok ⟨8, false⟩ := by
  decide

/-- The width is one of the four numpy widths and the signedness is the requested one. -/
theorem C43_family (n : Int) (sg : Bool) (t : IntType) (h : fitIntegerType n sg = .ok t) :
    t.bits ∈ [8, 16, 32, 64] ∧ t.signed = sg := by
  unfold fitIntegerType at h
  cases sg <;> simp at h <;> (repeat' split at h) <;>
    first
    | (injection h with h; subst h; simp)
    | (exact absurd h (by simp))

/-- No smaller type of the family holds `n`. -/
theorem C43_minimal (n : Int) (sg : Bool) (t : IntType) (h : fitIntegerType n sg = .ok t)
    (b : Nat) (hb : b ∈ [8, 16, 32, 64]) (hlt : b < t.bits) : (IntType.mk b sg).cast n ≠ n := by
  apply C43_cast_lossy
  · simp at hb ⊢; omega
  · unfold fitIntegerType at h
    simp at hb
    cases sg <;> simp at h <;> (repeat' split at h) <;>
    first
    | (injection h with h; subst h; simp [IntType.hi, IntType.lo] at *;
       rcases hb with rfl | rfl | rfl | rfl <;> simp <;> omega)
    | (exact absurd h (by simp))

/-- It raises (a ValueError) iff `n` does not fit 64 bits. -/
theorem C43_raises_iff (n : Int) (sg : Bool) :
    fitIntegerType n sg = .error .valueError ↔ (IntType.mk 64 sg).hi ≤ n := by
  unfold fitIntegerType
  cases sg <;> simp [IntType.hi] <;> (repeat' split) <;> simp <;> omega

example : fitIntegerType (2 ^ 63) true = .error .valueError := by decide

#print axioms C43_cast_lossless
#print axioms C43_cast_lossy
#print axioms C43_holds
#print axioms C43_family
#print axioms C43_minimal
#print axioms C43_raises_iff

end ABX
