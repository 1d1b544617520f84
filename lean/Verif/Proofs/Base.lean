import Verif.Model.Base
namespace ABX

theorem npAssign_ok (a v : List α) (lo hi : Nat) (h1 : lo ≤ hi) (h2 : hi ≤ a.length)
    (h3 : v.length = hi - lo) : npAssign a lo hi v = .ok (a.take lo ++ v ++ a.drop hi) := by
  unfold npAssign
  have e1 : min lo a.length = lo := by omega
  have e2 : max lo (min hi a.length) = hi := by omega
  simp [e1, e2, h3]

theorem h5Assign_ok (a v : List α) (lo hi : Nat) (h1 : lo ≤ hi) (h2 : hi ≤ a.length)
    (h3 : v.length = hi - lo) : h5Assign a lo hi v = .ok (a.take lo ++ v ++ a.drop hi) := by
  unfold h5Assign
  have e1 : min lo a.length = lo := by omega
  have e2 : max lo (min hi a.length) = hi := by omega
  simp [e1, e2, h3]
  intro h
  have : v = [] := by apply List.eq_nil_of_length_eq_zero; omega
  have : lo = hi := by omega
  subst this; simp [*]

theorem npAssign_length (a v : List α) (lo hi : Nat) (r : List α) (h : npAssign a lo hi v = .ok r) :
    r.length = a.length := by
  unfold npAssign at h
  simp only at h
  split at h
  · rename_i hv
    injection h with h; subst h; simp; omega
  · split at h
    · injection h with h; subst h; simp; omega
    · cases h

theorem h5Assign_length (a v : List α) (lo hi : Nat) (r : List α) (h : h5Assign a lo hi v = .ok r) :
    r.length = a.length := by
  unfold h5Assign at h
  simp only at h
  split at h
  · injection h with h; subst h; rfl
  split at h
  · rename_i hv
    injection h with h; subst h; simp; omega
  · split at h
    · injection h with h; subst h; simp; omega
    · cases h

end ABX
