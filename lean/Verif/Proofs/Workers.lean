import Verif.Spec.Distances
import Verif.Proofs.Jobs2
import Verif.Proofs.Pairs2
/-! Helper lemmas for the workers: the distances of a block. -/
namespace ABX.Distances
open ExtSort ABX.Task Pairs
variable {ρ φ δ : Type}

theorem lookup_zip {α β : Type} [BEq α] [LawfulBEq α] {k : α} {v : β} : ∀ {l : List α} {m : List β}, (l.zip m).lookup k = some v → ∃ p : Nat, l[p]? = some k ∧ m[p]? = some v
  | [], _, h => by simp at h
  | _ :: _, [], h => by simp at h
  | a :: l, b :: m, h => by
    rw [List.zip_cons_cons, List.lookup_cons] at h
    by_cases hk : k = a
    · subst hk
      simp at h
      exact ⟨0, rfl, by simp [h]⟩
    · have : (k == a) = false := by simpa using hk
      rw [this] at h
      obtain ⟨p, h1, h2⟩ := lookup_zip h
      exact ⟨p + 1, h1, h2⟩

theorem forall₂_getElem {α β : Type} {R : α → β → Prop} : ∀ {l : List α} {m : List β}, List.Forall₂ R l m → ∀ {i : Nat} {x : α}, l[i]? = some x → ∃ y, m[i]? = some y ∧ R x y
  | _, _, .nil, i, x, h => by simp at h
  | _, _, .cons (a := a) (b := b) h1 h2, i, x, h => by
    cases i with
    | zero => simp at h; subst h; exact ⟨b, rfl, h1⟩
    | succ i => simpa using forall₂_getElem h2 (by simpa using h)

theorem blockFeats_ok {I : Inputs ρ φ δ} {db : List ρ} {inds : List Int} (h0 : ∀ i ∈ inds, 0 ≤ i) {fs : List (Int × φ)} (h : blockFeats I db inds = .ok fs) {i : Int} {f : φ}
    (hf : fs.lookup i = some f) : 0 ≤ i ∧ ∃ r, db[i.toNat]? = some r ∧ I.getFeat r = .ok f := by
  unfold blockFeats at h
  split at h
  · cases h
  · next items h1 =>
    split at h
    · cases h
    · next gs h2 =>
      injection h with h
      subst h
      have hid : inds.map (fun i => if 0 ≤ i then i else (db.length : Int) + i) = inds := by
        conv_rhs => rw [← List.map_id inds]
        apply List.map_congr_left
        intro i hi
        rw [if_pos (h0 i hi)]
        rfl
      rw [hid] at hf
      obtain ⟨p, p1, p2⟩ := lookup_zip hf
      have hi0 := h0 i (List.mem_of_getElem? p1)
      refine ⟨hi0, ?_⟩
      obtain ⟨r, q1, q2⟩ := forall₂_getElem (SideOps.sequence_inv h1) p1
      obtain ⟨g, q3, q4⟩ := forall₂_getElem (SideOps.sequence_inv h2) q1
      rw [p2] at q3
      cases q3
      refine ⟨r, ?_, q4⟩
      unfold iloc at q2
      rw [if_pos hi0] at q2
      split at q2
      · next h => cases q2; exact h
      · cases q2

theorem computeBlock_ok {I : Inputs ρ φ δ} {db : List ρ} {base : Nat} (hb : 0 < base) {ks : List Int} (hk : ∀ k ∈ ks, 0 ≤ k) {dis : List δ} (h : computeBlock I db base ks = .ok dis) :
    List.Forall₂ (fun k d => ∃ (A X : Nat) (rA rX : ρ) (fA fX : φ), k = ((A + base * X : Nat) : Int) ∧ A < base ∧ db[A]? = some rA ∧ db[X]? = some rX ∧
      I.getFeat rA = .ok fA ∧ I.getFeat rX = .ok fX ∧ I.distance fA fX = .ok d) ks dis := by
  unfold computeBlock at h
  split at h
  · cases h
  · next fs hfs =>
    have hb' : (0 : Int) < base := by omega
    have hnn : ∀ i ∈ npUnique (ks.map (· % (base : Int)) ++ ks.map (· / (base : Int))), 0 ≤ i := by
      intro i hi
      rw [mem_npUnique, List.mem_append, List.mem_map, List.mem_map] at hi
      rcases hi with ⟨k, hk', rfl⟩ | ⟨k, hk', rfl⟩
      · exact Int.emod_nonneg _ (by omega)
      · exact Int.ediv_nonneg (hk k hk') (by omega)
    have h2 := SideOps.sequence_inv h
    have hmem : ∀ {k d}, k ∈ ks → pairDist I base fs k = .ok d → ∃ (A X : Nat) (rA rX : ρ) (fA fX : φ), k = ((A + base * X : Nat) : Int) ∧ A < base ∧ db[A]? = some rA ∧ db[X]? = some rX ∧
        I.getFeat rA = .ok fA ∧ I.getFeat rX = .ok fX ∧ I.distance fA fX = .ok d := by
      intro k d hk' hd
      unfold pairDist at hd
      split at hd
      · next fA fX l1 l2 =>
        obtain ⟨a1, rA, a2, a3⟩ := blockFeats_ok hnn hfs l1
        obtain ⟨x1, rX, x2, x3⟩ := blockFeats_ok hnn hfs l2
        refine ⟨(k % base).toNat, (k / base).toNat, rA, rX, fA, fX, ?_, ?_, a2, x2, a3, x3, hd⟩
        · rw [Int.natCast_add, Int.natCast_mul, Int.toNat_of_nonneg a1, Int.toNat_of_nonneg x1]
          exact (Int.emod_add_mul_ediv k base).symm
        · have := Int.emod_lt_of_pos k hb'
          omega
      · cases hd
    clear h hfs hnn hk
    induction h2 with
    | nil => exact .nil
    | cons h1 _ ih => exact .cons (hmem (by simp) h1) (ih (fun hk => hmem (by simp [hk])))

theorem npSlice_getElem {α : Type} (l : List α) {a b : Nat} {j : Nat} (hj : j < b - a) : (npSlice l a b)[j]? = l[a + j]? := by
  unfold npSlice
  rw [List.getElem?_drop, List.getElem?_take, if_pos (by omega)]

theorem block_ok {I : Inputs ρ φ δ} {b : Block} (hb : BlockIn I.pairs b) {r : Loaded ρ} (hr : readBlock I b = .ok r) {dis : List δ}
    (hd : computeBlock I r.1 r.2.2.1 r.2.2.2 = .ok dis) :
    r.2.1 + b.stop ≤ I.pairs.data.length ∧ b.start ≤ b.stop ∧ dis.length = b.stop - b.start ∧ ∀ (j : Nat) (d : δ), dis[j]? = some d → RowOK I (r.2.1 + b.start + j) d := by
  obtain ⟨base, start, stop, hL, hle, hst⟩ := hb
  obtain ⟨l1, l2, l3⟩ := hL.le
  unfold readBlock at hr
  rw [hL.attr] at hr
  split at hr
  · cases hr
  · next db hdb =>
    dsimp only at hr
    split at hr
    · cases hr
    · injection hr with hr
      subst hr
      dsimp only at hd ⊢
      have hlen : (npSlice I.pairs.data (start.toNat + b.start) (start.toNat + b.stop)).length = b.stop - b.start := by
        rw [npSlice_length_of _ (by omega)]; omega
      have hsub : ∀ k ∈ npSlice I.pairs.data (start.toNat + b.start) (start.toNat + b.stop), 0 ≤ k := by
        intro k hk
        obtain ⟨j, hj⟩ := List.getElem?_of_mem hk
        have hj' := (List.getElem?_eq_some_iff.mp hj).1
        rw [npSlice_getElem _ (by omega)] at hj
        apply hL.keys
        apply List.mem_of_getElem? (i := b.start + j)
        rw [npSlice_getElem _ (by omega), ← hj]
        congr 1
        omega
      have hF := computeBlock_ok hL.pos hsub hd
      refine ⟨by omega, hle, by rw [← hF.length_eq, hlen], ?_⟩
      intro j d hj
      have hjl := (List.getElem?_eq_some_iff.mp hj).1
      rw [← hF.length_eq, hlen] at hjl
      obtain ⟨key, k1⟩ : ∃ key, (npSlice I.pairs.data (start.toNat + b.start) (start.toNat + b.stop))[j]? = some key := ⟨_, List.getElem?_eq_getElem (by omega)⟩
      obtain ⟨d', d1, A, X, rA, rX, fA, fX, q1, q2, q3, q4, q5, q6, q7⟩ := forall₂_getElem hF k1
      rw [hj] at d1
      cases d1
      rw [npSlice_getElem _ (by omega)] at k1
      exact ⟨b.by_, base, start, stop, db, A, X, rA, rX, fA, fX, hL.attr, by omega, by omega, by rw [k1, q1], q2, hdb, q3, q4, q5, q6, q7⟩

end ABX.Distances
