import Verif.Model.H5IO
import Verif.Proofs.NP2H5
import Verif.Proofs.Lookup
import Verif.Proofs.Task
import Verif.Properties.Writer
/-!
Lemmas for Properties/H5IO.lean: writers, side by side arrays.
-/
namespace ABX.H5IO
open ExtSort NP2H5 Task
open Lookup (indexOf fusedType fusedLevels keyWeights keyOf cap m64 fusedKey expand InRange)

variable {ν : Type}

/-! ### writers -/

/-- the rows `w` were given to the writer -/
def OutInv (o : Out) (w : List (List Nat)) : Prop := Inv (zeroRow o.cols) [] o.buf w ∧ o.buf.fixed = false

theorem writeOuts_ok {data : List (String × Input ν)} {R W : OutDecl → List (List Nat)} : ∀ {outs : List Out},
    (∀ o ∈ outs, rowsFor o.toOutDecl data = .ok (R o.toOutDecl)) → (∀ o ∈ outs, OutInv o (W o.toOutDecl)) →
    ∃ outs', writeOuts data outs = .ok outs' ∧ outs'.map Out.toOutDecl = outs.map Out.toOutDecl ∧ ∀ o ∈ outs', OutInv o (W o.toOutDecl ++ R o.toOutDecl)
  | [], _, _ => ⟨[], rfl, rfl, by simp⟩
  | o :: os, hr, hw => by
    obtain ⟨os', h1, h2, h3⟩ := writeOuts_ok (R := R) (W := W) (outs := os) (fun o ho => hr o (by simp [ho])) (fun o ho => hw o (by simp [ho]))
    obtain ⟨b, e1, e2, e3⟩ := write_inv (zeroRow o.cols) [] o.buf _ (R o.toOutDecl) (hw o (by simp)).1 (by simp [(hw o (by simp)).2])
    refine ⟨{ o with buf := b } :: os', ?_, by simp [h2], ?_⟩
    · rw [writeOuts, hr o (by simp)]
      simp only [e1, h1]
    · intro x hx
      rcases List.mem_cons.mp hx with rfl | hx
      · exact ⟨e3, by rw [e2]; exact (hw o (by simp)).2⟩
      · exact h3 x hx

theorem flushOuts_ok {W : OutDecl → List (List Nat)} : ∀ {outs : List Out}, (∀ o ∈ outs, OutInv o (W o.toOutDecl)) →
    flushOuts outs = .ok ((outs.map Out.toOutDecl).map (fun d => (d.path, W d)))
  | [], _ => rfl
  | o :: os, hw => by
    obtain ⟨b, e1, e2, e3, e4⟩ := flush_inv (zeroRow o.cols) [] o.buf _ (hw o (by simp)).1
    obtain ⟨fl, l1, l2, l3⟩ := e4.log
    have hd : b.data = W o.toOutDecl := by
      rw [l3, l2, e3]; simp
    rw [flushOuts, e1]
    simp only [flushOuts_ok (W := W) (outs := os) (fun o ho => hw o (by simp [ho])), hd, List.map_cons]

/-- a dataset that fits in a chunk -/
def Fits (d : OutDecl) : Prop := 0 < d.type.bits / 8 * d.cols ∧ d.type.bits / 8 * d.cols < 20000

theorem addDataset_ok {f : File ν} {outs : List Out} {d : OutDecl} (hf : Fits d) (h1 : d.path ∉ outs.map (fun o => o.path)) (h2 : f.data.lookup d.path = none) :
    ∃ o, addDataset f outs d = .ok o ∧ o.toOutDecl = d ∧ OutInv o [] := by
  obtain ⟨p, q⟩ := hf
  have hne : d.type.bits / 8 * d.cols ≠ 0 := by omega
  have key : ∀ kb, 10 ≤ kb → ∃ n, nbLines (d.type.bits / 8) d.cols kb = .ok n ∧ 0 < n := by
    intro kb hk
    have := C32_nbLines_zero (d.type.bits / 8) d.cols kb hne
    cases hn : nbLines (d.type.bits / 8) d.cols kb with
    | error e => simp [nbLines, hne] at hn
    | ok n =>
      refine ⟨n, rfl, Nat.pos_of_ne_zero ?_⟩
      rintro rfl
      have := this.mp hn
      omega
  obtain ⟨n, hn, n0⟩ := key 100 (by omega)
  obtain ⟨m, hm, m0⟩ := key 10 (by omega)
  obtain ⟨b, c1, c2, c3, c4, c5⟩ := create_inv (zeroRow d.cols) d.path.2 0 n false n0 (by simp)
  refine ⟨{ d with buf := b }, ?_, rfl, ⟨by simpa using c5, c2⟩⟩
  unfold addDataset
  simp only [hn]
  rw [if_neg h1, h2]
  simp only [c1, hm]
  rw [if_neg (by omega)]

theorem addAll_ok {f : File ν} : ∀ {ds : List OutDecl} {outs : List Out}, (∀ d ∈ ds, Fits d) → (∀ d ∈ ds, f.data.lookup d.path = none) →
    (outs.map (fun o => o.path) ++ ds.map OutDecl.path).Nodup → (∀ o ∈ outs, OutInv o []) →
    ∃ outs', addAll f outs (ds.map .ok) = .ok outs' ∧ outs'.map Out.toOutDecl = outs.map Out.toOutDecl ++ ds ∧ ∀ o ∈ outs', OutInv o []
  | [], outs, _, _, _, h => ⟨outs, rfl, by simp, h⟩
  | d :: ds, outs, h1, h2, h3, h4 => by
    have hp : d.path ∉ outs.map (fun o => o.path) := by
      intro hm
      exact (List.nodup_append.mp h3).2.2 _ hm _ (by simp) rfl
    obtain ⟨o, e1, e2, e3⟩ := addDataset_ok (f := f) (outs := outs) (h1 d (by simp)) hp (h2 d (by simp))
    obtain ⟨outs', g1, g2, g3⟩ := addAll_ok (f := f) (ds := ds) (outs := outs ++ [o]) (fun d hd => h1 d (by simp [hd])) (fun d hd => h2 d (by simp [hd]))
      (by rw [List.map_append, List.append_assoc]; simpa [e2] using h3) (fun x hx => by
        rcases List.mem_append.mp hx with hx | hx
        · exact h4 x hx
        · obtain rfl := List.mem_singleton.mp hx; exact e3)
    refine ⟨outs', ?_, by rw [g2]; simp [e2], g3⟩
    rw [List.map_cons, addAll, e1]
    exact g1

/-! ### arrays side by side -/

/-- rows side by side -/
def joinRows : List (List (List Nat)) → List (List Nat)
  | [] => []
  | [r] => r
  | r :: rs => List.zipWith (· ++ ·) r (joinRows rs)

theorem joinRows_cons (r s : List (List Nat)) (l : List (List (List Nat))) : joinRows (r :: s :: l) = List.zipWith (· ++ ·) r (joinRows (s :: l)) := rfl

theorem joinRows_length {n : Nat} : ∀ {l : List (List (List Nat))}, l ≠ [] → (∀ r ∈ l, r.length = n) → (joinRows l).length = n
  | [], h, _ => absurd rfl h
  | [r], _, h => h r (by simp)
  | r :: s :: rs, _, h => by
    rw [joinRows, List.length_zipWith, joinRows_length (l := s :: rs) (by simp) (fun x hx => h x (by simp [hx])), h r (by simp)]
    simp
    simp

theorem concatCols_ok {n : Nat} : ∀ {l : List (Nat × List (List Nat))}, l ≠ [] → (∀ p ∈ l, p.2.length = n) →
    concatCols (l.map (fun p => ⟨p.1, p.2⟩)) = .ok ⟨(l.map Prod.fst).sum, joinRows (l.map Prod.snd)⟩
  | [], h, _ => absurd rfl h
  | [p], _, _ => by simp [concatCols, joinRows]
  | p :: q :: l, _, h => by
    have ih := concatCols_ok (l := q :: l) (by simp) (fun x hx => h x (by simp [hx]))
    have hl : (joinRows ((q :: l).map Prod.snd)).length = n := joinRows_length (by simp) (by
      intro r hr
      obtain ⟨x, hx, rfl⟩ := List.mem_map.mp hr
      exact h x (by simp only [List.mem_cons] at hx ⊢; tauto))
    rw [List.map_cons] at ih
    rw [List.map_cons, List.map_cons, concatCols, ih]
    · dsimp only
      rw [if_pos (by rw [hl]; exact h p (by simp))]
      simp [joinRows]
    · simp

/-- equal lengths: the joined rows are those of the parts -/
theorem joinRows_append {n m : Nat} : ∀ {κ : Type} (ds : List κ) (f g : κ → List (List Nat)), (∀ d ∈ ds, (f d).length = n) → (∀ d ∈ ds, (g d).length = m) →
    joinRows (ds.map (fun d => f d ++ g d)) = joinRows (ds.map f) ++ joinRows (ds.map g)
  | _, [], _, _, _, _ => rfl
  | _, [d], _, _, _, _ => rfl
  | _, d :: e :: ds, f, g, hf, hg => by
    have ih := joinRows_append (e :: ds) f g (fun d hd => hf d (by simp only [List.mem_cons] at hd ⊢; tauto)) (fun d hd => hg d (by simp only [List.mem_cons] at hd ⊢; tauto))
    simp only [List.map_cons] at ih ⊢
    rw [joinRows_cons, ih, joinRows_cons, joinRows_cons]
    rw [List.zipWith_append]
    rw [hf d (by simp)]
    exact (joinRows_length (l := f e :: ds.map f) (by simp) (by
      intro r hr
      rw [← List.map_cons] at hr
      obtain ⟨x, hx, rfl⟩ := List.mem_map.mp hr
      exact hf x (by simp only [List.mem_cons] at hx ⊢; tauto))).symm

theorem joinRows_flat {κ β : Type} (ds : List κ) (bs : List β) (f : β → κ → List (List Nat)) (hf : ∀ b ∈ bs, ∃ n, ∀ d ∈ ds, (f b d).length = n) :
    joinRows (ds.map (fun d => bs.flatMap (fun b => f b d))) = bs.flatMap (fun b => joinRows (ds.map (f b))) := by
  induction bs with
  | nil =>
    simp only [List.flatMap_nil]
    induction ds with
    | nil => rfl
    | cons d ds ih =>
      cases ds with
      | nil => rfl
      | cons e ds => rw [List.map_cons, List.map_cons, joinRows]; simp; simp
  | cons b bs ih =>
    obtain ⟨n, hn⟩ := hf b (by simp)
    have hall : ∃ m, ∀ d ∈ ds, (bs.flatMap (fun b => f b d)).length = m := by
      clear ih hn
      have hf' := fun b hb => hf b (List.mem_cons_of_mem _ hb)
      clear hf
      induction bs with
      | nil => exact ⟨0, by simp⟩
      | cons c bs ih2 =>
        obtain ⟨m, hm⟩ := ih2 (fun b hb => hf' b (by simp [hb]))
        obtain ⟨k, hk⟩ := hf' c (by simp)
        exact ⟨k + m, fun d hd => by rw [List.flatMap_cons, List.length_append, hk d hd, hm d hd]⟩
    obtain ⟨m, hm⟩ := hall
    simp only [List.flatMap_cons]
    rw [joinRows_append (n := n) (m := m) ds (f b) (fun d => bs.flatMap (fun b => f b d)) hn hm, ih (fun b hb => hf b (by simp [hb]))]

/-- the columns of a part -/
theorem joinRows_slice {κ : Type} (dims : κ → Nat) (f : κ → List (List Nat)) {n : Nat} : ∀ (ds : List κ), (∀ d ∈ ds, (f d).length = n) → (∀ d ∈ ds, ∀ r ∈ f d, r.length = dims d) →
    ∀ (pre : List κ) (d : κ) (post : List κ), ds = pre ++ d :: post →
    (joinRows (ds.map f)).map (fun r => npSlice r (pre.map dims).sum ((pre.map dims).sum + dims d)) = f d
  | [], _, _, pre, d, post, h => by simp at h
  | [e], _, h2, pre, d, post, h => by
    have : pre = [] ∧ e = d ∧ post = [] := by cases pre <;> simp_all
    obtain ⟨rfl, rfl, rfl⟩ := this
    have : ∀ r ∈ f e, npSlice r (([] : List κ).map dims).sum ((([] : List κ).map dims).sum + dims e) = r := by
      intro r hr
      have := h2 e (by simp) r hr
      simp [npSlice, ← this]
    simpa [joinRows] using (List.map_congr_left this).trans (List.map_id _)
  | e :: e' :: ds, h1, h2, pre, d, post, h => by
    rw [List.map_cons, List.map_cons, joinRows_cons, ← List.map_cons]
    · have hlen : (joinRows ((e' :: ds).map f)).length = (f e).length := by
        rw [h1 e (by simp)]
        exact joinRows_length (by simp) (by
          intro r hr
          obtain ⟨x, hx, rfl⟩ := List.mem_map.mp hr
          exact h1 x (by simp only [List.mem_cons] at hx ⊢; tauto))
      cases pre with
      | nil =>
        simp only [List.nil_append, List.cons.injEq] at h
        obtain ⟨rfl, -⟩ := h
        apply List.ext_getElem
        · rw [List.length_map, List.length_zipWith, hlen, Nat.min_self]
        · intro i hi hi'
          have hr := h2 e (by simp) _ (List.getElem_mem hi')
          simp only [List.getElem_map, List.getElem_zipWith, npSlice, List.map_nil, List.sum_nil, Nat.zero_add, List.drop_zero]
          rw [List.take_append_of_le_length (by omega), List.take_of_length_le (by omega)]
      | cons p pre =>
        simp only [List.cons_append, List.cons.injEq] at h
        obtain ⟨rfl, h⟩ := h
        have ih := joinRows_slice dims f (n := n) (e' :: ds) (fun d hd => h1 d (by simp only [List.mem_cons] at hd ⊢; tauto)) (fun d hd => h2 d (by simp only [List.mem_cons] at hd ⊢; tauto)) pre d post h
        rw [← ih]
        apply List.ext_getElem
        · rw [List.length_map, List.length_zipWith, hlen, Nat.min_self, List.length_map, hlen]
        · intro i hi hi'
          have hi2 : i < (f e).length := by rw [List.length_map, List.length_zipWith, hlen, Nat.min_self] at hi; exact hi
          have hr := h2 e (by simp) _ (List.getElem_mem hi2)
          simp only [List.getElem_map, List.getElem_zipWith, npSlice, List.map_cons, List.sum_cons]
          rw [List.take_append, List.drop_append, List.take_of_length_le (by omega), List.drop_eq_nil_of_le (by omega), List.nil_append]
          congr 1
          · omega
          · congr 1; omega

/-- rows of the parts are equal exactly when the joined rows are -/
theorem joinRows_eq_iff {κ : Type} (dims : κ → Nat) (f : κ → List (List Nat)) {n : Nat} {ds : List κ} (h1 : ∀ d ∈ ds, (f d).length = n) (h2 : ∀ d ∈ ds, ∀ r ∈ f d, r.length = dims d)
    (i j : Nat) (hne : ds ≠ []) (hi : i < n) (hj : j < n) :
    (joinRows (ds.map f))[i]? = (joinRows (ds.map f))[j]? ↔ ∀ d ∈ ds, (f d)[i]? = (f d)[j]? := by
  constructor
  · intro h d hd
    obtain ⟨pre, post, hs⟩ := List.append_of_mem hd
    have := joinRows_slice dims f ds h1 h2 pre d post hs
    rw [← this, List.getElem?_map, List.getElem?_map, h]
  · clear h2
    induction ds with
    | nil => exact absurd rfl hne
    | cons e ds ih =>
      cases ds with
      | nil => intro h; simpa [joinRows] using h e (by simp)
      | cons e' ds =>
        intro h
        have ih := ih (fun d hd => h1 d (by simp only [List.mem_cons] at hd ⊢; tauto)) (by simp) (fun d hd => h d (by simp only [List.mem_cons] at hd ⊢; tauto))
        rw [List.map_cons, List.map_cons, joinRows_cons, ← List.map_cons, List.getElem?_zipWith, List.getElem?_zipWith, ih, h e (by simp)]

end ABX.H5IO
