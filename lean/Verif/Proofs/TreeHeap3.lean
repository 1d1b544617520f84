import Verif.Proofs.TreeHeap
/-!
Lemmas for Properties/TreeHeap.lean: nested lists.
-/
namespace ABX.TreeHeap
open Spec

theorem addFrom_prev {l : List Nest} {rs : List Rose} (he : Encodes l rs) (h : Heap) (p : Nat) (prev : Option Nat) : addFrom h p prev l = addFrom h p none l := by
  cases he with
  | nil => rw [addFrom, addFrom]
  | leaf _ => rw [addFrom, addFrom]
  | inner _ _ => rw [addFrom, addFrom]

theorem built_congr {h h' : Heap} {rs : List Rose} (hb : Built h rs) : (∀ n ∈ ids rs, h'.children n = h.children n) → Built h' rs := by
  induction hb with
  | nil => intro _; exact .nil
  | @cons n ks rs h1 _ _ ih1 ih2 =>
    intro hc
    simp only [ids, List.mem_cons, List.mem_append] at hc
    exact .cons (by rw [hc n (.inl rfl), h1]) (ih1 (fun m hm => hc m (.inr (.inl hm)))) (ih2 (fun m hm => hc m (.inr (.inr hm))))

/-- an object without links is not above another -/
theorem isolated_not_above {h : Heap} (hf : Forest h) {n p : Nat} (hi : Isolated h n) (hne : p ≠ n) : ¬ Above h p n := by
  intro ha
  rcases above_tail.mp ha with rfl | ⟨c, -, hc⟩
  · exact hne rfl
  · rw [← hf.link, hi.1] at hc
    simp at hc

theorem addFrom_ok {l : List Nest} {rs : List Rose} (he : Encodes l rs) : ∀ {h : Heap} {p : Nat}, Forest h → (ids rs).Nodup → (∀ n ∈ ids rs, Isolated h n) → p ∉ ids rs →
    ∃ h', addFrom h p none l = .ok h' ∧ Forest h' ∧ h'.children p = h.children p ++ rs.map Rose.root ∧ Built h' rs ∧ (∀ q, q ≠ p → q ∉ ids rs → h'.children q = h.children q) ∧
      ∀ x, x ∉ ids rs → h'.parent x = h.parent x := by
  induction he with
  | nil =>
    intro h p hf _ _ _
    exact ⟨h, by rw [addFrom], hf, by simp, .nil, fun _ _ _ => rfl, fun _ _ => rfl⟩
  | @leaf n l rs he ih =>
    intro h p hf hn hi hp
    simp only [ids, List.nil_append, List.mem_cons, List.nodup_cons, not_or] at hn hi hp
    have hin := hi n (.inl rfl)
    have hf1 := addChild_forest hf hin.2 (isolated_not_above hf hin hp.1)
    obtain ⟨h', e1, e2, e3, e4, e5, e6⟩ := ih (h := addChild h p n) (p := p) hf1 hn.2 (by
      intro m hm
      have hmn : m ≠ n := by rintro rfl; exact hn.1 hm
      have hmp : m ≠ p := by rintro rfl; exact hp.2 hm
      have := hi m (.inr hm)
      exact ⟨by simp only [addChild, register, upd, if_neg hmp, this.1], by simp only [addChild, register, upd, if_neg hmn, this.2]⟩) hp.2
    refine ⟨h', ?_, e2, ?_, ?_, ?_, ?_⟩
    · rw [addFrom, addFrom_prev he, e1]
    · rw [e3]; simp [addChild, register, upd, Rose.root]
    · refine .cons ?_ .nil e4
      rw [e5 n (Ne.symm hp.1) hn.1]
      simp only [addChild, register, upd, if_neg (Ne.symm hp.1), hin.1, List.map_nil]
    · intro q hq hqi
      simp only [ids, List.nil_append, List.mem_cons, not_or] at hqi
      rw [e5 q hq hqi.2]
      simp only [addChild, register, upd, if_neg hq]
    · intro x hx
      simp only [ids, List.nil_append, List.mem_cons, not_or] at hx
      rw [e6 x hx.2]
      simp only [addChild, register, upd, if_neg hx.1]
  | @inner n m ks l rs hm he ihm ih =>
    intro h p hf hn hi hp
    simp only [ids, List.mem_cons, List.mem_append, List.nodup_cons, List.nodup_append, not_or] at hn hi hp
    obtain ⟨⟨hnk, hnr⟩, hk, hr, hd⟩ := hn
    have hin := hi n (.inl rfl)
    have hf1 := addChild_forest hf hin.2 (isolated_not_above hf hin hp.1)
    obtain ⟨h1, e1, e2, e3, e4, e5, e6⟩ := ihm (h := addChild h p n) (p := n) hf1 hk (by
      intro x hx
      have hxn : x ≠ n := by rintro rfl; exact hnk hx
      have hxp : x ≠ p := by rintro rfl; exact hp.2.1 hx
      have := hi x (.inr (.inl hx))
      exact ⟨by simp only [addChild, register, upd, if_neg hxp, this.1], by simp only [addChild, register, upd, if_neg hxn, this.2]⟩) hnk
    obtain ⟨h2, g1, g2, g3, g4, g5, g6⟩ := ih (h := h1) (p := p) e2 hr (by
      intro x hx
      have hxn : x ≠ n := by rintro rfl; exact hnr hx
      have hxp : x ≠ p := by rintro rfl; exact hp.2.2 hx
      have hxk : x ∉ ids ks := fun h => hd x h x hx rfl
      have := hi x (.inr (.inr hx))
      refine ⟨?_, ?_⟩
      · rw [e5 x hxn hxk]; simp only [addChild, register, upd, if_neg hxp, this.1]
      · rw [e6 x hxk]; simp only [addChild, register, upd, if_neg hxn, this.2]) hp.2.2
    refine ⟨h2, ?_, g2, ?_, ?_, ?_, ?_⟩
    · rw [addFrom, addFrom, e1]
      exact g1
    · rw [g3, e5 p hp.1 hp.2.1]; simp [addChild, register, upd, Rose.root]
    · refine .cons ?_ ?_ g4
      · rw [g5 n (Ne.symm hp.1) hnr, e3]
        simp only [addChild, register, upd, if_neg (Ne.symm hp.1), hin.1, List.nil_append]
      · refine built_congr e4 (fun x hx => g5 x ?_ ?_)
        · rintro rfl; exact hp.2.1 hx
        · exact fun h => hd x hx x h rfl
    · intro q hq hqi
      simp only [ids, List.mem_cons, List.mem_append, not_or] at hqi
      rw [g5 q hq hqi.2.2, e5 q hqi.1 hqi.2.1]
      simp only [addChild, register, upd, if_neg hq]
    · intro x hx
      simp only [ids, List.mem_cons, List.mem_append, not_or] at hx
      rw [g6 x hx.2.2, e6 x hx.2.1]
      simp only [addChild, register, upd, if_neg hx.1]

/-- a list that is read specifies trees -/
theorem addFrom_encodes : ∀ (k : Nat) (l : List Nest), sizeOf l < k → ∀ {h h' : Heap} {p : Nat}, addFrom h p none l = .ok h' → ∃ rs, Encodes l rs
  | 0, _, hk, _, _, _, _ => by omega
  | k + 1, [], _, _, _, _, _ => ⟨[], .nil⟩
  | k + 1, .seq m :: l, _, h, h', p, he => by simp [addFrom] at he
  | k + 1, [.obj n], _, h, h', p, _ => ⟨_, .leaf .nil⟩
  | k + 1, .obj n :: .obj n' :: l, hk, h, h', p, he => by
    rw [addFrom, addFrom] at he
    obtain ⟨rs, hr⟩ := addFrom_encodes k (.obj n' :: l) (by simp at hk ⊢; omega) (h := addChild h p n) (h' := h') (p := p) (by rw [addFrom]; exact he)
    exact ⟨_, .leaf hr⟩
  | k + 1, .obj n :: .seq m :: l, hk, h, h', p, he => by
    rw [addFrom, addFrom] at he
    cases hm : addFrom (addChild h p n) n none m with
    | error e => simp [hm] at he
    | ok h1 =>
      simp only [hm] at he
      obtain ⟨ks, h1⟩ := addFrom_encodes k m (by simp at hk ⊢; omega) hm
      obtain ⟨rs, h2⟩ := addFrom_encodes k l (by simp at hk ⊢; omega) he
      exact ⟨_, .inner h1 h2⟩

theorem addFrom_error : ∀ (k : Nat) (l : List Nest), sizeOf l < k → ∀ {h : Heap} {p : Nat} {prev : Option Nat} {e : Err}, addFrom h p prev l = .error e → e = .valueError
  | 0, _, hk, _, _, _, _, _ => by omega
  | k + 1, [], _, _, _, _, _, he => by simp [addFrom] at he
  | k + 1, .obj n :: l, hk, h, p, prev, e, he => by
    rw [addFrom] at he
    exact addFrom_error k l (by simp at hk ⊢; omega) he
  | k + 1, .seq m :: l, hk, h, p, none, e, he => by
    simp only [addFrom, Except.error.injEq] at he
    exact he.symm
  | k + 1, .seq m :: l, hk, h, p, some q, e, he => by
    rw [addFrom] at he
    cases hm : addFrom h q none m with
    | error e' =>
      simp only [hm, Except.error.injEq] at he
      exact he ▸ addFrom_error k m (by simp at hk ⊢; omega) hm
    | ok h1 =>
      simp only [hm] at he
      exact addFrom_error k l (by simp at hk ⊢; omega) he

end ABX.TreeHeap
