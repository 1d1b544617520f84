import Verif.Proofs.TaskTotal
/-! Filters without suffix: which items they leave in a level, and at which positions. -/
namespace ABX.Task
open ExtSort SideOps Sampler
variable {α β γ ρ : Type}

namespace Spec'
/-- the filters that select items hold -/
def ItemKept (a : Args ρ) (p : Nat × Row) : Prop := ∀ f ∈ a.filters, Spec.bare a.cols f = true → f.fn (fun v => p.2 v.1) = true

theorem keeps_iff {a : Args ρ} {p : Nat × Row} : Spec.keeps a.cols a.filters p = true ↔ ItemKept a p := by
  unfold Spec.keeps ItemKept
  simp only [List.all_eq_true, Bool.or_eq_true, Bool.not_eq_true']
  refine forall_congr' (fun f => forall_congr' (fun _ => ?_))
  cases Spec.bare a.cols f <;> simp

/-- in every level, the items that the filters without suffix keep come before those that they remove -/
def KeptFirst (a : Args ρ) : Prop := ∀ key, ∀ p ∈ itemsOf a key, ∀ q ∈ itemsOf a key, p.1 < q.1 → ItemKept a q → ItemKept a p

/-- this is the case without such filters -/
theorem KeptFirst.of_not_bare {a : Args ρ} (h : ∀ f ∈ a.filters, Spec.bare a.cols f = false) : KeptFirst a := by
  intro _ p _ _ _ _ _ f hf hb
  rw [h f hf] at hb
  cases hb

/-- it is also the case if among the lines with the same labels of the by columns those that are kept come first -/
theorem KeptFirst.of_rows {a : Args ρ} (h : (a.db.map (·.2)).Pairwise (fun r r' => a.by_.map r = a.by_.map r' →
    Spec.keeps a.cols a.filters (0, r') = true → Spec.keeps a.cols a.filters (0, r) = true)) : KeptFirst a := by
  intro key p hp q hq hpq hk
  have get : ∀ {p : Nat × Row}, p ∈ itemsOf a key → ∃ hi : p.1 < ((a.db.map (·.2)).filter (fun r => a.by_.map r == specKey a key)).length,
      ((a.db.map (·.2)).filter (fun r => a.by_.map r == specKey a key))[p.1] = p.2 := by
    intro p hp
    unfold itemsOf Spec.items at hp
    obtain ⟨q, hq, rfl⟩ := List.mem_map.mp hp
    obtain ⟨i, hi⟩ := List.getElem?_of_mem hq
    rw [List.getElem?_zipIdx, Option.map_eq_some_iff] at hi
    obtain ⟨r, hr, rfl⟩ := hi
    simpa using List.getElem?_eq_some_iff.mp hr
  obtain ⟨hi, hp'⟩ := get hp
  obtain ⟨hj, hq'⟩ := get hq
  have hpw := List.pairwise_iff_getElem.mp (h.filter (fun r => a.by_.map r == specKey a key)) p.1 q.1 hi hj hpq
  have e1 := List.of_mem_filter (List.getElem_mem hi)
  have e2 := List.of_mem_filter (List.getElem_mem hj)
  rw [hp'] at e1 hpw
  rw [hq'] at e2 hpw
  exact keeps_iff.mp (hpw ((beq_iff_eq.mp e1).trans (beq_iff_eq.mp e2).symm) (keeps_iff.mpr hk))
end Spec'
open Spec'

/-- the items of a level that the filters without suffix keep -/
def keptOf (a : Args ρ) (key : List Val) : List Spec.Item := Spec.kept a.cols a.filters (itemsOf a key)

theorem keptOf_not_bare {a : Args ρ} (h : ∀ f ∈ a.filters, Spec.bare a.cols f = false) (key : List Val) : keptOf a key = itemsOf a key := by
  refine List.filter_eq_self.mpr (fun p _ => keeps_iff.mpr ?_)
  intro f hf hb
  rw [h f hf] at hb
  cases hb

/-- the items of a triplet are kept -/
theorem kept_of_holds {a : Args ρ} {A B X : Spec.Item} (h : a.filters.all (fun f => Spec.holds a.cols f A.2 B.2 X.2) = true) :
    ItemKept a A ∧ ItemKept a B ∧ ItemKept a X := by
  have : ∀ f ∈ a.filters, Spec.bare a.cols f = true → (f.fn (fun v => A.2 v.1) = true ∧ f.fn (fun v => B.2 v.1) = true) ∧ f.fn (fun v => X.2 v.1) = true := by
    intro f hf hb
    have hh := List.all_eq_true.mp h f hf
    unfold Spec.holds at hh
    rw [if_pos] at hh
    · simpa using hh
    · intro v hv
      unfold Spec.bare at hb
      rw [Bool.and_eq_true, List.all_eq_true] at hb
      simpa using hb.2 v hv
  exact ⟨fun f hf hb => (this f hf hb).1.1, fun f hf hb => (this f hf hb).1.2, fun f hf hb => (this f hf hb).2⟩

theorem filter_takeWhile {P : α → Bool} : ∀ {l : List α}, l.Pairwise (fun x y => P y = true → P x = true) → l.filter P = l.takeWhile P
  | [], _ => rfl
  | x :: l, h => by
    rw [List.pairwise_cons] at h
    cases hx : P x with
    | true => rw [List.filter_cons_of_pos hx, List.takeWhile_cons_of_pos hx, filter_takeWhile h.2]
    | false =>
      rw [List.filter_cons_of_neg (by simp [hx]), List.takeWhile_cons_of_neg (by simp [hx]), List.filter_eq_nil_iff]
      intro y hy hP
      rw [h.1 y hy hP] at hx
      cases hx

theorem positional_takeWhile {fr : Frame} (h : Positional fr) (P : Nat × Row → Bool) : Positional (fr.takeWhile P) := by
  intro i p hp
  obtain ⟨hi, rfl⟩ := List.getElem?_eq_some_iff.mp hp
  have := (List.takeWhile_prefix (l := fr) P).getElem hi
  exact h i _ (by rw [this]; exact List.getElem?_eq_getElem _)

section
variable {e : Env} (he : e.Lawful) {a : Args ρ} (ha : a.OK) {T : Task ρ} (h : init e a = .ok T) {L : Level ρ} {fr0 : Frame} (I : InitLevel e a T L fr0)
include ha h I

/-- what the operations of the stage `generic` say of an item -/
theorem generic_kept {p q : Nat × Row} (hpq : Sim a.columns p q) :
    (T.filters.ops .generic).all (fun f => f.fn (fun v => p.2 v.1)) = true ↔ ItemKept a q := by
  rw [List.all_eq_true]
  have hm := (init_ok h).2.2.2.2.1
  have hfn : ∀ f ∈ a.filters, f.fn (fun v => p.2 v.1) = f.fn (fun v => q.2 v.1) := fun f hf => f.ext _ _ (fun v hv => hpq.2 _ (ha.inF f hf v hv))
  constructor
  · intro h1 f hf hb
    rw [← hfn f hf]
    exact h1 f ((ops_generic hm f).mpr ⟨hf, hb⟩)
  · intro h1 f hf
    obtain ⟨hf, hb⟩ := (ops_generic hm f).mp hf
    rw [hfn f hf]
    exact h1 f hf hb

/-- the rows of a level are the kept items -/
theorem frame_kept : List.Forall₂ (Sim a.columns) L.frame (keptOf a L.key) := by
  rw [I.hyp.frame]
  refine forall₂_filter ?_ I.sim
  intro p q hpq
  rw [Bool.eq_iff_iff, generic_kept ha h I hpq, keeps_iff]

theorem positional_kept (hk : KeptFirst a) : Positional L.frame := by
  have hp0 : Positional fr0 := by rw [I.group]; exact resetIndex_positional _
  rw [I.hyp.frame, filter_takeWhile]
  · exact positional_takeWhile hp0 _
  · rw [List.pairwise_iff_getElem]
    intro i j hi hj hij hj'
    obtain ⟨p, hp, hpp⟩ := forall₂_mem_left I.sim _ (List.getElem_mem hi)
    obtain ⟨q, hq, hqq⟩ := forall₂_mem_left I.sim _ (List.getElem_mem hj)
    rw [generic_kept ha h I hpp]
    rw [generic_kept ha h I hqq] at hj'
    refine hk L.key p hp q hq ?_ hj'
    rw [← hpp.1, ← hqq.1, hp0 i _ (List.getElem?_eq_getElem hi), hp0 j _ (List.getElem?_eq_getElem hj)]
    exact hij

end

end ABX.Task
