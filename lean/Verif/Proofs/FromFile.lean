import Verif.Properties.Database
import Verif.Properties.Tree
import Verif.Properties.TaskTotal
/-! Tasks created from an item file. -/
namespace ABX.Database
open Spec

theorem rootOf_flat (cs : List Text) (col : String) :
    Tree.rootOf (cs.map leafNamed) col = if col ∈ cs.map String.ofList then some (leafNamed col.toList) else none := by
  unfold Tree.rootOf
  induction cs with
  | nil => simp
  | cons c cs ih =>
    rw [List.map_cons, List.map_cons, List.findSome?_cons]
    have hf : Tree.findChild (leafNamed c) [fun x => Tree.nameOf x == some col] [] = if String.ofList c = col then some (leafNamed c) else none := by
      by_cases h : String.ofList c = col <;>
      simp [Tree.findChild, Tree.find, Tree.kwLoop, leafNamed, Tree.preOrder, Tree.preOrders, Tree.nameOf, Tree.getAttr, Tree.Tree.attrs, h]
    rw [hf]
    by_cases h : String.ofList c = col
    · subst h
      simp
    · rw [if_neg h]
      simp only [id, List.map_map] at ih ⊢
      rw [ih]
      have : (col ∈ String.ofList c :: List.map String.ofList cs) ↔ col ∈ List.map String.ofList cs := by
        simp [Ne.symm h]
      simp only [List.map_cons, this]

theorem namesBelow_leaf (c : String) : Tree.namesBelow (leafNamed c.toList) = [c] := by
  simp [Tree.namesBelow, leafNamed, Tree.preOrder, Tree.preOrders, Tree.nameOf, Tree.getAttr, Tree.Tree.attrs]

theorem hier_flat_list (cs : List Text) (l : List String) (h : ∀ c ∈ l, c ∈ cs.map String.ofList) :
    (l.filterMap (Tree.rootOf (cs.map leafNamed))).flatMap Tree.namesBelow = l := by
  induction l with
  | nil => rfl
  | cons c l ih =>
    rw [List.filterMap_cons, rootOf_flat, if_pos (h c (by simp))]
    simp only [List.flatMap_cons, namesBelow_leaf, ih (fun d hd => h d (by simp [hd]))]
    rfl

theorem hierCols_flat {cs : List Text} {on : String} {across by_ : List String} (h1 : on ∈ cs.map String.ofList) (h2 : ∀ c ∈ across, c ∈ cs.map String.ofList)
    (h3 : ∀ c ∈ by_, c ∈ cs.map String.ofList) : Tree.hierCols (cs.map leafNamed) on across by_ = .ok ⟨[on], across, by_⟩ := by
  unfold Tree.hierCols
  rw [rootOf_flat, if_pos h1]
  simp only [namesBelow_leaf, hier_flat_list cs across h2, hier_flat_list cs by_ h3]

theorem hierCols_none {cs : List Text} {on : String} {across by_ : List String} (h1 : on ∉ cs.map String.ofList) :
    Tree.hierCols (cs.map leafNamed) on across by_ = .error .nameError := by
  unfold Tree.hierCols
  rw [rootOf_flat, if_neg h1]

theorem hierCols_ok {cs : List Text} {on : String} {across by_ : List String} (h1 : on ∈ cs.map String.ofList) :
    ∃ c, Tree.hierCols (cs.map leafNamed) on across by_ = .ok c := by
  unfold Tree.hierCols
  rw [rootOf_flat, if_pos h1]
  exact ⟨_, rfl⟩

/-- a complete line has a label in each column -/
theorem label_toRow {r : Raw Val} {first : Nat} {labels : List Text} (hlen : r.columns.length = first + labels.length) {p : List (Option Val) × Nat}
    (hp : p ∈ complete r first) {c : String} (hc : c ∈ labels.map String.ofList) :
    fieldAt p.1 (first + labels.findIdx (fun d => String.ofList d == c)) =
      some (toRow labels ((List.range' first labels.length).map (fieldAt p.1)) c) := by
  have hi : labels.findIdx (fun d => String.ofList d == c) < labels.length := by
    obtain ⟨d, hd, rfl⟩ := List.mem_map.mp hc
    exact List.findIdx_lt_length_of_exists ⟨d, hd, by simp⟩
  unfold complete at hp
  have hall := List.all_eq_true.mp (List.mem_filter.mp hp).2 (first + labels.findIdx (fun d => String.ofList d == c)) (by
    rw [List.mem_range'_1, hlen]; omega)
  obtain ⟨v, hv⟩ := Option.isSome_iff_exists.mp hall
  unfold toRow
  generalize labels.findIdx (fun d => String.ofList d == c) = j at *
  have h2 : fieldAt ((List.range' first labels.length).map (fieldAt p.1)) j = some v := by
    unfold fieldAt
    rw [List.getElem?_map, List.getElem?_range' hi]
    simp only [Option.map_some, Nat.one_mul]
    exact hv
  rw [h2]
  exact hv

/-- an increasing list of n numbers that is not 0, ..., n-1 has a member that is at least n -/
theorem increasing_range {l : List Nat} (h : l.Pairwise (· < ·)) (hb : ∀ x ∈ l, x < l.length) : l = List.range l.length := by
  have key : ∀ (l : List Nat) (k : Nat), l.Pairwise (· < ·) → (∀ x ∈ l, k ≤ x ∧ x < k + l.length) → l = List.range' k l.length := by
    intro l
    induction l with
    | nil => intros; rfl
    | cons x l ih =>
      intro k hp hb
      obtain ⟨h1, h2⟩ := List.pairwise_cons.mp hp
      have hge : ∀ (l : List Nat) (x : Nat), l.Pairwise (· < ·) → (∀ y ∈ l, x < y) → ∀ b, (∀ y ∈ l, y < b) → x < b → x + l.length < b := by
        intro l
        induction l with
        | nil => intro x _ _ b _ hb; simpa using hb
        | cons y l ih =>
          intro x hp hx b hb _
          obtain ⟨g1, g2⟩ := List.pairwise_cons.mp hp
          have := ih y g2 g1 b (fun z hz => hb z (by simp [hz])) (hb y (by simp))
          have := hx y (by simp)
          simp only [List.length_cons]
          omega
      have hx := hb x (by simp)
      simp only [List.length_cons] at hb hx
      have := hge l x h2 h1 (k + (l.length + 1)) (fun y hy => (hb y (by simp [hy])).2) hx.2
      have hxk : x = k := by omega
      subst hxk
      rw [List.length_cons, List.range'_succ, ← ih (x + 1) h2 (fun y hy => ⟨h1 y hy, by have := (hb y (by simp [hy])).2; omega⟩)]
  rw [List.range_eq_range']
  exact key l 0 h (fun x hx => ⟨Nat.zero_le _, by simpa using hb x hx⟩)

theorem complete_increasing (r : Raw β) (k : Nat) : ((complete r k).map (·.2)).Pairwise (· < ·) := by
  unfold complete
  have h1 : (r.rows.zipIdx.map (·.2)).Pairwise (· < ·) := by
    rw [List.zipIdx_map_snd]
    exact List.pairwise_lt_range'
  rw [List.pairwise_map] at h1 ⊢
  exact h1.filter _

end ABX.Database
