import Verif.Spec.Total
import Verif.Properties.TripletScores
/-!
Sums over the rows of the results.
-/
namespace ABX.Pipeline
open ExtSort ABX.Task Pairs SideOps Sampler Distances Score EndToEnd Analyze F64 ABX.Spec

theorem sum_map_append {α : Type} (f : α → ℚ) (l m : List α) : ((l ++ m).map f).sum = (l.map f).sum + (m.map f).sum := by simp

theorem sum_single {κ : Type} [DecidableEq κ] (k : κ) (x : ℚ) {cs : List κ} (hnd : cs.Nodup) (hm : k ∈ cs) : (cs.map (fun c => if k = c then x else 0)).sum = x := by
  induction cs with
  | nil => cases hm
  | cons c cs ih =>
    rw [List.nodup_cons] at hnd
    rw [List.map_cons, List.sum_cons]
    by_cases hc : k = c
    · have : (cs.map (fun c => if k = c then x else 0)).sum = 0 := by
        apply List.sum_eq_zero
        intro y hy
        obtain ⟨d, hd, rfl⟩ := List.mem_map.mp hy
        rw [if_neg]
        rintro e
        exact hnd.1 (by rw [← hc, e]; exact hd)
      rw [if_pos hc, this, add_zero]
    · rw [if_neg hc, zero_add]
      rcases List.mem_cons.mp hm with e | e
      · exact absurd e hc
      · exact ih hnd.2 e

/-- the elements of a list by the values of a function -/
theorem sum_combos {α κ : Type} [DecidableEq κ] [BEq κ] [LawfulBEq κ] (v : α → κ) (g : α → ℚ) {cs : List κ} (hnd : cs.Nodup) : ∀ Q : List α, (∀ t ∈ Q, v t ∈ cs) →
    (cs.map (fun c => ((Q.filter (fun t => v t == c)).map g).sum)).sum = (Q.map g).sum := by
  intro Q
  induction Q with
  | nil => intro _; simp
  | cons t Q ih =>
    intro h
    have ih := ih (fun x hx => h x (List.mem_cons_of_mem _ hx))
    have key : ∀ c, (((t :: Q).filter (fun t => v t == c)).map g).sum = (if v t = c then g t else 0) + ((Q.filter (fun t => v t == c)).map g).sum := by
      intro c
      by_cases hc : v t = c
      · simp [hc]
      · simp [hc]
    simp only [key]
    rw [List.sum_map_add, ih, List.map_cons, List.sum_cons, sum_single _ _ hnd (h t (List.mem_cons_self ..))]

theorem _root_.ABX.Spec.Sums.append {out out' : List OutRow} {s s' : List Int} (h : Sums out s) (h' : Sums out' s') : Sums (out ++ out') (s ++ s') := by
  constructor
  · rw [List.map_append, List.sum_append, List.length_append, h.count, h'.count]
  · rw [sum_map_append, sum_map_append, List.length_append, Nat.cast_add, add_mul]
    refine le_trans (le_of_eq ?_) ((abs_add_le _ _).trans (add_le_add h.total h'.total))
    congr 1
    ring

theorem _root_.ABX.Spec.Sums.flatten {outs : List (List OutRow)} {ss : List (List Int)} (h : List.Forall₂ Sums outs ss) : Sums outs.flatten ss.flatten := by
  induction h with
  | nil => exact ⟨rfl, by simp⟩
  | cons a _ ih => exact a.append ih

/-- the rows of a level -/
theorem _root_.ABX.Spec.Sums.of_results {labels : List (List Val)} {key : List Val} {value : Tri → List Nat} {abx : Tri → ℚ} {w : Tri → Int} {Q : List Tri} {out : List OutRow} (h : Spec.Results labels key value abx Q out)
    (hw : ∀ t ∈ Q, abx t = ((w t : ℚ) + 1) / 2) : Sums out (Q.map w) ∧ ∀ o ∈ out, o.by_ = key := by
  obtain ⟨combos, c1, c2, c3⟩ := h
  have hnd : combos.Nodup := c1.imp (fun hlt he => by subst he; exact lt_irrefl _ hlt)
  have hmem : ∀ t ∈ Q, value t ∈ combos := fun t ht => (c2 _).mpr ⟨t, ht, rfl⟩
  have hn : out.map (·.n) = combos.map (fun c => (Q.filter (fun t => value t == c)).length) := by
    refine forall₂_map_eq (c3.imp ?_)
    intro c o ho
    exact ho.2.2.1
  refine ⟨⟨?_, ?_⟩, ?_⟩
  · have := sum_combos value (fun _ => (1 : ℚ)) hnd Q hmem
    rw [hn, List.length_map]
    simp only [List.map_const', List.sum_replicate, nsmul_eq_mul, mul_one] at this
    have h2 : (((combos.map (fun c => (Q.filter (fun t => value t == c)).length)).sum : Nat) : ℚ) = (Q.length : ℚ) := by
      rw [← this, Nat.cast_list_sum, List.map_map]
      simp [Function.comp_def]
    exact_mod_cast h2
  · have hs : ((Q.map w).map (fun x : Int => ((x : ℚ) + 1) / 2)).sum = (combos.map (fun c => ((Q.filter (fun t => value t == c)).map abx).sum)).sum := by
      rw [sum_combos value abx hnd Q hmem, List.map_map]
      congr 1
      apply List.map_congr_left
      intro t ht
      exact (hw t ht).symm
    have hl : ((Q.map w).length : ℚ) = ((out.map (·.n)).sum : Nat) := by
      have := sum_combos value (fun _ => (1 : ℚ)) hnd Q hmem
      rw [hn, List.length_map]
      simp only [List.map_const', List.sum_replicate, nsmul_eq_mul, mul_one] at this
      rw [← this, Nat.cast_list_sum, List.map_map]
      simp [Function.comp_def]
    rw [hs, hl]
    clear hs hl hn hnd c1 hmem
    have hpos : ∀ c ∈ combos, 0 < (Q.filter (fun t => value t == c)).length := by
      intro c hc
      obtain ⟨t, ht, e⟩ := (c2 c).mp hc
      exact List.length_pos_of_mem (List.mem_filter.mpr ⟨ht, by simp [e]⟩)
    clear c2
    induction c3 with
    | nil => simp
    | @cons c o cs os hco _ ih =>
      have ih := ih (fun d hd => hpos d (List.mem_cons_of_mem _ hd))
      have hp := hpos c (List.mem_cons_self ..)
      obtain ⟨-, -, h3, -, h5, -⟩ := hco
      have hn0 : (0 : ℚ) < (o.n : ℚ) := by rw [h3]; exact_mod_cast hp
      have hone : |(o.n : ℚ) * o.score - ((Q.filter (fun t => value t == c)).map abx).sum| ≤ (o.n : ℚ) * 2 ^ (-52 : ℤ) := by
        have e : (o.n : ℚ) * o.score - ((Q.filter (fun t => value t == c)).map abx).sum = (o.n : ℚ) * (o.score - ((Q.filter (fun t => value t == c)).map abx).sum / o.n) := by
          field_simp
        rw [e, abs_mul, abs_of_pos hn0]
        exact mul_le_mul_of_nonneg_left h5 hn0.le
      simp only [List.map_cons, List.sum_cons, Nat.cast_add, add_mul]
      refine le_trans (le_of_eq ?_) ((abs_add_le _ _).trans (add_le_add hone ih))
      congr 1
      ring
  · intro o ho
    obtain ⟨i, hi⟩ := List.getElem?_of_mem ho
    obtain ⟨c, -, hc⟩ := Distances.forall₂_getElem c3.flip hi
    exact hc.2.1

/-- the slices of a list by consecutive intervals -/
theorem slices_flatten {α : Type} (l : List α) : ∀ (lens : List Nat) (i : Nat), i + lens.sum = l.length → ((intervals i lens).map (fun p => npSlice l p.1 p.2)).flatten = l.drop i := by
  intro lens
  induction lens with
  | nil =>
    intro i h
    simp only [List.sum_nil, add_zero] at h
    simp [intervals, h]
  | cons n ns ih =>
    intro i h
    rw [List.sum_cons] at h
    unfold intervals
    rw [List.map_cons, List.flatten_cons, ih (i + n) (by omega)]
    unfold npSlice
    rw [← List.drop_drop]
    have : List.drop i (List.take (i + n) l) = List.take n (List.drop i l) := by rw [List.drop_take]; congr 1; omega
    rw [this, List.take_append_drop]

/-- the scores without the lines -/
theorem scoredLines_snd {by_ : List String} {rows : List Row} {F : File} {S : List Int} {lens : List Nat} (hi : F.byIndex = (intervals 0 lens).map (fun p => ((p.1 : Int), (p.2 : Int)))) (hb : F.bys.length = F.byIndex.length) (hl : S.length = F.data.length)
    (hs : lens.sum = F.data.length) : (scoredLines by_ rows F S).map (·.2) = S := by
  unfold scoredLines
  rw [List.map_flatMap]
  have e1 : ((F.bys.zip F.byIndex).flatMap fun p => npSlice S p.2.1.toNat p.2.2.toNat) = S := by
    have : (F.bys.zip F.byIndex).flatMap (fun p => npSlice S p.2.1.toNat p.2.2.toNat) = (F.byIndex.map (fun q => npSlice S q.1.toNat q.2.toNat)).flatten := by
      rw [← List.flatMap_def]
      conv_rhs => rw [← List.map_snd_zip hb.ge, List.flatMap_map]
    rw [this, hi, List.map_map]
    have := slices_flatten S lens 0 (by omega)
    rw [List.drop_zero] at this
    conv_rhs => rw [← this]
    simp [Function.comp_def]
  conv_rhs => rw [← e1]
  congr 1
  funext p
  dsimp only
  have e : S = (F.data.zip S).map (·.2) := (List.map_snd_zip hl.le).symm
  unfold npSlice
  conv_rhs => rw [e]
  rw [List.map_map, ← List.map_take, ← List.map_drop]
  rfl

end ABX.Pipeline
