import Verif.Proofs.Plain
import Verif.Properties.Generate
/-!
C83: the results of a plain experiment (columns 'on', 'across' and 'by', no filters, no regressors), in terms of the labels of the items.
-/
namespace ABX.Pipeline
open ExtSort ABX.Task Pairs SideOps Sampler Distances Score EndToEnd Analyze F64
variable {ρ φ δ : Type}

/-- the number of combinations of labels is at most 2^53 -/
def FewLabels (a : Args ρ) : Prop := ((a.on :: a.across).map (fun c => ((a.db.map (fun p => p.2 c)).dedup.length) ^ 2)).prod ≤ 2 ^ 53

theorem prod_perm_labels {e : Env} (he : e.Lawful) {a : Args ρ} (hp : Plain a) :
    ((allRegs e a).map (fun f => (idxOf e a f).length)).prod = ((a.on :: a.across).map (fun c => ((a.db.map (fun p => p.2 c)).dedup.length) ^ 2)).prod := by
  obtain ⟨h1, h2⟩ := regs_plain he hp (List.Perm.refl (allRegs e a))
  rw [h1, List.map_map]
  have h3 := (h2.map (fun v : Var => ((a.db.map (fun p => p.2 v.1)).dedup.length))).prod_eq
  have h4 : ((fun f => (idxOf e a f).length) ∘ columnReg e a.db) = fun v : Var => ((a.db.map (fun p => p.2 v.1)).dedup.length) := by
    funext v
    exact (he.sort _).length_eq
  rw [h4, h3]
  unfold Spec.plainVars
  generalize a.on :: a.across = cs
  induction cs with
  | nil => rfl
  | cons c cs ih => 
    rw [List.flatMap_cons, List.map_append, List.prod_append, ih, List.map_cons, List.prod_cons]
    simp [pow_two]

theorem idx_plain {e : Env} (he : e.Lawful) {a : Args ρ} (hp : Plain a) (hdb : a.db ≠ []) : ∀ f ∈ allRegs e a, 0 < (idxOf e a f).length ∧ ∀ key, ∀ t ∈ tripsSpec a key,
    Spec.regValue a.cols f t < (idxOf e a f).length := by
  obtain ⟨h1, h2⟩ := regs_plain he hp (List.Perm.refl (allRegs e a))
  rw [h1]
  intro f hf
  obtain ⟨v, hv, rfl⟩ := List.mem_map.mp hf
  have hv := h2.mem_iff.mp hv
  constructor
  · obtain ⟨p, hp'⟩ := List.exists_mem_of_ne_nil _ hdb
    have : p.2 v.1 ∈ columnIndex e.sort (a.db.map (fun p => p.2 v.1)) := by
      unfold columnIndex
      rw [(he.sort _).mem_iff, List.mem_dedup]
      exact List.mem_map_of_mem (f := fun p : Nat × Row => p.2 v.1) hp'
    exact List.length_pos_of_mem this
  · intro key t ht
    rw [regValue_plain hp e t hv]
    exact List.findIdx_lt_length.mpr ⟨_, at_mem hp he ht hv, by simp⟩

/-- C83: the results of a plain experiment.  For every level that has triplets and every combination of labels (an 'on' label of A and X, another one of B, across labels of A and B, other ones of X) of
which there are items, there is exactly one row: it has these labels, the level, the number of triplets and the mean of their ABX scores up to 2^-52.  The columns of labels are `c_1` and `c_2` for the on column and every
across column in some order, the same in all rows.  Missing: sizes beyond `Sizes` and `FewLabels` (C10, C16, C19, C20). -/
theorem C83_results_partial {e : Env} (he : e.Lawful) {a : Args ρ} (ha : a.OK) (hp : Plain a) (hdb : a.db ≠ []) {T : Task.Task ρ} (h : init e a = .ok T)
    (hpos : ∀ (i : Nat) (p : Nat × Row), a.db[i]? = some p → p.1 = i) (hfeat : a.feat.length = a.db.length) (hc : FewLabels a) (hz : Sizes a T) {c : Choices} (hl : c.Lawful)
    {getFeat : ρ → Except Err φ} {distance : φ → φ → Except Err δ} {lt : δ → δ → Bool} (hlt : ∀ x y, lt x y = true → lt y x = false) {F : File} {S : List Int}
    (hr : Ran c e T getFeat distance lt F S) :
    ∃ vars outs, vars.Perm (Spec.plainVars a.on a.across) ∧ colRegs T.regressors = vars.map (columnReg e a.db) ∧
      collapse c.sortRows (vars.map (fun v => columnIndex e.sort (a.db.map (fun p => p.2 v.1)))) F S = .ok outs.flatten ∧
      F.bys.Nodup ∧ (∀ key, key ∈ F.bys ↔ (∃ p ∈ a.db, levelKey a p.2 = key) ∧ ∃ l : Spec.Labels, l.Possible a.across ∧ Spec.group a.on a.across (itemsOf a key) l ≠ []) ∧
      List.Forall₂ (fun key out => ∃ abx : Tri → ℚ,
        (∀ l : Spec.Labels, l.Possible a.across → ∀ t ∈ Spec.group a.on a.across (itemsOf a key) l,
          Spec.IsAbx lt (Spec.recDist getFeat distance) (Spec.records a.by_ (a.db.map (·.2)) a.feat (specKey a key)) t (abx t)) ∧
        Spec.PlainResults a.on a.across vars key (Spec.group a.on a.across (itemsOf a key)) abx out) F.bys outs := by
  have hi := idx_plain he hp hdb
  obtain ⟨outs, o1, o2, o3, o4, o5⟩ := C77_results_partial he ha (.of_not_bare (by rw [hp.filters]; intro f hf; cases hf)) h hpos hfeat (.inl (by rw [hp.regressors]; intro f hf; cases hf)) (idx := idxOf e a)
    (fun f hf => ⟨(hi f hf).1, fun L _ t ht => (hi f hf).2 L.key t ht⟩) (by rw [prod_perm_labels he hp]; exact hc) hz hl hlt hr
  obtain ⟨h1, h2⟩ := regs_plain he hp o2
  refine ⟨varsOf (colRegs T.regressors), outs, h2, h1, ?_, o3, ?_, o5.imp ?_⟩
  · have : (varsOf (colRegs T.regressors)).map (fun v => columnIndex e.sort (a.db.map (fun p => p.2 v.1))) = (colRegs T.regressors).map (idxOf e a) := by
      rw [h1, List.map_map, varsOf_columnRegs]
      rfl
    rw [this]
    exact o1
  · intro key
    rw [o4]
    refine and_congr_right fun _ => ⟨fun hne => ?_, ?_⟩
    · obtain ⟨t, ht⟩ := List.exists_mem_of_ne_nil _ hne
      exact ⟨_, (trip_possible hp ht).1, List.ne_nil_of_mem (trip_possible hp ht).2⟩
    · rintro ⟨l, hl, hne⟩
      obtain ⟨t, ht⟩ := List.exists_mem_of_ne_nil _ hne
      exact List.ne_nil_of_mem (group_trips hp hl ht)
  · rintro key out ⟨abx, q1, q2⟩
    exact ⟨abx, fun l hl t ht => q1 t (group_trips hp hl ht), results_plain hp he o2 q2⟩

/-- C83: the number of triplets of a row.  With across columns it is the product of three numbers of items: those with the labels of A, those with the labels of B and those with the labels of X.  Without
across column it is N (N - 1) M, where N is the number of items of the level with the 'on' label of A and X, and M that of B. -/
theorem C83_counts (a : Args ρ) (key : List Val) (l : Spec.Labels) :
    (a.across ≠ [] → (Spec.group a.on a.across (itemsOf a key) l).length = (Spec.cell a.on a.across (itemsOf a key) l.on1 l.across1).length *
      ((Spec.cell a.on a.across (itemsOf a key) l.on2 l.across1).length * (Spec.cell a.on a.across (itemsOf a key) l.on1 l.across2).length)) ∧
    (a.across = [] → (Spec.group a.on a.across (itemsOf a key) l).length = ((itemsOf a key).filter (fun p => p.2 a.on == l.on1)).length *
      (((itemsOf a key).filter (fun p => p.2 a.on == l.on2)).length * (((itemsOf a key).filter (fun p => p.2 a.on == l.on1)).length - 1))) :=
  ⟨fun h => group_length a.on h _ l, fun h => by rw [h]; exact group_length_nil a.on (items_nodup a key) l⟩

theorem ex2_plain : Plain ex2 := ⟨rfl, rfl, rfl⟩

/-- the labels of the only kind of triplets of `ex2`: A = a in context 1, B = b in context 1, X = a in context 2 -/
def labels2 : Spec.Labels := ⟨.str "a", .str "b", fun _ => .int 1, fun _ => .int 2⟩

/-- C83, example: the experiment of `ex2` with any number of cpus meets the conditions of the theorem; its level 0 has a row for A = a, B = b in context 1 and X = a in context 2, with 2 * 2 * 1 triplets -/
example (n m : Nat) : ∃ T F S, ∃ vars : List Var, ∃ rows : List OutRow, init E0 ex2 = .ok T ∧
    Ran (choices0 (n + 1) (m + 1)) E0 T (fun r => .ok (r * r)) (fun f g => .ok (f % (g + 2) : Nat)) (fun x y => decide (x < y)) F S ∧
    collapse insArgsort (vars.map (fun v : Var => columnIndex E0.sort (ex2.db.map (fun p => p.2 v.1)))) F S = .ok rows ∧
    ∃ o ∈ rows, o.labels = vars.map (labels2.at "on") ∧ o.by_ = [.int 0] ∧ o.n = 4 := by
  obtain ⟨T, hT⟩ := init_exists (a := ex2) (by decide +kernel)
  have hlt : ∀ x y : Nat, decide (x < y) = true → decide (y < x) = false := by intro x y h; simp at h ⊢; omega
  have hz := ex2_sizes hT
  have h5 : (match init E0 ex2 with
      | .ok T => decide (∀ L ∈ T.levels, (itemsOf ex2 L.key).length ≤ 128)
      | _ => true) = true := by decide +kernel
  rw [hT] at h5
  simp only [decide_eq_true_eq] at h5
  have hl := choices0_lawful (n := n + 1) (m := m + 1) (Nat.zero_lt_succ _)
  obtain ⟨F, S, h⟩ := C77_completes_partial E0_lawful ex2_ok (.of_not_bare (by intro f hf; cases hf)) hT ⟨(1, mk "a" 1), by simp [ex2, args0], by decide +kernel⟩ (by intro f hf; cases hf) hz
    (.inr (fun L hL => (h5 L hL).trans (by norm_num))) hl (Nat.zero_lt_succ _) (getFeat := fun r => .ok (r * r))
    (distance := fun f g => .ok (f % (g + 2) : Nat)) (fun _ _ => ⟨_, rfl⟩) (fun _ _ _ _ _ _ _ _ => ⟨_, rfl⟩) 0 hlt
  have hpos : ∀ (i : Nat) (p : Nat × Row), ex2.db[i]? = some p → p.1 = i := by
    intro i p h
    have : ex2.db.map (·.1) = List.range 9 := by decide +kernel
    have h' := congrArg (·[i]?) this
    simp only [List.getElem?_map, h, Option.map_some] at h'
    obtain ⟨_, h⟩ := List.getElem?_eq_some_iff.mp h'.symm
    simpa using h.symm
  obtain ⟨vars, outs, -, -, o1, -, o2, o3⟩ := C83_results_partial E0_lawful ex2_ok ex2_plain (by decide +kernel) hT hpos (by decide +kernel) (by unfold FewLabels; decide +kernel) hz hl hlt h
  have hposs : labels2.Possible ex2.across := ⟨by decide, fun _ _ => by show (Val.int 1) ≠ .int 2; decide⟩
  have hlen : (Spec.group ex2.on ex2.across (itemsOf ex2 [.int 0]) labels2).length = 4 := by
    rw [(C83_counts ex2 [.int 0] labels2).1 (by decide +kernel)]
    decide +kernel
  have hne : Spec.group ex2.on ex2.across (itemsOf ex2 [.int 0]) labels2 ≠ [] := by intro h0; rw [h0] at hlen; cases hlen
  have hb := (o2 [.int 0]).mpr ⟨⟨(1, mk "a" 1), by simp [ex2, args0], by decide +kernel⟩, labels2, hposs, hne⟩
  obtain ⟨out, hout, abx, -, hres⟩ := forall₂_mem_left o3 _ hb
  obtain ⟨o, ho, hrow⟩ := hres.all labels2 hposs hne
  exact ⟨T, F, S, vars, _, hT, h, o1, o, List.mem_flatten.mpr ⟨out, hout, ho⟩, hrow.labels, hrow.by_, by rw [hrow.n, hlen]⟩

#print axioms C83_results_partial
#print axioms C83_counts

end ABX.Pipeline
