import Verif.Spec.Generate
import Verif.Proofs.TaskGenTotal
import Verif.Proofs.TaskLabels
/-! When `generate` succeeds: regressors that mix items, and the sizes. -/
namespace ABX.Task
open ExtSort SideOps Sampler
variable {α β γ ρ : Type}

theorem kindA (c : Cols) (v : Var) : (v.2 == Ext.A && !c.by_.contains v.1 && !c.on.contains v.1) = (!c.by_.contains v.1 && condition c v && getExt c v == .A) := by
  obtain ⟨r, e⟩ := v
  simp only [condition, getExt]
  generalize c.by_.contains r = b
  generalize c.on.contains r = o
  cases e <;> cases b <;> cases o <;> decide

theorem kindB (c : Cols) (v : Var) : (!c.by_.contains v.1 && (v.2 == Ext.B || (v.2 == .two && c.on.contains v.1))) = (!c.by_.contains v.1 && condition c v && getExt c v == .B) := by
  obtain ⟨r, e⟩ := v
  simp only [condition, getExt]
  generalize c.by_.contains r = b
  generalize c.on.contains r = o
  cases e <;> cases b <;> cases o <;> decide

theorem kindX (c : Cols) (v : Var) : (!c.by_.contains v.1 && !c.on.contains v.1 && (v.2 == Ext.X || v.2 == .two)) = (!c.by_.contains v.1 && condition c v && getExt c v == .X) := by
  obtain ⟨r, e⟩ := v
  simp only [condition, getExt]
  generalize c.by_.contains r = b
  generalize c.on.contains r = o
  cases e <;> cases b <;> cases o <;> decide

theorem kind_some {c : Cols} {v : Var} (h : condition c v = true) (hn : v.2 ≠ .none) : getExt c v = .A ∨ getExt c v = .B ∨ getExt c v = .X := by
  obtain ⟨r, e⟩ := v
  simp only [condition, getExt] at *
  generalize c.on.contains r = o at *
  cases e <;> cases o <;> revert h hn <;> decide

theorem sum_map_le {f g : α → Nat} (k : Nat) : ∀ {l : List α}, (∀ x ∈ l, k * f x ≤ g x) → k * (l.map f).sum ≤ (l.map g).sum
  | [], _ => by simp
  | x :: l, h => by
    have ih := sum_map_le k (l := l) (fun y hy => h y (by simp [hy]))
    have := h x (by simp)
    simp only [List.map_cons, List.sum_cons, Nat.mul_add]
    omega

theorem place_abx {g : Bool} {c : Cols} {f : DBFun β} {p : Placed β} (h : place g c f = .ok p) : p.stage = .ABX ↔ Spec.mixed c f = true := by
  unfold place at h
  split at h
  · cases h
  rename_i u hu
  dsimp only at h
  split at h
  · rename_i hby
    cases h
    rw [List.all_eq_true] at hby
    have n : ∀ P : Var → Bool, f.inputs.any (fun v => !c.by_.contains v.1 && P v) = false := by
      intro P
      rw [List.any_eq_false]
      intro v hv
      rw [hby v hv]
      simp
    have nb : Spec.readsB c f = false := n _
    have nx : Spec.readsX c f = false := by unfold Spec.readsX; simp only [Bool.and_assoc]; exact n _
    simp [Spec.mixed, nb, nx]
  rename_i hby
  split at h
  · rename_i hgen
    rw [List.all_eq_true] at hgen
    have n : ∀ P : Var → Bool, (∀ r, P (r, .none) = false) → f.inputs.any (fun v => !c.by_.contains v.1 && P v) = false := by
      intro P hP
      rw [List.any_eq_false]
      rintro ⟨r, x⟩ hv
      by_cases hb : c.by_.contains r
      · simp only [hb, Bool.not_true, Bool.false_and]; simp
      · have := hgen (r, x) (List.mem_filter.mpr ⟨hv, by simpa using hb⟩)
        have hx : x = .none := by simpa using this
        rw [hx, hP]
        simp
    have nb : Spec.readsB c f = false := n (fun v => v.2 == .B || (v.2 == .two && c.on.contains v.1)) (fun r => by simp)
    have nx : Spec.readsX c f = false := by
      unfold Spec.readsX
      simp only [Bool.and_assoc]
      exact n (fun v => !c.on.contains v.1 && (v.2 == .X || v.2 == .two)) (fun r => by simp)
    split at h
    · cases h
      simp [Spec.mixed, nb, nx]
    · cases h
  split at h
  · cases h
  rename_i hnone
  have hnone' : ∀ v ∈ f.inputs, v.1 ∉ c.by_ → v.2 ≠ .none := by
    intro v hv hb h0
    exact hnone (List.any_eq_true.mpr ⟨v, List.mem_filter.mpr ⟨hv, by simpa using hb⟩, by simp [h0]⟩)
  generalize hels : (f.inputs.filter (fun v => !c.by_.contains v.1)).filter (condition c) = els at h
  have hm : ∀ v, v ∈ els ↔ v ∈ f.inputs ∧ v.1 ∉ c.by_ ∧ condition c v = true := by
    intro v
    rw [← hels, List.mem_filter, List.mem_filter]
    simp [and_assoc]
  have rA : Spec.readsA c f = true ↔ ∃ v ∈ els, getExt c v = .A := by
    unfold Spec.readsA
    simp only [kindA, List.any_eq_true]
    constructor
    · rintro ⟨v, hv, hp⟩
      simp only [Bool.and_eq_true, beq_iff_eq, Bool.not_eq_true', List.contains_eq_mem, decide_eq_false_iff_not] at hp
      exact ⟨v, (hm v).mpr ⟨hv, hp.1.1, hp.1.2⟩, hp.2⟩
    · rintro ⟨v, hv, hp⟩
      obtain ⟨h1, h2, h3⟩ := (hm v).mp hv
      exact ⟨v, h1, by simp [h2, h3, hp]⟩
  have rB : Spec.readsB c f = true ↔ ∃ v ∈ els, getExt c v = .B := by
    unfold Spec.readsB
    simp only [kindB, List.any_eq_true]
    constructor
    · rintro ⟨v, hv, hp⟩
      simp only [Bool.and_eq_true, beq_iff_eq, Bool.not_eq_true', List.contains_eq_mem, decide_eq_false_iff_not] at hp
      exact ⟨v, (hm v).mpr ⟨hv, hp.1.1, hp.1.2⟩, hp.2⟩
    · rintro ⟨v, hv, hp⟩
      obtain ⟨h1, h2, h3⟩ := (hm v).mp hv
      exact ⟨v, h1, by simp [h2, h3, hp]⟩
  have rX : Spec.readsX c f = true ↔ ∃ v ∈ els, getExt c v = .X := by
    unfold Spec.readsX
    simp only [kindX, List.any_eq_true]
    constructor
    · rintro ⟨v, hv, hp⟩
      simp only [Bool.and_eq_true, beq_iff_eq, Bool.not_eq_true', List.contains_eq_mem, decide_eq_false_iff_not] at hp
      exact ⟨v, (hm v).mpr ⟨hv, hp.1.1, hp.1.2⟩, hp.2⟩
    · rintro ⟨v, hv, hp⟩
      obtain ⟨h1, h2, h3⟩ := (hm v).mp hv
      exact ⟨v, h1, by simp [h2, h3, hp]⟩
  have hext : ∀ v ∈ els, getExt c v = .A ∨ getExt c v = .B ∨ getExt c v = .X := by
    intro v hv
    obtain ⟨h1, h2, h3⟩ := (hm v).mp hv
    exact kind_some h3 (hnone' v h1 h2)
  have hmix : Spec.mixed c f = true ↔ (∃ v ∈ els, getExt c v ≠ .A) ∧ (∃ v ∈ els, getExt c v ≠ .B) ∧ (∃ v ∈ els, getExt c v ≠ .X) := by
    simp only [Spec.mixed, Bool.or_eq_true, Bool.and_eq_true, rA, rB, rX]
    constructor
    · rintro ((⟨⟨v, hv, h1⟩, w, hw, h2⟩ | ⟨⟨v, hv, h1⟩, w, hw, h2⟩) | ⟨⟨v, hv, h1⟩, w, hw, h2⟩)
      · exact ⟨⟨w, hw, by rw [h2]; simp⟩, ⟨v, hv, by rw [h1]; simp⟩, ⟨v, hv, by rw [h1]; simp⟩⟩
      · exact ⟨⟨w, hw, by rw [h2]; simp⟩, ⟨v, hv, by rw [h1]; simp⟩, ⟨v, hv, by rw [h1]; simp⟩⟩
      · exact ⟨⟨w, hw, by rw [h2]; simp⟩, ⟨w, hw, by rw [h2]; simp⟩, ⟨v, hv, by rw [h1]; simp⟩⟩
    · rintro ⟨⟨u, hu, h1⟩, ⟨v, hv, h2⟩, ⟨w, hw, h3⟩⟩
      rcases hext u hu with h | h | h <;> rcases hext v hv with h' | h' | h' <;> rcases hext w hw with h'' | h'' | h'' <;>
        first
        | exact absurd h h1
        | exact absurd h' h2
        | exact absurd h'' h3
        | exact .inl (.inl ⟨⟨v, hv, h'⟩, u, hu, h⟩)
        | exact .inl (.inr ⟨⟨v, hv, h'⟩, u, hu, h⟩)
        | exact .inl (.inl ⟨⟨w, hw, h''⟩, u, hu, h⟩)
        | exact .inl (.inr ⟨⟨w, hw, h''⟩, u, hu, h⟩)
        | exact .inr ⟨⟨u, hu, h⟩, v, hv, h'⟩
        | exact .inr ⟨⟨w, hw, h''⟩, u, hu, h⟩
  rw [hmix]
  split at h
  · rename_i he
    cases h
    rw [List.isEmpty_iff] at he
    simp [he]
  · cases h
    dsimp only
    split
    · rename_i hh
      rw [List.all_eq_true] at hh
      constructor
      · intro h0; cases h0
      · rintro ⟨⟨v, hv, h1⟩, -⟩
        exact absurd (by simpa using hh v hv) h1
    split
    · rename_i hh
      rw [List.all_eq_true] at hh
      constructor
      · intro h0; cases h0
      · rintro ⟨-, ⟨v, hv, h1⟩, -⟩
        exact absurd (by simpa using hh v hv) h1
    split
    · rename_i hh
      rw [List.all_eq_true] at hh
      constructor
      · intro h0; cases h0
      · rintro ⟨-, -, ⟨v, hv, h1⟩⟩
        exact absurd (by simpa using hh v hv) h1
    rename_i h1 h2 h3
    simp only [List.all_eq_true, beq_iff_eq, not_forall, exists_prop] at h1 h2 h3
    exact iff_of_true rfl ⟨h1, h2, h3⟩

theorem mgr_abx {g : Bool} {c : Cols} {fs : List (DBFun β)} {m : Mgr β} (h : mgr g c fs = .ok m) : m.ops .ABX = [] ↔ ∀ f ∈ fs, Spec.mixed c f = false := by
  have hF := mgr_forall₂ h
  constructor
  · intro h0 f hf
    obtain ⟨p, hp, hpl⟩ := forall₂_mem_left hF f hf
    by_contra hne
    have := (place_abx hpl).mpr (by simpa using hne)
    have : p.op ∈ m.ops .ABX := mem_ops.mpr ⟨p, hp, this, rfl⟩
    rw [h0] at this
    cases this
  · intro hn
    rw [List.eq_nil_iff_forall_not_mem]
    intro f hf
    obtain ⟨p, hp, hs, rfl⟩ := mem_ops.mp hf
    obtain ⟨f, hf, hpl⟩ := forall₂_mem_right hF p hp
    have h1 := hn f hf
    rw [(place_abx hpl).mp hs] at h1
    cases h1

theorem default_mixed {e : Env} {a : Args ρ} {fr : Frame} : ∀ f ∈ defaultRegs e a fr, Spec.mixed a.cols f = false := by
  intro f hf
  unfold defaultRegs at hf
  simp only [List.mem_append, List.mem_cons, List.not_mem_nil, or_false, List.mem_flatMap] at hf
  rcases hf with (rfl | rfl) | ⟨c, _, rfl | rfl⟩ <;> simp [columnReg, Spec.mixed, Spec.readsA, Spec.readsB, Spec.readsX] <;> tauto

/-- classes of elements with distinct keys -/
theorem sum_filter_le {κ : Type} [BEq κ] [LawfulBEq κ] (f : α → κ) : ∀ {keys : List κ} (_ : keys.Nodup) (l : List α), (keys.map (fun k => (l.filter (fun x => f x == k)).length)).sum ≤ l.length
  | [], _, _ => by simp
  | k :: ks, hn, l => by
    rw [List.nodup_cons] at hn
    have ih := sum_filter_le f hn.2 (l.filter (fun x => !(f x == k)))
    have : ks.map (fun k' => ((l.filter (fun x => !(f x == k))).filter (fun x => f x == k')).length) = ks.map (fun k' => (l.filter (fun x => f x == k')).length) := by
      apply List.map_congr_left
      intro k' hk'
      rw [List.filter_filter]
      congr 1
      apply List.filter_congr
      intro x _
      by_cases h : f x = k'
      · have : f x ≠ k := fun h0 => hn.1 (by rw [← h0, h]; exact hk')
        simp [h, h ▸ this]
      · simp [h]
    rw [this] at ih
    rw [List.map_cons, List.sum_cons]
    have hc := List.length_eq_length_filter_add (l := l) (fun x => f x == k)
    omega

theorem sum_cubes_le : ∀ l : List Nat, (l.map (fun n => n * n * n)).sum ≤ l.sum * l.sum * l.sum
  | [] => by simp
  | n :: l => by
    rw [List.map_cons, List.sum_cons, List.sum_cons]
    have := sum_cubes_le l
    nlinarith [Nat.zero_le (n * n * l.sum), Nat.zero_le (n * l.sum * l.sum)]

/-- exchanging A and B makes a legal triple illegal -/
theorem legal_half {c : Cols} {on : String} {across : List String} {fs : List (DBFun Bool)} {its : List (Nat × Row)} (hn : its.Nodup) :
    2 * (Spec.itemTriplets c on across fs its).length ≤ its.length * its.length * its.length := by
  have hl : (Spec.triples its).length = its.length * its.length * its.length := prod3_length its its its
  have hnd : (Spec.triples its).Nodup := prod3_nodup hn hn hn
  have hsplit := List.length_eq_length_filter_add (l := Spec.triples its) (fun t => Spec.legal on across t.1 t.2.1 t.2.2)
  have h1 : (Spec.itemTriplets c on across fs its).length ≤ ((Spec.triples its).filter (fun t => Spec.legal on across t.1 t.2.1 t.2.2)).length := by
    unfold Spec.itemTriplets
    refine (List.Sublist.length_le ?_)
    exact List.monotone_filter_right _ (fun t ht => by rw [Bool.and_eq_true] at ht; exact ht.1)
  have h2 : ((Spec.triples its).filter (fun t => Spec.legal on across t.1 t.2.1 t.2.2)).length ≤ ((Spec.triples its).filter (fun t => !(Spec.legal on across t.1 t.2.1 t.2.2))).length := by
    have hs : (((Spec.triples its).filter (fun t => Spec.legal on across t.1 t.2.1 t.2.2)).map (fun t : Tri => ((t.2.1, t.1, t.2.2) : Tri))).Nodup := by
      refine List.Nodup.map ?_ (hnd.filter _)
      rintro ⟨a, b, x⟩ ⟨a', b', x'⟩ h
      simp only [Prod.mk.injEq] at h
      obtain ⟨rfl, rfl, rfl⟩ := h
      rfl
    have := (List.subperm_of_subset hs (l₂ := (Spec.triples its).filter (fun t => !(Spec.legal on across t.1 t.2.1 t.2.2))) ?_).length_le
    · rwa [List.length_map] at this
    · intro t ht
      obtain ⟨⟨a, b, x⟩, hu, rfl⟩ := List.mem_map.mp ht
      obtain ⟨hu1, hu2⟩ := List.mem_filter.mp hu
      have hmem := mem_prod3.mp hu1
      refine List.mem_filter.mpr ⟨mem_prod3.mpr ⟨hmem.2.1, hmem.1, hmem.2.2⟩, ?_⟩
      simp only [Spec.legal, Bool.and_eq_true] at hu2 ⊢
      simp only [beq_iff_eq, bne_iff_ne] at hu2
      have : b.2 on ≠ x.2 on := by rw [← hu2.1.1.1]; exact hu2.1.1.2
      simp [this]
  omega

section
variable {e : Env} (he : e.Lawful) {a : Args ρ} (ha : a.OK) {T : Task ρ} (h : init e a = .ok T)
include he ha h

theorem sum_items : (T.levels.map (fun L => (itemsOf a L.key).length)).sum ≤ a.db.length := by
  have hn := init_keys_nodup he ha h
  have h1 := sum_filter_le (fun p : Nat × Row => keyOf (prep a).1 p.2) hn (prep a).2.2
  rw [(prep_sim a).length_eq] at h1
  refine le_trans (le_of_eq ?_) h1
  rw [List.map_map]
  congr 1
  apply List.map_congr_left
  intro L hL
  obtain ⟨fr0, I⟩ := init_level he ha h hL
  have := I.sim.length_eq
  unfold itemsOf
  rw [← this, I.group]
  simp [resetIndex, groupFrame]

theorem total_lt : (T.levels.map (fun L => (tripsSpec a L.key).length)).sum < 2 ^ 63 := by
  have h1 : 2 * (T.levels.map (fun L => (tripsSpec a L.key).length)).sum ≤ ((T.levels.map (fun L => (itemsOf a L.key).length)).map (fun n => n * n * n)).sum := by
    rw [List.map_map]
    apply sum_map_le
    intro L hL
    refine legal_half ?_
    unfold itemsOf Spec.items
    refine List.Nodup.map_on ?_ (List.Nodup.of_map (·.2) (by rw [List.zipIdx_map_snd]; exact List.nodup_range'))
    rintro ⟨r, i⟩ hi ⟨r', i'⟩ hi' hh
    simp only [Prod.mk.injEq] at hh ⊢
    exact ⟨hh.2, hh.1⟩
  have h2 := sum_cubes_le (T.levels.map (fun L => (itemsOf a L.key).length))
  have h3 := sum_items he ha h
  have h4 := ha.size
  have h5 := Nat.mul_le_mul (Nat.mul_le_mul h3 h3) h3
  omega

theorem blocks_lt : (T.levels.map (fun L => (groupKeys e "stats" (T.on :: T.across) L.frame).length)).sum < 2 ^ 63 := by
  have h1 : (T.levels.map (fun L => (groupKeys e "stats" (T.on :: T.across) L.frame).length)).sum ≤ (T.levels.map (fun L => (itemsOf a L.key).length)).sum := by
    rw [← Nat.one_mul (T.levels.map (fun L => (groupKeys e "stats" (T.on :: T.across) L.frame).length)).sum]
    apply sum_map_le
    intro L hL
    rw [Nat.one_mul]
    obtain ⟨fr0, I⟩ := init_level he ha h hL
    have hs := (List.subperm_of_subset (nodup_groupKeys he (site := "stats") (cols := T.on :: T.across) (fr := L.frame)) (l₂ := L.frame.map (fun p => keyOf (T.on :: T.across) p.2)) (by
      intro k hk
      obtain ⟨p, hp, rfl⟩ := (mem_groupKeys he).mp hk
      exact List.mem_map.mpr ⟨p, hp, rfl⟩)).length_le
    rw [List.length_map] at hs
    refine hs.trans ?_
    unfold itemsOf
    rw [← I.sim.length_eq, I.hyp.frame]
    exact List.length_filter_le _ _
  have h3 := sum_items he ha h
  have h4 := ha.size
  generalize a.db.length = n at *
  have : n < 2 ^ 63 := by
    by_contra hn
    have : 2 ^ 63 * 2 ^ 63 ≤ n * n := Nat.mul_le_mul (by omega) (by omega)
    have := Nat.mul_le_mul this (show 2 ^ 63 ≤ n by omega)
    omega
  omega

/-- with a triplet in some level, every block is sorted by some regressor -/
theorem sort_some {L : Level ρ} (hL : L ∈ T.levels) (hne : tripsSpec a L.key ≠ []) (row : Row) : sortFns T.cols T.regressors row ≠ [] := by
  obtain ⟨fr0, I⟩ := init_level he ha h hL
  obtain ⟨h1, h2, h3, h4⟩ := checkDatabase_ok (init_ok h).1
  have sim : List.Forall₂ (Sim3 a.columns) (Spec.itemTriplets T.cols T.on (userAcross T.across) a.filters fr0) (tripsSpec a L.key) := by
    rw [I.cols, I.on, I.across]
    exact itemTriplets_sim h1 h2 ha.inF I.sim
  obtain ⟨t, ht⟩ := List.exists_mem_of_ne_nil _ hne
  obtain ⟨u, hu, -⟩ := forall₂_mem_right sim t ht
  exact sortFns_ne I.hyp I.reg ⟨columnReg e a.db (a.on, .two), by simp [defaultRegs], by rw [I.on]; rfl⟩ row ((mem_itemTriplets I.hyp).mp hu)

end
end ABX.Task
