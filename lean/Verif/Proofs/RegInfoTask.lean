import Verif.Proofs.RegInfo
import Verif.Proofs.Plain
/-!
Lemmas about the regressors of a task in its file: names, indexes, columns.
-/
namespace ABX.RegInfo
open ExtSort ABX.Task SideOps H5IO

/-! ### several levels -/

section levels
variable {α τ : Type} [DecidableEq α] {nm : α → String} {ix : α → List Val}

/-- what the file has for a level -/
structure Stored (nm : α → String) (ix : α → List Val) (u : List α) (val : α → τ → Nat) (f : File Val) (group : String) (parts : List (List τ)) : Prop where
  made : ∃ g, f.groups.lookup group = some g ∧ keysOf g.indexed = u.map nm ∧ g.indexes = u.map (fun v => (nm v, ix v))
  data : f.data.lookup (group, "indexed_data") = if parts = [] then none else some (parts.flatten.map (fun t => u.map (fun v => val v t)))

theorem writeLevels_columns {ascii : Val → Bool} {fs : List (List α)} (hl : fs.flatten ≠ [])
    (hinj : ∀ x ∈ fs.flatten, ∀ y ∈ fs.flatten, nm x = nm y → x = y) (hi : ∀ v, ix v ≠ []) (hn : ∀ v ∈ fs.flatten, ∀ c ∈ (nm v).toList, c.toNat < 128)
    (ha : ∀ v ∈ fs.flatten, ∀ x ∈ ix v, ascii x = true) (hlen : ∀ v ∈ fs.flatten, (ix v).length < 2 ^ 64) (hw : (uniq fs.flatten).length < 2500) {val : α → τ → Nat} :
    ∀ (ls : List (String × List (List τ))) (f : File Val), (ls.map Prod.fst).Nodup → (∀ p ∈ ls, p.1 ∉ keysOf f.groups ∧ (p.1, "indexed_data") ∉ keysOf f.data) →
    (∀ q ∈ ls, ∀ v ∈ fs.flatten, ∀ p ∈ q.2, ∀ t ∈ p, val v t < (ix v).length) →
    ∃ f', writeLevels ascii (fs.map (fun vs => vs.map (fun v => .column (nm v) (ix v)))) f (ls.map (fun q => (q.1, q.2.map (fun p => fs.flatten.map (fun v => p.map (val v)))))) = .ok f' ∧
      (∀ q ∈ ls, Stored nm ix (uniq fs.flatten) val f' q.1 q.2) ∧
      (∀ k, k ∉ ls.map Prod.fst → f'.groups.lookup k = f.groups.lookup k) ∧ ∀ x : String × String, x.1 ∉ ls.map Prod.fst ∨ x.2 ≠ "indexed_data" → f'.data.lookup x = f.data.lookup x := by
  intro ls
  induction ls with
  | nil => intro f _ _ _; exact ⟨f, rfl, by simp, fun _ _ => rfl, fun _ _ => rfl⟩
  | cons q ls ih =>
    intro f hnd hfr hv
    obtain ⟨f1, g1, w1, w2, w3, w4, w5, w6, w7⟩ := writeLevel_columns (ascii := ascii) (hfr q (by simp)).1 (hfr q (by simp)).2 hl hinj hi hn ha hlen hw (val := val) (parts := q.2)
      (fun v hv' p hp => hv q (by simp) v hv' p hp)
    rw [List.map_cons, List.nodup_cons] at hnd
    obtain ⟨f', r1, r2, r3, r4⟩ := ih f1 hnd.2 (by
      intro p hp
      have hne : p.1 ≠ q.1 := by
        intro h
        exact hnd.1 (List.mem_map.mpr ⟨p, hp, h⟩)
      obtain ⟨h1, h2⟩ := hfr p (by simp [hp])
      constructor
      · intro hk
        obtain ⟨x, hx⟩ := lookup_of_mem_keys hk
        rw [w6 _ hne, lookup_none h1] at hx
        cases hx
      · intro hk
        obtain ⟨x, hx⟩ := lookup_of_mem_keys hk
        rw [w7 _ (by intro h; exact hne (Prod.mk.inj h).1), lookup_none h2] at hx
        cases hx) (fun q' hq' => hv q' (by simp [hq']))
    refine ⟨f', ?_, ?_, ?_, ?_⟩
    · rw [List.map_cons, writeLevels, w1]
      exact r1
    · intro q' hq'
      rcases List.mem_cons.mp hq' with rfl | hq'
      · refine ⟨⟨g1, ?_, w3, w4⟩, ?_⟩
        · rw [r3 _ hnd.1]; exact w2
        · rw [r4 _ (.inl hnd.1)]; exact w5
      · exact r2 q' hq'
    · intro k hk
      rw [List.map_cons, List.mem_cons, not_or] at hk
      rw [r3 k hk.2, w6 k hk.1]
    · intro x hx
      rw [List.map_cons, List.mem_cons, not_or] at hx
      rw [r4 x (hx.imp (fun h => h.2) id), w7 x]
      rintro rfl
      rcases hx with hx | hx
      · exact hx.1 rfl
      · exact hx rfl

omit [DecidableEq α] in
theorem labelsOfRow_ok {lab : α → Val} {val : α → Nat} : ∀ {u : List α}, (∀ v ∈ u, (ix v)[val v]? = some (lab v)) → labelsOfRow (u.map ix) (u.map val) = .ok (u.map lab) := by
  have main : ∀ (u pre : List α), (∀ v ∈ u, (ix v)[val v]? = some (lab v)) → sequence (((u.map ix).zipIdx pre.length).map (fun p => match ((pre ++ u).map val)[p.2]? with
    | none => .error .indexError
    | some x => match p.1[x]? with
      | none => .error .indexError
      | some v => .ok v)) = .ok (u.map lab) := by
    intro u
    induction u with
    | nil => intro pre _; rfl
    | cons v u ih =>
      intro pre h
      have hx : ((pre ++ v :: u).map val)[pre.length]? = some (val v) := by simp
      have ht := ih (pre ++ [v]) (fun w hw => h w (by simp [hw]))
      rw [List.length_append, List.length_singleton, List.append_assoc, List.singleton_append] at ht
      rw [List.map_cons, List.zipIdx_cons, List.map_cons]
      dsimp only
      rw [hx]
      dsimp only
      rw [h v (by simp)]
      dsimp only [sequence]
      rw [ht]
      rfl
  intro u h
  exact main u [] h

omit [DecidableEq α] in
/-- what is read -/
theorem Stored.names {u : List α} {val : α → τ → Nat} {f : File Val} {group : String} {parts : List (List τ)} (h : Stored nm ix u val f group parts) :
    readNames f group = .ok (u.map nm) := by
  obtain ⟨g, h1, h2, h3⟩ := h.made
  unfold readNames
  rw [h1]
  dsimp only
  rw [h2]

omit [DecidableEq α] in
theorem Stored.indexes {u : List α} (hn : (u.map nm).Nodup) {val : α → τ → Nat} {f : File Val} {group : String} {parts : List (List τ)} (h : Stored nm ix u val f group parts) :
    readIndexes f group = .ok (u.map ix) := by
  obtain ⟨g, h1, h2, h3⟩ := h.made
  unfold readIndexes
  rw [h1]
  dsimp only
  rw [h2, h3, List.map_map]
  refine sequence_map_ok ?_
  intro v hv
  have : (u.map (fun v => (nm v, ix v))).lookup (nm v) = some (ix v) := by
    refine lookup_of_mem ?_ (List.mem_map.mpr ⟨v, hv, rfl⟩)
    rw [keysOf_map]; exact hn
  simp only [Function.comp, H5IO.get, this]

omit [DecidableEq α] in
theorem Stored.rows {u : List α} {val : α → τ → Nat} {f : File Val} {group : String} {parts : List (List τ)} (h : Stored nm ix u val f group parts) (hp : parts ≠ []) :
    readRows f group = .ok (parts.flatten.map (fun t => u.map (fun v => val v t))) := by
  unfold readRows
  rw [h.data, if_neg hp]

omit [DecidableEq α] in
theorem Stored.labels {u : List α} (hn : (u.map nm).Nodup) {val : α → τ → Nat} {f : File Val} {group : String} {parts : List (List τ)} (h : Stored nm ix u val f group parts) (hp : parts ≠ [])
    {lab : α → τ → Val} (hl : ∀ v ∈ u, ∀ p ∈ parts, ∀ t ∈ p, (ix v)[val v t]? = some (lab v t)) :
    readLabels f group = .ok (parts.flatten.map (fun t => u.map (fun v => lab v t))) := by
  unfold readLabels
  rw [h.indexes hn, h.rows hp]
  dsimp only
  rw [List.map_map]
  refine sequence_map_ok ?_
  intro t ht
  obtain ⟨p, hp, ht⟩ := List.mem_flatten.mp ht
  exact labelsOfRow_ok (fun v hv => hl v hv p hp t ht)

end levels

/-! ### the task -/

variable {ρ : Type}

/-- the blocks of a level: their triplets and their columns -/
theorem level_parts {e : Env} (he : e.Lawful) {a : Args ρ} (ha : a.OK) {T : Task.Task ρ} (h : Task.init e a = .ok T) {L : Level ρ} (hL : L ∈ T.levels)
    (hpos : Positional L.frame) {N : Num} (hN : ArgsortLaw N.argsort) {threshold : Nat} {src : List Val → List Val → Nat → Sampler.Src} (hl : ∀ k k' j, (src k k' j).Lawful)
    (hc : T.regressors.ops .A = [] ∨ (T.filters.ops .ABX ≠ [] ∧ T.regressors.ops .B ++ T.regressors.ops .X ≠ [])) {os : List BlkOut}
    (ho : levelOut e N threshold src T L = .ok os) :
    ∃ parts : List (List Tri), List.Forall₂ (fun o part => o.trips = part.map lab ∧ o.regs = (colRegs T.regressors).map (fun f => part.map (ABX.Spec.regValue a.cols f))) os parts ∧
      ∀ part ∈ parts, ∀ t ∈ part, t ∈ tripsSpec a L.key := by
  obtain ⟨fr0, I⟩ := init_level he ha h hL
  have hck := (Task.init_ok h).1
  obtain ⟨h1, h2, h3, h4⟩ := checkDatabase_ok hck
  have H := I.hyp
  have R := I.reg
  obtain ⟨outs, Ss, Ss', hK, rfl⟩ := levelOut_ok H R hpos hN hl ho
  have hperm := level_perm H hK
  have hsub := hK.sub
  have inR : ∀ f ∈ allRegs e a, ∀ v ∈ f.inputs, v.1 ∈ a.columns := by
    intro f hf
    rcases List.mem_append.mp hf with hf | hf
    · exact ha.inR f hf
    · exact defaultRegs_in he hck ha f hf
  have sim : List.Forall₂ (Sim3 a.columns) (ABX.Spec.itemTriplets T.cols T.on (userAcross T.across) a.filters fr0) (tripsSpec a L.key) := by
    rw [I.cols, I.on, I.across]
    exact itemTriplets_sim h1 h2 ha.inF I.sim
  obtain ⟨parts0, hp1, hp2⟩ := keys_blocks hK
  obtain ⟨S', hS', hmem⟩ := forall₂_choose sim (fun t ht => hperm.mem_iff.mp (hsub t ht))
  rw [← hp1] at hS'
  obtain ⟨parts, hq1, hq2⟩ := forall₂_unflatten hS'
  refine ⟨parts, ?_, fun part hp t ht => hmem t (by rw [← hq1]; exact List.mem_flatten.mpr ⟨part, hp, ht⟩)⟩
  refine forall₂_trans (R := fun o part => ∃ k S, KeySpec N threshold T L a.filters fr0 k (some o) S part) (S := List.Forall₂ (Sim3 a.columns)) ?_ hp2 hq2
  rintro o part0 part ⟨k, S, hk⟩ hsim
  constructor
  · have := hk.trips
    rw [show o.trips = _ from this]
    refine forall₂_map_eq hsim ?_
    rintro t u ⟨⟨a1, _⟩, ⟨b1, _⟩, ⟨x1, _⟩⟩
    simp only [lab, a1, b1, x1]
  · rcases hk.2 with ⟨hn, -⟩ | ⟨out, he', p, hp, hout⟩
    · cases hn
    · obtain rfl := Option.some.inj he'
      rw [hout.regs (by
        rcases hc with hc | hc
        · exact Or.inl hc
        · refine Or.inr (Or.inl ⟨hc.1, ?_⟩)
          intro hs
          apply hc.2
          simp only [sortFns, List.append_eq_nil_iff, List.map_eq_nil_iff] at hs
          simp [hs.1, hs.2])]
      apply List.map_congr_left
      intro f hf
      rw [I.cols]
      refine forall₂_map_eq hsim (fun t u htu => regValue_sim (inR f ?_) htu)
      unfold colRegs at hf
      simp only [List.mem_append, mem_ops] at hf
      have : f ∈ T.regressors.map Placed.op := by
        rcases hf with (((⟨p, hp, _, rfl⟩ | ⟨p, hp, _, rfl⟩) | ⟨p, hp, _, rfl⟩) | ⟨p, hp, _, rfl⟩) | ⟨p, hp, _, rfl⟩ <;> exact List.mem_map_of_mem hp
      rw [mgr_ops R.mgr] at this
      exact this

/-- the index of a column -/
def ixOf (e : Env) (a : Args ρ) (v : Var) : List Val := columnIndex e.sort (a.db.map (fun p => p.2 v.1))

theorem mem_ixOf {e : Env} (he : e.Lawful) {a : Args ρ} {v : Var} {x : Val} : x ∈ ixOf e a v ↔ ∃ p ∈ a.db, p.2 v.1 = x := by
  unfold ixOf columnIndex
  rw [(he.sort _).mem_iff, List.mem_dedup, List.mem_map]

theorem ixOf_length {e : Env} (he : e.Lawful) {a : Args ρ} {v : Var} : (ixOf e a v).length ≤ a.db.length := by
  unfold ixOf columnIndex
  rw [(he.sort _).length_eq]
  have := (List.dedup_sublist (a.db.map (fun p => p.2 v.1))).length_le
  rw [List.length_map] at this
  exact this

/-- the label of a triplet is at the position that the regressor gives -/
theorem ixOf_value {e : Env} (he : e.Lawful) {a : Args ρ} {key : List Val} {t : Tri} (ht : t ∈ tripsSpec a key) (v : Var) :
    (ixOf e a v)[ABX.Spec.regValue a.cols (columnReg e a.db v) t]? = some (ABX.Spec.sem a.cols t.1.2 t.2.1.2 t.2.2.2 v) := by
  obtain ⟨h1, h2, h3, -⟩ := Pipeline.trips_legal ht
  have hmem : ABX.Spec.sem a.cols t.1.2 t.2.1.2 t.2.2.2 v ∈ ixOf e a v := by
    rw [mem_ixOf he]
    have key : ∀ {p : ABX.Spec.Item}, p ∈ itemsOf a key → ∃ q ∈ a.db, q.2 v.1 = p.2 v.1 := fun hp => by
      obtain ⟨⟨q, hq, e1⟩, -⟩ := Pipeline.items_db hp
      exact ⟨q, hq, by rw [e1]⟩
    obtain ⟨r, x⟩ := v
    cases x <;> simp only [ABX.Spec.sem]
    case B => exact key h2
    case X => exact key h3
    case two => split <;> [exact key h2; exact key h3]
    all_goals exact key h1
  have hlt : (ixOf e a v).findIdx (· == ABX.Spec.sem a.cols t.1.2 t.2.1.2 t.2.2.2 v) < (ixOf e a v).length := List.findIdx_lt_length.mpr ⟨_, hmem, by simp⟩
  have := List.findIdx_getElem (w := hlt)
  simp only [beq_iff_eq] at this
  show (ixOf e a v)[(ixOf e a v).findIdx (· == ABX.Spec.sem a.cols t.1.2 t.2.1.2 t.2.2.2 v)]? = _
  rw [List.getElem?_eq_getElem hlt, this]

end ABX.RegInfo
