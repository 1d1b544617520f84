import Verif.Model.RegInfo
import Verif.Properties.H5IO
/-!
Lemmas about the names and indexes of regressors (Model/RegInfo.lean).
-/
namespace ABX.RegInfo
open ExtSort ABX.Task SideOps H5IO

/-! ### dictionaries -/

section dict
variable {α β : Type} [DecidableEq α]

/-- the elements, each where it is first -/
def uniqStep (acc : List α) (x : α) : List α := if x ∈ acc then acc else acc ++ [x]
def uniq (l : List α) : List α := l.foldl uniqStep []

theorem uniqStep_mem {acc : List α} {x y : α} : y ∈ uniqStep acc x ↔ y ∈ acc ∨ y = x := by
  unfold uniqStep
  split
  · constructor
    · exact Or.inl
    · rintro (h | rfl) <;> assumption
  · simp

theorem uniqStep_nodup {acc : List α} {x : α} (h : acc.Nodup) : (uniqStep acc x).Nodup := by
  unfold uniqStep
  split
  · exact h
  · rename_i hx
    rw [List.nodup_append]
    refine ⟨h, by simp, ?_⟩
    intro a ha b hb
    rw [List.mem_singleton.mp hb]
    rintro rfl
    exact hx ha

theorem foldl_uniq (l : List α) : ∀ acc : List α, acc.Nodup → (l.foldl uniqStep acc).Nodup ∧ ∀ y, y ∈ l.foldl uniqStep acc ↔ y ∈ acc ∨ y ∈ l := by
  induction l with
  | nil => intro acc h; exact ⟨h, fun y => by simp⟩
  | cons x l ih =>
    intro acc h
    obtain ⟨h1, h2⟩ := ih (uniqStep acc x) (uniqStep_nodup h)
    refine ⟨h1, fun y => ?_⟩
    rw [List.foldl_cons, h2, uniqStep_mem, List.mem_cons, or_assoc]

theorem uniq_nodup (l : List α) : (uniq l).Nodup := (foldl_uniq l [] List.nodup_nil).1

theorem mem_uniq {l : List α} {x : α} : x ∈ uniq l ↔ x ∈ l := by simpa [uniq] using (foldl_uniq l [] List.nodup_nil).2 x

theorem uniq_of_nodup {l : List α} (h : l.Nodup) : uniq l = l := by
  have : ∀ (l acc : List α), (acc ++ l).Nodup → l.foldl uniqStep acc = acc ++ l := by
    intro l
    induction l with
    | nil => intro acc _; simp
    | cons x l ih =>
      intro acc h
      have hx : x ∉ acc := by
        intro hx
        rw [List.nodup_append] at h
        exact h.2.2 x hx x (by simp) rfl
      rw [List.foldl_cons, show uniqStep acc x = acc ++ [x] from if_neg hx, ih _ (by simpa using h)]
      simp
  simpa [uniq] using this l [] (by simpa using h)

/-- assignments under names that are different for different elements -/
theorem update_map {nm : α → String} {ix : α → β} : ∀ (l u : List α), (∀ x ∈ u ++ l, ∀ y ∈ u ++ l, nm x = nm y → x = y) →
    update (u.map (fun v => (nm v, ix v))) (l.map (fun v => (nm v, ix v))) = (l.foldl uniqStep u).map (fun v => (nm v, ix v)) := by
  intro l
  induction l with
  | nil => intro u _; rfl
  | cons x l ih =>
    intro u h
    have step : setItem (u.map (fun v => (nm v, ix v))) (nm x) (ix x) = (uniqStep u x).map (fun v => (nm v, ix v)) := by
      have hk : nm x ∈ keysOf (u.map (fun v => (nm v, ix v))) ↔ x ∈ u := by
        unfold keysOf
        rw [List.map_map, List.mem_map]
        constructor
        · rintro ⟨y, hy, he⟩
          rw [h x (by simp) y (by simp [hy]) he.symm]
          exact hy
        · intro hx; exact ⟨x, hx, rfl⟩
      unfold setItem uniqStep
      by_cases hx : x ∈ u
      · rw [if_pos (hk.mpr hx), if_pos hx]
        unfold put
        rw [List.map_map]
        apply List.map_congr_left
        intro y hy
        by_cases he : nm y = nm x
        · obtain rfl := h y (by simp [hy]) x (by simp) he
          simp
        · simp [he]
      · rw [if_neg (fun h => hx (hk.mp h)), if_neg hx]
        simp
    rw [List.map_cons, update, List.foldl_cons]
    dsimp only
    rw [step, List.foldl_cons]
    refine ih (uniqStep u x) ?_
    intro a ha b hb
    refine h a ?_ b ?_
    · rcases List.mem_append.mp ha with ha | ha
      · rcases uniqStep_mem.mp ha with ha | rfl <;> simp [*]
      · simp [ha]
    · rcases List.mem_append.mp hb with hb | hb
      · rcases uniqStep_mem.mp hb with hb | rfl <;> simp [*]
      · simp [hb]

theorem update_uniq {nm : α → String} {ix : α → β} {l : List α} (h : ∀ x ∈ l, ∀ y ∈ l, nm x = nm y → x = y) :
    update [] (l.map (fun v => (nm v, ix v))) = (uniq l).map (fun v => (nm v, ix v)) := update_map l [] (by simpa using h)

end dict

/-! ### names of extended columns -/

theorem suffix_head (e : Ext) : ∀ c ∈ (suffix e).toList.head?, c = '_' := by cases e <;> simp [suffix]

theorem suffix_inj {e e' : Ext} (h : suffix e = suffix e') : e = e' := by cases e <;> cases e' <;> first | rfl | simp [suffix] at h

theorem extName_inj {v w : Var} (hv : '_' ∉ v.1.toList) (hw : '_' ∉ w.1.toList) (h : extName v = extName w) : v = w := by
  have h' : v.1.toList ++ (suffix v.2).toList = w.1.toList ++ (suffix w.2).toList := by
    have := congrArg String.toList h
    simpa [extName] using this
  have take : ∀ (l s : List Char), '_' ∉ l → (∀ c ∈ s.head?, c = '_') → (l ++ s).takeWhile (fun c => c != '_') = l ∧ (l ++ s).dropWhile (fun c => c != '_') = s := by
    intro l s hl hs
    induction l with
    | nil =>
      cases s with
      | nil => simp
      | cons c s => obtain rfl := hs c (by simp); simp
    | cons c l ih =>
      have hc : (c != '_') = true := by
        simp only [bne_iff_ne, ne_eq]
        rintro rfl
        exact hl (by simp)
      obtain ⟨i1, i2⟩ := ih (fun h => hl (by simp [h]))
      simp [hc, i1, i2]
  obtain ⟨t1, d1⟩ := take _ _ hv (suffix_head v.2)
  obtain ⟨t2, d2⟩ := take _ _ hw (suffix_head w.2)
  rw [h'] at t1 d1
  have e1 : v.1 = w.1 := String.toList_inj.mp (t1.symm.trans t2)
  have e2 : v.2 = w.2 := suffix_inj (String.toList_inj.mp (d1.symm.trans d2))
  exact Prod.ext e1 e2

/-! ### regressors that are columns -/

section columns
variable {α : Type} {nm : α → String} {ix : α → List Val}

theorem fetch_columns (hi : ∀ v, ix v ≠ []) (n : Nat) (vs : List α) :
    fetch n (vs.map (fun v => .column (nm v) (ix v))) = (vs.map (fun v => [nm v]), vs.map (fun v => [(nm v, ix v)]), n) := by
  induction vs with
  | nil => rfl
  | cons v vs ih => simp [fetch, Kind.specs, hi v, ih]

theorem fetchAll_columns (hi : ∀ v, ix v ≠ []) (n : Nat) (fs : List (List α)) :
    fetchAll n (fs.map (fun vs => vs.map (fun v => .column (nm v) (ix v)))) = fs.map (fun vs => (vs.map (fun v => [nm v]), vs.map (fun v => [(nm v, ix v)]))) := by
  induction fs with
  | nil => rfl
  | cons vs fs ih => simp [fetchAll, fetch_columns hi, ih]

theorem flatten_singles {γ δ : Type} (f : γ → δ) (l : List γ) : (l.map (fun x => [f x])).flatten = l.map f := by
  induction l with
  | nil => rfl
  | cons x l ih => simp [ih]

theorem info_columns (hi : ∀ v, ix v ≠ []) (fs : List (List α)) :
    info (fs.map (fun vs => vs.map (fun v => .column (nm v) (ix v)))) = (fs.flatten.map nm, update [] (fs.flatten.map (fun v => (nm v, ix v)))) := by
  unfold info
  dsimp only
  rw [fetchAll_columns hi, List.flatMap_map, List.flatMap_map]
  simp only [flatten_singles]
  rw [List.map_flatten, List.map_flatten, List.flatMap_def, List.flatMap_def]

theorem nameLists_columns (hi : ∀ v, ix v ≠ []) (fs : List (List α)) :
    nameLists (fs.map (fun vs => vs.map (fun v => .column (nm v) (ix v)))) = fs.flatten.map (fun v => [nm v]) := by
  unfold nameLists
  rw [fetchAll_columns hi, List.flatMap_map, List.map_flatten, List.flatMap_def]

theorem table_columns [DecidableEq α] {l : List α} (h : ∀ x ∈ l, ∀ y ∈ l, nm x = nm y → x = y) (col : α → List Nat) :
    table (l.map (fun v => [nm v])) (l.map col) = (uniq l).map (fun v => (nm v, col v)) := by
  rw [← update_uniq h]
  unfold table
  congr 1
  rw [List.map_map, List.zip_map', List.flatMap_map]
  simp [List.flatMap_def, flatten_singles (fun a => (nm a, col a))]

end columns

/-! ### the group of a level -/

section level
variable {α : Type} [DecidableEq α] {nm : α → String} {ix : α → List Val}

/-- the group made for the regressors `l` -/
def groupOf (nm : α → String) (ix : α → List Val) (l : List α) : H5IO.Group Val :=
  ⟨true, false, l.map nm, (uniq l).map (fun v => (nm v, nm v)), (uniq l).map (fun v => (nm v, ix v)), [], [], none⟩

omit [DecidableEq α] in
theorem keysOf_map {β γ : Type} (l : List α) (f : α → β) (g : α → γ) : keysOf (l.map (fun v => (f v, g v))) = l.map f := by
  unfold keysOf; rw [List.map_map]; rfl

theorem init_columns {ascii : Val → Bool} {f : File Val} {group : String} (hg : group ∉ keysOf f.groups) {l : List α} (hl : l ≠ [])
    (hi : ∀ v ∈ l, ix v ≠ []) (hn : ∀ v ∈ l, ∀ c ∈ (nm v).toList, c.toNat < 128) (ha : ∀ v ∈ l, ∀ x ∈ ix v, ascii x = true) :
    H5IO.init ascii (some f) group (some (.names (l.map nm), (uniq l).map (fun v => (nm v, ix v)), [])) =
      (some ⟨f.groups ++ [(group, groupOf nm ix l)], f.data⟩, .ok (groupOf nm ix l)) := by
  have h1 : checkDecl (.names (l.map nm)) ((uniq l).map (fun v => (nm v, ix v))) [] = .ok ((uniq l).map (fun v => (nm v, nm v))) := by
    unfold checkDecl
    dsimp only
    rw [if_pos]
    · unfold checkFused
      simp
    · intro i hi
      rw [keysOf_map] at hi
      obtain ⟨v, hv, rfl⟩ := List.mem_map.mp hi
      exact List.mem_map_of_mem (mem_uniq.mp hv)
  have h2 : newGroup ascii (l.map nm) ((uniq l).map (fun v => (nm v, nm v))) ((uniq l).map (fun v => (nm v, ix v))) [] = .ok (groupOf nm ix l) := by
    have e1 : getArray asciiName (l.map nm) = .ok () := by
      unfold getArray
      rw [if_neg (by simpa using hl), if_pos]
      rw [List.all_eq_true]
      intro x hx
      obtain ⟨v, hv, rfl⟩ := List.mem_map.mp hx
      unfold asciiName
      rw [List.all_eq_true]
      intro c hc
      simpa using hn v hv c hc
    have e2 : ∀ (u : List α), (∀ v ∈ u, v ∈ l) → sequence (u.map (fun v => getArray ascii (ix v))) = .ok (u.map (fun _ => ())) := by
      intro u hu
      refine sequence_map_ok ?_
      intro v hv
      unfold getArray
      rw [if_neg (hi v (hu v hv)), if_pos]
      rw [List.all_eq_true]
      exact ha v (hu v hv)
    have e3 : (uniq l).map (fun v => (nm v, nm v)) ≠ [] := by
      obtain ⟨x, hx⟩ := List.exists_mem_of_ne_nil _ hl
      exact List.ne_nil_of_mem (List.mem_map_of_mem (mem_uniq.mpr hx))
    have e4 := e2 (uniq l) (fun v hv => mem_uniq.mp hv)
    unfold newGroup
    rw [e1]
    dsimp only
    rw [if_neg e3, List.map_map]
    have e5 : ((fun p : String × List Val => getArray ascii p.2) ∘ fun v => (nm v, ix v)) = fun v => getArray ascii (ix v) := rfl
    rw [e5, e4]
    rfl
  unfold H5IO.init
  simp only [h1, Option.getD_some, lookup_none hg, Decl.managed, h2]
  rfl

omit [DecidableEq α] in
theorem joinRows_columns {τ : Type} (val : α → τ → Nat) (p : List τ) : ∀ {u : List α}, u ≠ [] → joinRows (u.map (fun v => p.map (fun t => [val v t]))) = p.map (fun t => u.map (fun v => val v t))
  | [], h => absurd rfl h
  | [v], _ => rfl
  | v :: w :: u, _ => by
    rw [List.map_cons, List.map_cons, joinRows_cons, ← List.map_cons (f := fun v => p.map (fun t => [val v t])), joinRows_columns val p (u := w :: u) (by simp)]
    rw [List.zipWith_map_left, List.zipWith_map_right]
    simp

/-- the regressors of a level are written, and what is in the file -/
theorem writeLevel_columns {ascii : Val → Bool} {f : File Val} {group : String} (hg : group ∉ keysOf f.groups) (hd : (group, "indexed_data") ∉ keysOf f.data) {fs : List (List α)} (hl : fs.flatten ≠ [])
    (hinj : ∀ x ∈ fs.flatten, ∀ y ∈ fs.flatten, nm x = nm y → x = y) (hi : ∀ v, ix v ≠ []) (hn : ∀ v ∈ fs.flatten, ∀ c ∈ (nm v).toList, c.toNat < 128)
    (ha : ∀ v ∈ fs.flatten, ∀ x ∈ ix v, ascii x = true) (hlen : ∀ v ∈ fs.flatten, (ix v).length < 2 ^ 64) (hw : (uniq fs.flatten).length < 2500) {τ : Type} {val : α → τ → Nat} {parts : List (List τ)}
    (hv : ∀ v ∈ fs.flatten, ∀ p ∈ parts, ∀ t ∈ p, val v t < (ix v).length) :
    ∃ f' g', writeLevel ascii (some f) group (fs.map (fun vs => vs.map (fun v => .column (nm v) (ix v)))) (parts.map (fun p => fs.flatten.map (fun v => p.map (val v)))) = .ok f' ∧
      f'.groups.lookup group = some g' ∧ keysOf g'.indexed = (uniq fs.flatten).map nm ∧ g'.indexes = (uniq fs.flatten).map (fun v => (nm v, ix v)) ∧
      (f'.data.lookup (group, "indexed_data") = if parts = [] then none else some (parts.flatten.map (fun t => (uniq fs.flatten).map (fun v => val v t)))) ∧
      (∀ k, k ≠ group → f'.groups.lookup k = f.groups.lookup k) ∧ ∀ x, x ≠ (group, "indexed_data") → f'.data.lookup x = f.data.lookup x := by
  generalize hL : fs.flatten = l at *
  have hu : uniq l ≠ [] := by
    obtain ⟨x, hx⟩ := List.exists_mem_of_ne_nil _ hl
    exact List.ne_nil_of_mem (mem_uniq.mpr hx)
  have hund : ((uniq l).map nm).Nodup := (uniq_nodup l).map_on (fun x hx y hy => hinj x (mem_uniq.mp hx) y (mem_uniq.mp hy))
  have hinit := init_columns (ascii := ascii) hg hl (fun v _ => hi v) hn ha
  have hwl : writeLevel ascii (some f) group (fs.map (fun vs => vs.map (fun v => .column (nm v) (ix v)))) (parts.map (fun p => l.map (fun v => p.map (val v)))) =
      session ⟨f.groups ++ [(group, groupOf nm ix l)], f.data⟩ group (groupOf nm ix l)
        (parts.map (fun p => (true, (uniq l).map (fun v => (nm v, input (p.map (val v))))))) := by
    unfold writeLevel
    rw [info_columns hi, nameLists_columns hi, hL]
    dsimp only
    rw [update_uniq hinj, hinit]
    dsimp only
    congr 1
    rw [List.map_map]
    apply List.map_congr_left
    intro p _
    dsimp only [Function.comp]
    rw [table_columns hinj (fun v => p.map (val v)), List.map_map]
    rfl
  rw [hwl]
  have hraw : (groupOf nm ix l).raw = [] := by
    unfold H5IO.Group.raw groupOf
    dsimp only
    rw [List.map_map]
    have : (l.map nm).filter (fun d => d ∉ (uniq l).map (Prod.fst ∘ fun v => (nm v, nm v))) = [] := by
      rw [List.filter_eq_nil_iff]
      intro d hd
      obtain ⟨v, hv, rfl⟩ := List.mem_map.mp hd
      simp only [decide_not, Bool.not_eq_true', decide_eq_false_iff_not, not_not]
      exact List.mem_map.mpr ⟨v, mem_uniq.mpr hv, rfl⟩
    rw [this]
    rfl
  have hnf : (groupOf nm ix l).nonFused = (uniq l).map nm := by
    unfold H5IO.Group.nonFused groupOf
    dsimp only
    rw [List.map_map]
    simp only [List.flatMap_nil, List.not_mem_nil, not_false_eq_true, decide_true, List.filter_true]
    rfl
  have hix : keysOf (groupOf nm ix l).indexed = (uniq l).map nm := keysOf_map _ _ _
  have hlk : ∀ v ∈ l, (groupOf nm ix l).indexed.lookup (nm v) = some (nm v) ∧ (groupOf nm ix l).indexes.lookup (nm v) = some (ix v) := by
    intro v hv
    constructor
    · refine lookup_of_mem ?_ (List.mem_map.mpr ⟨v, mem_uniq.mpr hv, rfl⟩)
      rw [hix]; exact hund
    · refine lookup_of_mem ?_ (List.mem_map.mpr ⟨v, mem_uniq.mpr hv, rfl⟩)
      show (keysOf ((uniq l).map (fun v => (nm v, ix v)))).Nodup
      rw [keysOf_map]; exact hund
  have hg0 : (f.groups ++ [(group, groupOf nm ix l)]).lookup group = some (groupOf nm ix l) := by
    rw [lookup_append, lookup_none hg]
    simp
  have hgk : ∀ k, k ≠ group → (f.groups ++ [(group, groupOf nm ix l)]).lookup k = f.groups.lookup k := by
    intro k hk
    have : (k == group) = false := by simpa using hk
    rw [lookup_append, List.lookup_cons, this]
    simp
  cases parts with
  | nil =>
    refine ⟨⟨put (f.groups ++ [(group, groupOf nm ix l)]) group (groupOf nm ix l), f.data⟩, groupOf nm ix l, ?_, ?_, hix, rfl, ?_, ?_, ?_⟩
    · simp [session, writeAll, exit, flushOuts]
    · rw [put_lookup, if_pos rfl, hg0]
      rfl
    · rw [if_pos rfl]
      exact lookup_none hd
    · intro k hk
      dsimp only
      rw [put_lookup, if_neg hk, hgk k hk]
    · intro x _; rfl
  | cons p parts =>
    have hpaths : Spec.paths group (groupOf nm ix l) = [(group, "indexed_data")] := by
      unfold Spec.paths
      rw [hraw, hnf, if_neg (by simpa using hu)]
      rfl
    have hready : Spec.Ready (⟨f.groups ++ [(group, groupOf nm ix l)], f.data⟩ : File Val) group (groupOf nm ix l) (fun _ => 1) := by
      refine ⟨?_, ?_, ?_, ?_, ?_, ?_, ?_⟩
      · intro d hd
        rw [hnf] at hd
        obtain ⟨v, hv, rfl⟩ := List.mem_map.mp hd
        exact (hlk v (mem_uniq.mp hv)).1
      · intro q hq
        obtain ⟨v, hv, rfl⟩ := List.mem_map.mp hq
        exact hlen v (mem_uniq.mp hv)
      · intro d _; exact Nat.one_pos
      · intro d hd; rw [hraw] at hd; simp at hd
      · rw [hnf]
        have : (((uniq l).map nm).map (fun _ => 1)).sum = (uniq l).length := by
          rw [List.map_map]
          generalize uniq l = u
          induction u with
          | nil => rfl
          | cons x u ih => rw [List.map_cons, List.sum_cons, ih, List.length_cons]; exact Nat.add_comm 1 u.length
        rw [this]
        omega
      · intro q hq; exact absurd hq (List.not_mem_nil)
      · rw [hpaths]
        refine ⟨by simp, ?_⟩
        intro x hx
        rw [List.mem_singleton.mp hx]
        exact hd
    -- the rows of every dataset
    let m : List τ → String → List (List Nat) := fun p d => match (uniq l).find? (fun v => nm v = d) with
      | some v => p.map (fun t => [val v t])
      | none => []
    have hm : ∀ p v, v ∈ l → m p (nm v) = p.map (fun t => [val v t]) := by
      intro p v hv
      have : (uniq l).find? (fun w => nm w = nm v) = some v := by
        rcases hf : (uniq l).find? (fun w => nm w = nm v) with _ | w
        · rw [List.find?_eq_none] at hf
          exact absurd (by simp) (hf v (mem_uniq.mpr hv))
        · have h1 := List.find?_some hf
          have h2 := List.mem_of_find?_eq_some hf
          simp only [decide_eq_true_eq] at h1
          rw [hinj w (mem_uniq.mp h2) v hv h1]
      simp only [m, this]
    have hcall : ∀ p, (∀ v ∈ l, ∀ t ∈ p, val v t < (ix v).length) →
        Spec.Call (groupOf nm ix l) (fun _ => 1) (true, (uniq l).map (fun v => (nm v, input (p.map (val v))))) (m p) := by
      intro p hp
      refine ⟨?_, ?_, ?_, p.length, ?_⟩
      · dsimp only; rw [keysOf_map]; exact hund
      · intro k
        dsimp only
        rw [keysOf_map]
        unfold groupOf
        dsimp only
        simp only [List.mem_map, mem_uniq]
      · intro q hq
        obtain ⟨v, hv, rfl⟩ := List.mem_map.mp hq
        have hv := mem_uniq.mp hv
        dsimp only
        rw [hm p v hv]
        have : input (p.map (val v)) = .numbers ⟨1, p.map (fun t => [val v t])⟩ := by
          unfold input; rw [List.map_map]; rfl
        rw [this]
        refine Spec.Given.numbers (dims := fun _ => 1) (p.map (fun t => [val v t])) (nm v) (ix v) rfl (hlk v hv).1 (hlk v hv).2 ?_
        intro r hr
        obtain ⟨t, ht, rfl⟩ := List.mem_map.mp hr
        refine ⟨rfl, fun x hx => ?_⟩
        rw [List.mem_singleton.mp hx]
        exact hp v hv t ht
      · intro d hd
        obtain ⟨v, hv, rfl⟩ := List.mem_map.mp hd
        rw [hm p v hv, List.length_map]
    have hcalls : List.Forall₂ (Spec.Call (groupOf nm ix l) (fun _ => 1)) ((p :: parts).map (fun p => (true, (uniq l).map (fun v => (nm v, input (p.map (val v))))))) ((p :: parts).map m) := by
      have : ∀ ps : List (List τ), (∀ p ∈ ps, ∀ v ∈ l, ∀ t ∈ p, val v t < (ix v).length) → List.Forall₂ (Spec.Call (groupOf nm ix l) (fun _ => 1))
          (ps.map (fun p => (true, (uniq l).map (fun v => (nm v, input (p.map (val v))))))) (ps.map m) := by
        intro ps hps
        induction ps with
        | nil => exact .nil
        | cons q qs ih => exact .cons (hcall q (hps q (by simp))) (ih (fun p hp => hps p (by simp [hp])))
      exact this _ (fun q hq v hv' => hv v hv' q hq)
    obtain ⟨hwf, -⟩ := init_wf hinit
    obtain ⟨f', g', ds, s1, s2, s3, s4, s5, s6, s7, s8, s9, s10⟩ := session_ok hwf ⟨_, hg0⟩ hready hcalls (by rw [hraw]; simp)
    obtain ⟨D, hD, e1, e2⟩ := s2.indexed (by rw [hnf]; simpa using hu)
    refine ⟨f', g', s1, s3, ?_, s7.2.2.1, ?_, ?_, ?_⟩
    · rw [s7.2.1]; exact hix
    · rw [if_neg (by simp), ← e1, s9 D hD]
      simp only [R, e2, hnf]
      congr 1
      have hj : ∀ q : List τ, joinRows (((uniq l).map nm).map (m q)) = q.map (fun t => (uniq l).map (fun v => val v t)) := by
        intro q
        rw [List.map_map, ← joinRows_columns val q hu]
        congr 1
        apply List.map_congr_left
        intro v hv
        exact hm q v (mem_uniq.mp hv)
      rw [← List.map_cons, List.flatMap_map]
      simp only [hj]
      rw [List.map_flatten, List.flatMap_def]
    · intro k hk
      rw [s8 k hk]
      exact hgk k hk
    · intro x hx
      rw [s10 x (by rw [hpaths]; simpa using hx)]

end level

end ABX.RegInfo
