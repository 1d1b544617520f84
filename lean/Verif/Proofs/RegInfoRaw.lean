import Verif.Proofs.RegInfo
/-!
Sessions of H5IO never remove data, and leave a dataset at the root of the file for every raw dataset: no second level can be written then.
-/
namespace ABX.RegInfo
open ExtSort SideOps H5IO

section session
variable {ν : Type} [DecidableEq ν]

omit [DecidableEq ν] in
theorem addDataset_path {f : File ν} {outs : List Out} {d : OutDecl} {o : Out} (h : addDataset f outs d = .ok o) : o.path = d.path := by
  unfold addDataset at h
  split at h
  · cases h
  · dsimp only at h
    split at h
    · cases h
    · split at h
      · cases h
      · split at h
        · cases h
        · cases h; rfl

omit [DecidableEq ν] in
theorem addAll_paths {f : File ν} : ∀ {l : List (Except Err OutDecl)} {outs outs' : List Out}, addAll f outs l = .ok outs' →
    (∀ o ∈ outs, o ∈ outs') ∧ ∀ D, .ok D ∈ l → ∃ o ∈ outs', o.path = D.path
  | [], outs, outs', h => by
    obtain rfl := Except.ok.inj h
    exact ⟨fun _ h => h, by simp⟩
  | .error e :: l, outs, outs', h => by cases h
  | .ok d :: l, outs, outs', h => by
    rw [addAll] at h
    split at h
    · cases h
    · rename_i o ho
      obtain ⟨h1, h2⟩ := addAll_paths h
      refine ⟨fun x hx => h1 x (by simp [hx]), ?_⟩
      intro D hD
      rcases List.mem_cons.mp hD with hD | hD
      · obtain rfl := Except.ok.inj hD
        exact ⟨o, h1 o (by simp), addDataset_path ho⟩
      · exact h2 D hD

omit [DecidableEq ν] in
theorem writeOuts_paths {data : List (String × Input ν)} : ∀ {outs outs' : List Out}, writeOuts data outs = .ok outs' → outs'.map (fun o => o.path) = outs.map (fun o => o.path)
  | [], outs', h => by obtain rfl := Except.ok.inj h; rfl
  | o :: os, outs', h => by
    rw [writeOuts] at h
    split at h
    · cases h
    split at h
    · cases h
    split at h
    · cases h
    rename_i os' hos
    obtain rfl := Except.ok.inj h
    rw [List.map_cons, List.map_cons, writeOuts_paths hos]

omit [DecidableEq ν] in
theorem flushOuts_paths : ∀ {outs : List Out} {l}, flushOuts outs = .ok l → l.map Prod.fst = outs.map (fun o => o.path)
  | [], l, h => by obtain rfl := Except.ok.inj h; rfl
  | o :: os, l, h => by
    rw [flushOuts] at h
    split at h
    · cases h
    split at h
    · cases h
    rename_i l' hl
    obtain rfl := Except.ok.inj h
    rw [List.map_cons, List.map_cons, flushOuts_paths hl]

theorem write1_inv {o o' : Obj ν} {fl : Bool} {c : List (String × Input ν)} (h : write1 o fl c = .ok o') :
    o'.file = o.file ∧ o'.g = o.g ∧ o'.outs.map (fun x => x.path) = o.outs.map (fun x => x.path) := by
  unfold write1 at h
  split at h
  · cases h
  split at h
  · cases h
  split at h
  · cases h
  rename_i outs ho
  obtain rfl := Except.ok.inj h
  exact ⟨rfl, rfl, writeOuts_paths ho⟩

omit [DecidableEq ν] in
theorem rawDecl_path {data : List (String × Input ν)} {d : String} {D : OutDecl} (h : rawDecl data d = .ok D) : D.path = ("/", d) := by
  unfold rawDecl at h
  split at h
  · obtain rfl := Except.ok.inj h; rfl
  · cases h
  · cases h

omit [DecidableEq ν] in
theorem initDatasets_inv {o o' : Obj ν} {c : List (String × Input ν)} (h : initDatasets o c = .ok o') :
    o'.file = o.file ∧ ∀ d ∈ o.g.raw, ("/", d) ∈ o'.outs.map (fun x => x.path) := by
  unfold initDatasets at h
  split at h
  · cases h
  rename_i data _
  split at h
  · cases h
  split at h
  · cases h
  rename_i outs ho
  split at h
  · cases h
  obtain rfl := Except.ok.inj h
  refine ⟨rfl, fun d hd => ?_⟩
  have hmem : rawDecl data d ∈ o.g.raw.map (rawDecl data) ++ (if o.g.nonFused = [] then [] else [indexedDecl o.group o.g data]) ++ o.g.fused.map (fusedDecl Lookup.m64 o.group data) := by
    rw [List.mem_append, List.mem_append]
    exact .inl (.inl (List.mem_map_of_mem hd))
  cases hr : rawDecl data d with
  | error e =>
    rw [hr] at hmem
    obtain ⟨e', he'⟩ := addAll_error (f := o.file) (outs := []) hmem
    rw [he'] at ho
    cases ho
  | ok D =>
    rw [hr] at hmem
    obtain ⟨x, hx, hp⟩ := (addAll_paths ho).2 D hmem
    exact List.mem_map.mpr ⟨x, hx, hp.trans (rawDecl_path hr)⟩

theorem write_inv {o o' : Obj ν} {ap fl : Bool} {c : List (String × Input ν)} (h : H5IO.write o ap fl c = .ok o') :
    o'.file.data = o.file.data ∧ o'.g.empty = false ∧ (o.g.empty = true → ∀ d ∈ o.g.raw, ("/", d) ∈ o'.outs.map (fun x => x.path)) ∧
      (o.g.empty = false → o'.outs.map (fun x => x.path) = o.outs.map (fun x => x.path)) := by
  unfold H5IO.write at h
  split at h
  · cases h
  split at h
  · rename_i he
    split at h
    · cases h
    rename_i o1 ho1
    obtain ⟨i1, i2⟩ := initDatasets_inv ho1
    obtain ⟨w1, w2, w3⟩ := write1_inv h
    refine ⟨?_, ?_, fun _ d hd => ?_, fun hf => ?_⟩
    · rw [w1]; show o1.file.data = _; rw [i1]
    · rw [w2]; rfl
    · rw [w3]; exact i2 d hd
    · rw [he] at hf; cases hf
  · rename_i he
    split at h
    · cases h
    obtain ⟨w1, w2, w3⟩ := write1_inv h
    refine ⟨?_, ?_, fun hf => absurd hf he, fun _ => ?_⟩
    · rw [w1]; rfl
    · rw [w2]; rfl
    · rw [w3]; rfl

theorem writeAll_inv : ∀ {calls : List (Bool × List (String × Input ν))} {o o' : Obj ν}, writeAll o calls = .ok o' →
    o'.file.data = o.file.data ∧ (o.g.empty = false → o'.outs.map (fun x => x.path) = o.outs.map (fun x => x.path)) ∧
      (o.g.empty = true → calls ≠ [] → ∀ d ∈ o.g.raw, ("/", d) ∈ o'.outs.map (fun x => x.path))
  | [], o, o', h => by
    obtain rfl := Except.ok.inj h
    exact ⟨rfl, fun _ => rfl, fun _ h => absurd rfl h⟩
  | c :: cs, o, o', h => by
    rw [writeAll] at h
    split at h
    · cases h
    rename_i o1 ho1
    obtain ⟨w1, w2, w3, w4⟩ := write_inv ho1
    obtain ⟨r1, r2, r3⟩ := writeAll_inv h
    refine ⟨r1.trans w1, fun he => (r2 w2).trans (w4 he), fun he _ d hd => ?_⟩
    rw [r2 w2]
    exact w3 he d hd

/-- a session keeps the data of the file, and leaves the raw datasets at its root -/
theorem session_data {f f' : File ν} {group : String} {g : H5IO.Group ν} {calls : List (Bool × List (String × Input ν))} (h : session f group g calls = .ok f') :
    (∀ x y, f.data.lookup x = some y → f'.data.lookup x = some y) ∧ (g.empty = true → calls ≠ [] → ∀ d ∈ g.raw, ∃ y, f'.data.lookup ("/", d) = some y) := by
  unfold session at h
  split at h
  · cases h
  rename_i o ho
  obtain ⟨r1, r2, r3⟩ := writeAll_inv ho
  unfold H5IO.exit at h
  split at h
  · cases h
  rename_i l hl
  obtain rfl := Except.ok.inj h
  dsimp only at r1 r2 r3 ⊢
  constructor
  · intro x y hx
    rw [r1, lookup_append, hx]
    rfl
  · intro he hc d hd
    have := r3 he hc d hd
    rw [← flushOuts_paths hl] at this
    refine lookup_of_mem_keys ?_
    unfold keysOf
    rw [List.map_append, List.mem_append]
    exact .inr this

end session

theorem writeLevel_data {ascii : Val → Bool} {f f' : File Val} {group : String} {fields : List (List Kind)} {blocks : List (List (List Nat))} (h : writeLevel ascii (some f) group fields blocks = .ok f') :
    (∀ x y, f.data.lookup x = some y → f'.data.lookup x = some y) ∧
      ∀ d, d ∈ (info fields).1 → d ∉ keysOf (info fields).2 → blocks ≠ [] → (∃ y, f'.data.lookup ("/", d) = some y) ∧ f.data.lookup ("/", d) = none := by
  unfold writeLevel at h
  split at h
  · rename_i f1 g hi
    obtain ⟨indexed, h1, h2, h3, hf1⟩ := H5IO.init_ok hi
    obtain ⟨c1, c2, c3⟩ := checkDecl_ok h1
    obtain ⟨hw, e1, e2, e3, -⟩ := newGroup_ok h3 c1 c2 c3
    have hdata : f1.data = f.data := by rw [hf1]; rfl
    obtain ⟨s1, s2⟩ := session_data h
    refine ⟨fun x y hx => s1 x y (by rw [hdata]; exact hx), ?_⟩
    intro d hd hk hb
    have hraw : d ∈ g.raw := by
      unfold H5IO.Group.raw
      rw [List.mem_dedup, List.mem_filter, e1]
      refine ⟨hd, ?_⟩
      simp only [decide_eq_true_eq]
      intro hx
      rw [e2] at hx
      obtain ⟨p, hp, rfl⟩ := List.mem_map.mp hx
      unfold checkDecl at h1
      dsimp only at h1
      split at h1
      · unfold checkFused at h1
        split at h1
        · obtain rfl := Except.ok.inj h1
          obtain ⟨q, hq, rfl⟩ := List.mem_map.mp hp
          exact hk (List.mem_map.mpr ⟨q, hq, rfl⟩)
        · cases h1
      · cases h1
    refine ⟨s2 hw.empty (by simpa using hb) d hraw, ?_⟩
    cases blocks with
    | nil => exact absurd rfl hb
    | cons b bs =>
      cases hl : f.data.lookup ("/", d) with
      | none => rfl
      | some y =>
        exfalso
        rw [List.map_cons] at h
        obtain ⟨e, he⟩ := C66_two_groups (f := f1) (group := group) (g := g) hw.empty hraw ⟨y, by rw [hdata]; exact hl⟩ (true, (table (nameLists fields) b).map (fun p => (p.1, input p.2)))
          (bs.map (fun cols => (true, (table (nameLists fields) cols).map (fun p => (p.1, input p.2)))))
        rw [he] at h
        cases h
  · cases h
  · cases h

theorem writeLevels_data {ascii : Val → Bool} {fields : List (List Kind)} : ∀ {ls : List (String × List (List (List Nat)))} {f f' : File Val}, writeLevels ascii fields f ls = .ok f' →
    (∀ x y, f.data.lookup x = some y → f'.data.lookup x = some y) ∧
      ∀ p ∈ ls, ∀ d, d ∈ (info fields).1 → d ∉ keysOf (info fields).2 → p.2 ≠ [] → f.data.lookup ("/", d) = none
  | [], f, f', h => by
    obtain rfl := Except.ok.inj h
    exact ⟨fun _ _ h => h, by simp⟩
  | (group, blocks) :: ls, f, f', h => by
    rw [writeLevels] at h
    split at h
    · cases h
    rename_i f1 h1
    obtain ⟨a1, a2⟩ := writeLevel_data h1
    obtain ⟨b1, b2⟩ := writeLevels_data h
    refine ⟨fun x y hx => b1 x y (a1 x y hx), ?_⟩
    intro p hp d hd hk hb
    rcases List.mem_cons.mp hp with rfl | hp
    · exact (a2 d hd hk hb).2
    · cases hl : f.data.lookup ("/", d) with
      | none => rfl
      | some y =>
        have := b2 p hp d hd hk hb
        rw [a1 _ _ hl] at this
        cases this

theorem writeLevels_append {ascii : Val → Bool} {fields : List (List Kind)} : ∀ {l1 l2 : List (String × List (List (List Nat)))} {f f' : File Val}, writeLevels ascii fields f (l1 ++ l2) = .ok f' →
    ∃ f1, writeLevels ascii fields f l1 = .ok f1 ∧ writeLevels ascii fields f1 l2 = .ok f'
  | [], l2, f, f', h => ⟨f, rfl, h⟩
  | (group, blocks) :: l1, l2, f, f', h => by
    rw [List.cons_append, writeLevels] at h
    split at h
    · cases h
    rename_i f1 h1
    obtain ⟨f2, h2, h3⟩ := writeLevels_append h
    exact ⟨f2, by rw [writeLevels, h1]; exact h2, h3⟩

/-! ### names of scripts -/

theorem fetch_scripts {k : Kind} {n : Nat} (hk : k = .script (n + 1) none) : ∀ {ks : List Kind} (m : Nat), k ∈ ks → ∃ i, "reg_" ++ toString (i : Nat) ∈ (fetch m ks).1.flatten
  | k' :: ks, m, h => by
    rcases List.mem_cons.mp h with rfl | h
    · subst hk
      refine ⟨m, ?_⟩
      simp only [fetch, Kind.specs, List.flatten_cons, List.mem_append]
      exact .inl (List.mem_map.mpr ⟨0, by simp, rfl⟩)
    · rw [fetch]
      split
      · obtain ⟨i, hi⟩ := fetch_scripts hk (m + k'.specs.1) h
        exact ⟨i, by simp only [List.flatten_cons, List.mem_append]; exact .inr hi⟩
      · obtain ⟨i, hi⟩ := fetch_scripts hk m h
        exact ⟨i, by simp only [List.flatten_cons, List.mem_append]; exact .inr hi⟩

theorem fetchAll_scripts {k : Kind} {n : Nat} (hk : k = .script (n + 1) none) : ∀ {fs : List (List Kind)} (m : Nat), k ∈ fs.flatten → ∃ i, "reg_" ++ toString (i : Nat) ∈ (fetchAll m fs).flatMap (fun f => f.1.flatten)
  | f :: fs, m, h => by
    rw [List.flatten_cons, List.mem_append] at h
    rw [fetchAll, List.flatMap_cons]
    rcases h with h | h
    · obtain ⟨i, hi⟩ := fetch_scripts hk m h
      exact ⟨i, List.mem_append.mpr (.inl hi)⟩
    · obtain ⟨i, hi⟩ := fetchAll_scripts hk (fetch m f).2.2 h
      exact ⟨i, List.mem_append.mpr (.inr hi)⟩

theorem fetch_keys : ∀ (ks : List Kind) (m : Nat) (x : String × List Val), x ∈ (fetch m ks).2.1.flatten → Kind.column x.1 x.2 ∈ ks
  | [], m, x, h => by simp [fetch] at h
  | k :: ks, m, x, h => by
    have hk : x ∈ k.specs.2.2 → Kind.column x.1 x.2 = k := by
      intro hx
      cases k with
      | column name index =>
        simp only [Kind.specs] at hx
        split at hx
        · simp at hx
        · rw [List.mem_singleton.mp hx]
      | script n names => simp [Kind.specs] at hx
    rw [fetch] at h
    split at h
    · simp only [List.flatten_cons, List.mem_append] at h
      rcases h with h | h
      · rw [hk h]; simp
      · exact List.mem_cons_of_mem _ (fetch_keys ks _ x h)
    · simp only [List.flatten_cons, List.mem_append] at h
      rcases h with h | h
      · rw [hk h]; simp
      · exact List.mem_cons_of_mem _ (fetch_keys ks _ x h)

theorem fetchAll_keys : ∀ (fs : List (List Kind)) (m : Nat) (x : String × List Val), x ∈ (fetchAll m fs).flatMap (fun f => f.2.flatten) → Kind.column x.1 x.2 ∈ fs.flatten
  | [], m, x, h => by simp [fetchAll] at h
  | f :: fs, m, x, h => by
    rw [fetchAll, List.flatMap_cons, List.mem_append] at h
    rw [List.flatten_cons, List.mem_append]
    rcases h with h | h
    · exact .inl (fetch_keys f m x h)
    · exact .inr (fetchAll_keys fs _ x h)

theorem keysOf_setItem {β : Type} (d : List (String × β)) (k : String) (x : β) : ∀ y, y ∈ keysOf (setItem d k x) ↔ y ∈ keysOf d ∨ y = k := by
  intro y
  unfold setItem
  split
  · rename_i h
    have : keysOf (put d k x) = keysOf d := by
      unfold keysOf put
      rw [List.map_map]
      apply List.map_congr_left
      intro p _
      by_cases hp : p.1 = k <;> simp [hp]
    rw [this]
    constructor
    · exact Or.inl
    · rintro (h' | rfl) <;> assumption
  · unfold keysOf
    simp

theorem keysOf_update {β : Type} : ∀ (l d : List (String × β)) (y : String), y ∈ keysOf (update d l) ↔ y ∈ keysOf d ∨ y ∈ keysOf l
  | [], d, y => by simp [update, keysOf]
  | p :: l, d, y => by
    rw [update, List.foldl_cons]
    have := keysOf_update l (setItem d p.1 p.2) y
    rw [update] at this
    rw [this, keysOf_setItem]
    unfold keysOf
    rw [List.map_cons, List.mem_cons, or_assoc]

end ABX.RegInfo
