import Verif.Proofs.H5IO4
/-!
Lemmas for Properties/H5IO.lean: the calls to `write` and the end of the `with` statement.
-/
namespace ABX.H5IO
open ExtSort NP2H5 Task Spec
open Lookup (indexOf fusedType fusedLevels keyWeights cap m64 m64_eq fusedKey expand InRange radix)

variable {ν : Type} [DecidableEq ν]

attribute [local irreducible] m64 Lookup.keyOf

theorem map_exists {α β : Type} {f : α → Except Err β} {P : α → β → Prop} : ∀ {l : List α}, (∀ x ∈ l, ∃ y, f x = .ok y ∧ P x y) → ∃ ys : List β, l.map f = ys.map .ok ∧ List.Forall₂ P l ys
  | [], _ => ⟨[], rfl, .nil⟩
  | x :: l, h => by
    obtain ⟨y, h1, h2⟩ := h x (by simp)
    obtain ⟨ys, h3, h4⟩ := map_exists (l := l) (fun x hx => h x (by simp [hx]))
    exact ⟨y :: ys, by simp [h1, h3], .cons h2 h4⟩

theorem forall₂_map_eq {α β γ : Type} {P : α → β → Prop} {f : α → γ} {g : β → γ} (h : ∀ x y, P x y → f x = g y) {l : List α} {ys : List β} (h2 : List.Forall₂ P l ys) :
    ys.map g = l.map f := by
  induction h2 with
  | nil => rfl
  | cons hx _ ih => rw [List.map_cons, List.map_cons, ih, h _ _ hx]

/-- the writers of a group -/
structure Writers (group : String) (g : Group ν) (dims : String → Nat) (ds : List OutDecl) : Prop where
  paths : ds.map OutDecl.path = paths group g
  fits : ∀ D ∈ ds, Fits D
  good : ∀ D ∈ ds, Good g dims D
  raw : ∀ d ∈ g.raw, ∃ D ∈ ds, D.path = ("/", d) ∧ D.src = .raw d
  indexed : g.nonFused ≠ [] → ∃ D ∈ ds, D.path = (group, "indexed_data") ∧ D.src = .indexed g.nonFused
  only : g.fused = [] → ∀ D ∈ ds, ∀ l w, D.src ≠ .fused l w
  fused : ∀ p ∈ g.fused, ∃ D ∈ ds, ∃ w, D.path = (group, p.1) ∧ D.src = .fused p.2.1 w ∧
    ∀ row, InRange (expand (p.2.1.map (levels g)) (p.2.1.map dims)) row → castNat D.type (Lookup.keyOf (cap D.type) w row) = radix (expand (p.2.1.map (levels g)) (p.2.1.map dims)) row

theorem decls_ok {f : File ν} {group : String} {g : Group ν} (hw : Wf g) {dims : String → Nat} (hr : Ready f group g dims) {c : Bool × List (String × Input ν)} {m : String → List (List Nat)}
    (hc : Call g dims c m) {M : Nat} (hM : M = 2 ^ 64) :
    ∃ ds, g.raw.map (rawDecl c.2) ++ (if g.nonFused = [] then [] else [indexedDecl group g c.2]) ++ g.fused.map (fusedDecl M group c.2) = ds.map .ok ∧ Writers group g dims ds := by
  obtain ⟨d1, a1, b1⟩ := map_exists (f := rawDecl c.2) (l := g.raw) (fun d hd => rawDecl_ok hr hc hd)
  obtain ⟨d3, a3, b3⟩ := map_exists (f := fusedDecl M group c.2) (l := g.fused) (P := fun p D => ∃ w, D.path = (group, p.1) ∧ D.src = .fused p.2.1 w ∧ Fits D ∧ Good g dims D ∧
      ∀ row, InRange (expand (p.2.1.map (levels g)) (p.2.1.map dims)) row → castNat D.type (Lookup.keyOf (cap D.type) w row) = radix (expand (p.2.1.map (levels g)) (p.2.1.map dims)) row)
    (fun p hp => by
      obtain ⟨D, w, h⟩ := fusedDecl_ok hM hw hr hc hp
      exact ⟨D, h.1, w, h.2⟩)
  have h2 : ∃ d2 : List OutDecl, (if g.nonFused = [] then [] else [indexedDecl group g c.2]) = d2.map .ok ∧ d2.map OutDecl.path = (if g.nonFused = [] then [] else [(group, "indexed_data")]) ∧
      (∀ D ∈ d2, (Fits D ∧ Good g dims D) ∧ ∀ l w, D.src ≠ .fused l w) ∧ (g.nonFused ≠ [] → ∃ D ∈ d2, D.path = (group, "indexed_data") ∧ D.src = .indexed g.nonFused) := by
    by_cases h : g.nonFused = []
    · exact ⟨[], by simp [h], by simp [h], by simp, fun hn => absurd h hn⟩
    · obtain ⟨D, e1, e2, e3, e4, e5⟩ := indexedDecl_ok hw hr hc h
      refine ⟨[D], by simp [h, e1], by simp [h, e2], ?_, fun _ => ⟨D, by simp, e2, e3⟩⟩
      intro D' hD
      rw [List.mem_singleton.mp hD]
      exact ⟨⟨e4, e5⟩, by rw [e3]; simp⟩
  obtain ⟨d2, a2, p2, b2, c2⟩ := h2
  refine ⟨d1 ++ d2 ++ d3, by rw [a1, a2, a3]; simp, ?_, ?_, ?_, ?_, ?_, ?_, ?_⟩
  · rw [List.map_append, List.map_append, p2, forall₂_map_eq (f := fun d => (("/", d) : String × String)) (g := OutDecl.path) (fun x y h => h.1.symm) b1,
      forall₂_map_eq (f := fun p : String × List String × List Nat => (group, p.1)) (g := OutDecl.path) (fun x y ⟨_, h, _⟩ => h.symm) b3]
    rfl
  · intro D hD
    rcases List.mem_append.mp hD with hD | hD
    · rcases List.mem_append.mp hD with hD | hD
      · obtain ⟨x, _, h⟩ := forall₂_mem_right b1 D hD
        exact h.2.2.1
      · exact (b2 D hD).1.1
    · obtain ⟨x, _, w, h⟩ := forall₂_mem_right b3 D hD
      exact h.2.2.1
  · intro D hD
    rcases List.mem_append.mp hD with hD | hD
    · rcases List.mem_append.mp hD with hD | hD
      · obtain ⟨x, _, h⟩ := forall₂_mem_right b1 D hD
        exact h.2.2.2
      · exact (b2 D hD).1.2
    · obtain ⟨x, _, w, h⟩ := forall₂_mem_right b3 D hD
      exact h.2.2.2.1
  · intro d hd
    obtain ⟨D, hD, h⟩ := forall₂_mem_left b1 d hd
    exact ⟨D, by simp [hD], h.1, h.2.1⟩
  · intro hn
    obtain ⟨D, hD, h⟩ := c2 hn
    exact ⟨D, by simp [hD], h⟩
  · intro hf D hD
    rw [hf] at b3
    cases b3
    rw [List.append_nil] at hD
    rcases List.mem_append.mp hD with hD | hD
    · obtain ⟨x, _, h⟩ := forall₂_mem_right b1 D hD
      rw [h.2.1]; simp
    · exact (b2 D hD).2
  · intro p hp
    obtain ⟨D, hD, w, h⟩ := forall₂_mem_left b3 p hp
    exact ⟨D, by simp [hD], w, h.1, h.2.1, h.2.2.2.2⟩

theorem Writers.ne {group : String} {g : Group ν} (hw : Wf g) {dims : String → Nat} {ds : List OutDecl} (h : Writers group g dims ds) : ds ≠ [] := by
  rintro rfl
  obtain ⟨d, hd⟩ := List.exists_mem_of_ne_nil _ hw.ne
  by_cases hi : d ∈ keysOf g.indexed
  · by_cases hf : d ∈ g.fused.flatMap (fun p => p.2.1)
    · obtain ⟨p, hp, -⟩ := List.mem_flatMap.mp hf
      obtain ⟨D, hD, -⟩ := h.fused p hp
      simp at hD
    · have hn : g.nonFused ≠ [] := List.ne_nil_of_mem (a := d) (by
        unfold Group.nonFused
        exact List.mem_filter.mpr ⟨hi, by simpa using hf⟩)
      obtain ⟨D, hD, -⟩ := h.indexed hn
      simp at hD
  · obtain ⟨D, hD, -⟩ := h.raw d (mem_raw.mpr ⟨hd, hi⟩)
    simp at hD

theorem parse_ok {g : Group ν} {dims : String → Nat} {c : Bool × List (String × Input ν)} {m : String → List (List Nat)} (hc : Call g dims c m) : parse g.managed c.2 = .ok c.2 := by
  unfold parse
  rw [if_pos ⟨fun k hk => (hc.keys k).mp hk, fun k hk => (hc.keys k).mpr hk⟩]

theorem rawOk_ok {g : Group ν} {dims : String → Nat} {c : Bool × List (String × Input ν)} {m : String → List (List Nat)} (hc : Call g dims c m) {d : String} (hd : d ∈ g.raw) (hm : m d ≠ []) :
    rawOk c.2 d = .ok () := by
  obtain ⟨h1, h2⟩ := mem_raw.mp hd
  obtain ⟨i, hi, hg⟩ := call_lookup hc h1
  unfold rawOk
  rw [get_ok hi]
  generalize m d = md at hg hm
  cases hg with
  | raw _ _ _ => simp [hm]
  | numbers _ _ _ _ hd' _ _ => exact absurd (List.mem_map.mpr ⟨_, lookup_mem hd', rfl⟩) h2
  | values _ _ _ _ hd' _ _ _ => exact absurd (List.mem_map.mpr ⟨_, lookup_mem hd', rfl⟩) h2

/-- the group after the first call -/
def started (g : Group ν) (dims : String → Nat) (w : List (String × List Nat)) : Group ν :=
  { g with keyWeights := w, cumudims := if g.nonFused = [] then none else some (cumsum 0 (g.nonFused.map dims)) }

theorem initDatasets_ok {f : File ν} {group : String} {g : Group ν} (hw : Wf g) {dims : String → Nat} (hr : Ready f group g dims) {c : Bool × List (String × Input ν)} {m : String → List (List Nat)}
    (hc : Call g dims c m) (hm : ∀ d ∈ g.raw, m d ≠ []) :
    ∃ ds outs w, Writers group g dims ds ∧ initDatasets ⟨f, group, g, []⟩ c.2 = .ok ⟨f, group, started g dims w, outs⟩ ∧ outs.map Out.toOutDecl = ds ∧ (∀ o ∈ outs, OutInv o []) ∧ w = weightsOf outs := by
  obtain ⟨ds, h1, h2⟩ := decls_ok hw hr hc m64_eq
  have hmem : ∀ D ∈ ds, D.path ∈ paths group g := by
    intro D hD
    rw [← h2.paths]
    exact List.mem_map.mpr ⟨D, hD, rfl⟩
  obtain ⟨outs, e1, e2, e3⟩ := addAll_ok (f := f) (outs := []) h2.fits (fun D hD => lookup_none (hr.fresh.2 _ (hmem D hD))) (by simpa [h2.paths] using hr.fresh.1) (by simp)
  refine ⟨ds, outs, weightsOf outs, h2, ?_, by simpa using e2, e3, rfl⟩
  have hraw : sequence (g.raw.map (rawOk c.2)) = .ok (g.raw.map (fun _ => ())) := sequence_map_ok (fun d hd => rawOk_ok hc hd (hm d hd))
  have hdims := dimsOf_ok hc (ds := g.nonFused) (fun d hd => hw.sub d (mem_nonFused hd))
  rw [← h1] at e1
  simp only [initDatasets, parse_ok hc, hraw, e1, hdims]
  rfl

theorem weights_nil {group : String} {g : Group ν} {dims : String → Nat} {ds : List OutDecl} {outs : List Out} {w : List (String × List Nat)} (h : Writers group g dims ds)
    (hw : w = weightsOf outs) (ho : outs.map Out.toOutDecl = ds) : w = [] ↔ g.fused = [] := by
  constructor
  · intro hn
    by_contra hf
    obtain ⟨p, hp⟩ := List.exists_mem_of_ne_nil _ hf
    obtain ⟨D, hD, v, -, h2, -⟩ := h.fused p hp
    rw [← ho] at hD
    obtain ⟨o, hoo, rfl⟩ := List.mem_map.mp hD
    have : (o.path.2, v) ∈ weightsOf outs := by
      unfold weightsOf
      rw [List.mem_filterMap]
      exact ⟨o, hoo, by rw [h2]⟩
    rw [← hw, hn] at this
    simp at this
  · intro hf
    rw [hw]
    unfold weightsOf
    rw [List.filterMap_eq_nil_iff]
    intro o hoo
    have hsrc := h.only hf o.toOutDecl (by rw [← ho]; exact List.mem_map.mpr ⟨o, hoo, rfl⟩)
    split
    · rename_i h'; exact absurd h' (hsrc _ _)
    · rfl

omit [DecidableEq ν] in
/-- the fields of a group that a call reads -/
structure Same (g g' : Group ν) : Prop where
  managed : g'.managed = g.managed
  indexed : g'.indexed = g.indexed
  indexes : g'.indexes = g.indexes

theorem indexAll_same {g g' : Group ν} (h : Same g g') (data : List (String × Input ν)) : indexAll g' data = indexAll g data := by
  unfold indexAll computeIndexes
  rw [h.indexed, h.indexes]

theorem write1_ok {o : Obj ν} {g : Group ν} (hs : Same g o.g) (hw : Wf g) {dims : String → Nat} {c : Bool × List (String × Input ν)} {m : String → List (List Nat)} (hc : Call g dims c m)
    {ds : List OutDecl} (hg : ∀ D ∈ ds, Good g dims D) {W : OutDecl → List (List Nat)} (ho : o.outs.map Out.toOutDecl = ds) (hi : ∀ x ∈ o.outs, OutInv x (W x.toOutDecl)) :
    ∃ outs, write1 o c.1 c.2 = .ok { o with outs := outs } ∧ outs.map Out.toOutDecl = ds ∧ ∀ x ∈ outs, OutInv x (W x.toOutDecl ++ R m x.toOutDecl) := by
  obtain ⟨data, h1, h2⟩ := indexAll_ok hw hc
  obtain ⟨outs, e1, e2, e3⟩ := writeOuts_ok (data := data) (R := R m) (W := W) (outs := o.outs) (fun x hx => by
    refine hg _ ?_ m data (call_valid hw hc) h2
    rw [← ho]
    exact List.mem_map.mpr ⟨x, hx, rfl⟩) hi
  refine ⟨outs, ?_, by rw [e2, ho], e3⟩
  rw [write1, hs.managed, parse_ok hc]
  simp only [indexAll_same hs, h1, e1]

/-- the object during the calls -/
structure During (f : File ν) (group : String) (g : Group ν) (o : Obj ν) : Prop where
  name : o.group = group
  data : o.file.data = f.data
  has : ∃ x, o.file.groups.lookup group = some x
  other : ∀ k, k ≠ group → o.file.groups.lookup k = f.groups.lookup k
  same : o.g.cumudims = g.cumudims ∧ o.g.keyWeights = g.keyWeights ∧ o.g.managed = g.managed ∧ o.g.indexed = g.indexed ∧ o.g.indexes = g.indexes ∧ o.g.fused = g.fused
  full : o.g.empty = false

theorem put_lookup {β : Type} (l : List (String × β)) (k k' : String) (x : β) :
    (put l k x).lookup k' = if k' = k then (l.lookup k).map (fun _ => x) else l.lookup k' := by
  induction l with
  | nil => simp [put]
  | cons p l ih =>
    unfold put at ih ⊢
    rw [List.map_cons, List.lookup_cons, ih]
    by_cases h1 : p.1 = k
    · rw [if_pos h1]
      by_cases h2 : k' = k
      · subst h2; rw [List.lookup_cons (a := k') (b := p.2)]; simp [h1]
      · have : (k' == k) = false := by simpa using h2
        rw [this, if_neg h2, if_neg h2, List.lookup_cons]
        have : (k' == p.1) = false := by simpa [h1] using h2
        rw [this]
    · rw [if_neg h1]
      by_cases h2 : k' = k
      · subst h2
        have : (k' == p.1) = false := by simpa using fun h => h1 h.symm
        rw [this, if_pos rfl, if_pos rfl, List.lookup_cons, this]
      · rw [if_neg h2, if_neg h2, List.lookup_cons]

theorem setFlags_during {f : File ν} {group : String} {g : Group ν} {o : Obj ν} (h1 : o.group = group) (h2 : o.file.data = f.data) (h3 : ∃ x, o.file.groups.lookup group = some x)
    (h4 : ∀ k, k ≠ group → o.file.groups.lookup k = f.groups.lookup k)
    (h5 : o.g.cumudims = g.cumudims ∧ o.g.keyWeights = g.keyWeights ∧ o.g.managed = g.managed ∧ o.g.indexed = g.indexed ∧ o.g.indexes = g.indexes ∧ o.g.fused = g.fused) :
    During f group g (setFlags o) := by
  refine ⟨h1, h2, ?_, ?_, h5, rfl⟩
  · obtain ⟨x, hx⟩ := h3
    simp [setFlags, put_lookup, h1, hx]
  · intro k hk
    simp [setFlags, put_lookup, h1, hk, h4 k hk]

theorem During.outs {f : File ν} {group : String} {g : Group ν} {o : Obj ν} (h : During f group g o) (outs : List Out) : During f group g { o with outs := outs } :=
  ⟨h.name, h.data, h.has, h.other, h.same, h.full⟩

theorem writeAll_ok {f : File ν} {group : String} {g g' : Group ν} (hw : Wf g) (hs : Same g g') {dims : String → Nat} {ds : List OutDecl} (hne : ds ≠ []) (hg : ∀ D ∈ ds, Good g dims D) :
    ∀ {calls : List (Bool × List (String × Input ν))} {ms : List (String → List (List Nat))} {o : Obj ν} {W : OutDecl → List (List Nat)}, List.Forall₂ (Call g dims) calls ms →
    During f group g' o → o.outs.map Out.toOutDecl = ds → (∀ x ∈ o.outs, OutInv x (W x.toOutDecl)) →
    ∃ o', writeAll o calls = .ok o' ∧ During f group g' o' ∧ o'.outs.map Out.toOutDecl = ds ∧ ∀ x ∈ o'.outs, OutInv x (W x.toOutDecl ++ ms.flatMap (fun m => R m x.toOutDecl))
  | _, _, o, W, .nil, hd, ho, hi => ⟨o, rfl, hd, ho, by simpa using hi⟩
  | _, _, o, W, .cons (a := c) (b := m) (l₁ := cs) (l₂ := ms) hc ht, hd, ho, hi => by
    have hd' : During f group g' (setFlags o) := setFlags_during hd.name hd.data hd.has hd.other hd.same
    have hs' : Same g (setFlags o).g := ⟨hd.same.2.2.1.trans hs.managed, hd.same.2.2.2.1.trans hs.indexed, hd.same.2.2.2.2.1.trans hs.indexes⟩
    obtain ⟨outs, e1, e2, e3⟩ := write1_ok hs' hw hc hg (W := W) (o := setFlags o) ho hi
    obtain ⟨o', i1, i2, i3, i4⟩ := writeAll_ok hw hs hne hg (W := fun D => W D ++ R m D) ht (hd'.outs outs) e2 e3
    refine ⟨o', ?_, i2, i3, ?_⟩
    · have hne' : o.outs ≠ [] := by rintro h; rw [h] at ho; exact hne ho.symm
      have : write o true c.1 c.2 = .ok { setFlags o with outs := outs } := by
        unfold write
        rw [if_neg (by simp), if_neg (by simp [hd.full]), if_neg hne', e1]
      rw [writeAll, this]
      exact i1
    · intro x hx
      simpa [List.append_assoc] using i4 x hx

theorem lookup_append {β κ : Type} [BEq κ] [LawfulBEq κ] (l l' : List (κ × β)) (k : κ) : (l ++ l').lookup k = (l.lookup k).or (l'.lookup k) := by
  induction l with
  | nil => simp
  | cons p l ih =>
    rw [List.cons_append, List.lookup_cons, List.lookup_cons, ih]
    split <;> simp

/-- a whole session -/
theorem session_ok {f : File ν} {group : String} {g : Group ν} (hw : Wf g) (hf : ∃ x, f.groups.lookup group = some x) {dims : String → Nat} (hr : Ready f group g dims)
    {c : Bool × List (String × Input ν)} {m : String → List (List Nat)} {calls : List (Bool × List (String × Input ν))} {ms : List (String → List (List Nat))}
    (hc : List.Forall₂ (Call g dims) (c :: calls) (m :: ms)) (hm : ∀ d ∈ g.raw, m d ≠ []) :
    ∃ f' g' ds, session f group g (c :: calls) = .ok f' ∧ Writers group g dims ds ∧ f'.groups.lookup group = some g' ∧
      g'.empty = false ∧ g'.cumudims = (if g.nonFused = [] then none else some (cumsum 0 (g.nonFused.map dims))) ∧
      (g'.keyWeights = [] ↔ g.fused = []) ∧ (g'.managed = g.managed ∧ g'.indexed = g.indexed ∧ g'.indexes = g.indexes ∧ g'.fused = g.fused) ∧
      (∀ k, k ≠ group → f'.groups.lookup k = f.groups.lookup k) ∧
      (∀ D ∈ ds, f'.data.lookup D.path = some ((m :: ms).flatMap (fun m => R m D))) ∧ ∀ x, x ∉ paths group g → f'.data.lookup x = f.data.lookup x := by
  cases hc with
  | cons hc ht =>
  obtain ⟨ds, outs, w, h1, h2, h3, h4, hwts⟩ := initDatasets_ok hw hr hc hm
  have hs : Same g (started g dims w) := ⟨rfl, rfl, rfl⟩
  have hd : During f group (started g dims w) (setFlags ⟨f, group, started g dims w, outs⟩) := setFlags_during rfl rfl hf (fun _ _ => rfl) ⟨rfl, rfl, rfl, rfl, rfl, rfl⟩
  obtain ⟨outs1, e1, e2, e3⟩ := write1_ok (o := setFlags ⟨f, group, started g dims w, outs⟩) (g := g) ⟨rfl, rfl, rfl⟩ hw hc h1.good (W := fun _ => []) h3 h4
  obtain ⟨o', i1, i2, i3, i4⟩ := writeAll_ok hw hs (h1.ne hw) h1.good (W := fun D => [] ++ R m D) ht (hd.outs outs1) e2 e3
  have hfl := flushOuts_ok (W := fun D => [] ++ R m D ++ ms.flatMap (fun m => R m D)) i4
  rw [i3] at hfl
  have hwr : write ⟨f, group, g, []⟩ true c.1 c.2 = .ok { setFlags ⟨f, group, started g dims w, outs⟩ with outs := outs1 } := by
    unfold write
    rw [if_neg (by simp), if_pos (by exact hw.empty), h2]
    exact e1
  have hnd : (ds.map (fun D => (D.path, [] ++ R m D ++ ms.flatMap (fun m => R m D)))).map Prod.fst = paths group g := by
    rw [List.map_map, ← h1.paths]
    rfl
  refine ⟨⟨put o'.file.groups o'.group o'.g, o'.file.data ++ ds.map (fun D => (D.path, [] ++ R m D ++ ms.flatMap (fun m => R m D)))⟩, o'.g, ds, ?_, h1, ?_, i2.full, i2.same.1, ?_, ?_, ?_, ?_, ?_⟩
  · rw [session, writeAll, hwr]
    simp only [i1, exit, hfl]
  · obtain ⟨x, hx⟩ := i2.has
    simp [put_lookup, i2.name, hx]
  · rw [i2.same.2.1]
    exact weights_nil h1 hwts h3
  · exact i2.same.2.2
  · intro k hk
    simp [put_lookup, i2.name, hk, i2.other k hk]
  · intro D hD
    rw [lookup_append, i2.data]
    have hp : D.path ∈ paths group g := by rw [← h1.paths]; exact List.mem_map.mpr ⟨D, hD, rfl⟩
    rw [lookup_none (hr.fresh.2 _ hp), Option.none_or]
    refine lookup_of_mem (by unfold keysOf; rw [hnd]; exact hr.fresh.1) ?_
    exact List.mem_map.mpr ⟨D, hD, by simp⟩
  · intro x hx
    rw [lookup_append, i2.data, lookup_none (l := ds.map _) (by unfold keysOf; rw [hnd]; exact hx), Option.or_none]

end ABX.H5IO
