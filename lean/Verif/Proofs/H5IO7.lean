import Verif.Proofs.H5IO6
/-!
Lemmas for Properties/H5IO.lean: first calls that fail; the creations that are accepted.
-/
namespace ABX.H5IO
open ExtSort NP2H5 Task Spec
open Lookup (m64)

variable {ν : Type} [DecidableEq ν]

omit [DecidableEq ν] in
theorem addAll_error {f : File ν} {e : Err} : ∀ {l : List (Except Err OutDecl)} {outs : List Out}, .error e ∈ l → ∃ e', addAll f outs l = .error e'
  | .error e' :: l, outs, _ => ⟨e', rfl⟩
  | .ok d :: l, outs, h => by
    rw [addAll]
    cases ha : addDataset f outs d with
    | error e' => exact ⟨e', rfl⟩
    | ok o => exact addAll_error (by simpa using h)

omit [DecidableEq ν] in
theorem addAll_exists {f : File ν} {D : OutDecl} (hD : ∃ x, f.data.lookup D.path = some x) : ∀ {l : List (Except Err OutDecl)} {outs : List Out}, .ok D ∈ l → ∃ e', addAll f outs l = .error e'
  | .error e' :: l, outs, _ => ⟨e', rfl⟩
  | .ok d :: l, outs, h => by
    rw [addAll]
    cases ha : addDataset f outs d with
    | error e' => exact ⟨e', rfl⟩
    | ok o =>
      rcases List.mem_cons.mp h with h | h
      · exfalso
        obtain rfl := Except.ok.inj h
        obtain ⟨x, hx⟩ := hD
        unfold addDataset at ha
        split at ha
        · cases ha
        · have : ∃ y, (if D.path ∈ outs.map (fun o => o.path) then some [] else f.data.lookup D.path) = some y := by
            split
            · exact ⟨_, rfl⟩
            · exact ⟨x, hx⟩
          obtain ⟨y, hy⟩ := this
          simp only [hy, Buf.create] at ha
          simp at ha
      · exact addAll_exists hD h

theorem session_error {f : File ν} {group : String} {g : Group ν} (he : g.empty = true) {c : Bool × List (String × Input ν)} {calls : List (Bool × List (String × Input ν))}
    (h : ∃ e, initDatasets ⟨f, group, g, []⟩ c.2 = .error e) : ∃ e, session f group g (c :: calls) = .error e := by
  obtain ⟨e, h⟩ := h
  refine ⟨e, ?_⟩
  have : write ⟨f, group, g, []⟩ true c.1 c.2 = .error e := by
    unfold write
    rw [if_neg (by simp), if_pos (by exact he), h]
  rw [session, writeAll, this]

omit [DecidableEq ν] in
theorem initDatasets_error {o : Obj ν} {data : List (String × Input ν)}
    (h : ∃ e, addAll o.file [] (o.g.raw.map (rawDecl data) ++ (if o.g.nonFused = [] then [] else [indexedDecl o.group o.g data]) ++ o.g.fused.map (fusedDecl m64 o.group data)) = .error e) :
    ∃ e, initDatasets o data = .error e := by
  obtain ⟨e, h⟩ := h
  unfold initDatasets
  split
  · exact ⟨_, rfl⟩
  · rename_i data' hp
    have : data' = data := by
      unfold parse at hp
      split at hp
      · exact (Except.ok.inj hp).symm
      · cases hp
    subst this
    split
    · exact ⟨_, rfl⟩
    · rw [h]; exact ⟨_, rfl⟩

omit [DecidableEq ν] in
theorem sequence_error {α β : Type} {f : α → Except Err β} {l : List α} {x : α} {e : Err} (hx : x ∈ l) (h : f x = .error e) : ∃ e', sequence (l.map f) = .error e' := by
  cases hs : sequence (l.map f) with
  | error e' => exact ⟨e', rfl⟩
  | ok ys =>
    obtain ⟨y, _, hy⟩ := forall₂_mem_left (SideOps.sequence_inv hs) x hx
    rw [h] at hy
    cases hy

omit [DecidableEq ν] in
theorem indexedDecl_error {group : String} {g : Group ν} {d : String} (hd : d ∈ g.nonFused) (hk : d ∉ keysOf g.indexes) (data : List (String × Input ν)) :
    ∃ e, indexedDecl group g data = .error e := by
  unfold indexedDecl
  split
  · exact ⟨_, rfl⟩
  · obtain ⟨e, he⟩ := sequence_error (f := get g.indexes) (e := .keyError) hd (by unfold get; rw [lookup_none hk])
    rw [he]
    exact ⟨_, rfl⟩

/-! ### creation -/

omit [DecidableEq ν] in
theorem getArray_iff {β : Type} {ascii : β → Bool} {l : List β} : getArray ascii l = .ok () ↔ l ≠ [] ∧ ∀ x ∈ l, ascii x = true := by
  unfold getArray
  by_cases h : l = []
  · simp [h]
  · rw [if_neg h]
    by_cases h2 : l.all ascii = true
    · rw [if_pos h2]; simpa [h] using h2
    · rw [if_neg h2]; simpa [h] using h2

omit [DecidableEq ν] in
theorem checkFused_iff {fused : List (String × List String)} {ix : List (String × String)} {r : List (String × String)} :
    checkFused fused ix = .ok r ↔ r = ix ∧ ∀ p ∈ fused, ∀ d ∈ p.2, d ∈ keysOf ix := by
  unfold checkFused
  split
  · rename_i h
    constructor
    · intro hr
      exact ⟨(Except.ok.inj hr).symm, fun p hp d hd => h d (List.mem_flatMap.mpr ⟨p, hp, hd⟩)⟩
    · rintro ⟨rfl, -⟩; rfl
  · rename_i h
    constructor
    · intro hr; cases hr
    · rintro ⟨-, h2⟩
      exact absurd (fun d hd => by
        obtain ⟨p, hp, hd⟩ := List.mem_flatMap.mp hd
        exact h2 p hp d hd) h

/-- the declared indexes as pairs -/
def pairs (decl : Decl) (indexes : List (String × List ν)) : List (String × String) :=
  match decl with
  | .mapping l => l.filterMap (fun p => p.2.map (fun i => (p.1, i)))
  | .names _ => indexes.map (fun p => (p.1, p.1))

omit [DecidableEq ν] in
theorem mem_pairs_mapping {l : List (String × Option String)} {d i : String} : (d, i) ∈ l.filterMap (fun p => p.2.map (fun i => (p.1, i))) ↔ (d, some i) ∈ l := by
  rw [List.mem_filterMap]
  constructor
  · rintro ⟨⟨a, b⟩, hp, he⟩
    cases b with
    | none => simp at he
    | some b => simp at he; obtain ⟨rfl, rfl⟩ := he; exact hp
  · intro h; exact ⟨_, h, rfl⟩

omit [DecidableEq ν] in
theorem checkDecl_iff {decl : Decl} {indexes : List (String × List ν)} {fused : List (String × List String)} {r : List (String × String)} :
    checkDecl decl indexes fused = .ok r ↔ r = pairs decl indexes ∧ Consistent decl indexes fused := by
  cases decl with
  | mapping l =>
    have hs : ∀ i, i ∈ (l.filterMap (fun p => p.2.map (fun i => (p.1, i)))).map Prod.snd ↔ ∃ d, (d, some i) ∈ l := by
      intro i
      rw [List.mem_map]
      constructor
      · rintro ⟨⟨d, i'⟩, h, rfl⟩; exact ⟨d, mem_pairs_mapping.mp h⟩
      · rintro ⟨d, h⟩; exact ⟨(d, i), mem_pairs_mapping.mpr h, rfl⟩
    have hk : ∀ d, d ∈ keysOf (l.filterMap (fun p => p.2.map (fun i => (p.1, i)))) ↔ ∃ i, (d, some i) ∈ l := by
      intro d
      unfold keysOf
      rw [List.mem_map]
      constructor
      · rintro ⟨⟨d, i'⟩, h, rfl⟩; exact ⟨i', mem_pairs_mapping.mp h⟩
      · rintro ⟨i, h⟩; exact ⟨(d, i), mem_pairs_mapping.mpr h, rfl⟩
    unfold checkDecl
    dsimp only
    split
    · rename_i h
      rw [checkFused_iff]
      constructor
      · rintro ⟨rfl, h2⟩
        refine ⟨rfl, fun d i hd => h.1 i ((hs i).mpr ⟨d, hd⟩), fun i hi => (hs i).mp (h.2 i hi), fun p hp d hd => (hk d).mp (h2 p hp d hd)⟩
      · rintro ⟨rfl, h2⟩
        exact ⟨rfl, fun p hp d hd => (hk d).mpr (h2.fused p hp d hd)⟩
    · rename_i h
      constructor
      · intro h; cases h
      · rintro ⟨-, h2⟩
        refine absurd ⟨fun i hi => ?_, fun i hi => ?_⟩ h
        · obtain ⟨d, hd⟩ := (hs i).mp hi
          exact h2.given d i hd
        · exact (hs i).mpr (h2.used i hi)
  | names l =>
    have hk : ∀ d, d ∈ keysOf (indexes.map (fun p => (p.1, p.1))) ↔ d ∈ keysOf indexes := by
      intro d; unfold keysOf; simp
    unfold checkDecl
    dsimp only
    split
    · rename_i h
      rw [checkFused_iff]
      constructor
      · rintro ⟨rfl, h2⟩
        refine ⟨rfl, fun d i hd => hd.2.2, fun i hi => ⟨i, rfl, h i hi, hi⟩, fun p hp d hd => ?_⟩
        have := (hk d).mp (h2 p hp d hd)
        exact ⟨d, rfl, h d this, this⟩
      · rintro ⟨rfl, h2⟩
        refine ⟨rfl, fun p hp d hd => (hk d).mpr ?_⟩
        obtain ⟨i, rfl, -, hi⟩ := h2.fused p hp d hd
        exact hi
    · rename_i h
      constructor
      · intro h; cases h
      · rintro ⟨-, h2⟩
        refine absurd (fun i hi => ?_) h
        obtain ⟨d, rfl, hd, -⟩ := h2.used i hi
        exact hd

omit [DecidableEq ν] in
theorem pairs_hasIndex {decl : Decl} {indexes : List (String × List ν)} {fused : List (String × List String)} (hc : Consistent decl indexes fused) {d i : String} :
    (d, i) ∈ pairs decl indexes ↔ HasIndex decl indexes d i := by
  cases decl with
  | mapping l => exact mem_pairs_mapping
  | names l =>
    unfold pairs HasIndex
    dsimp only
    rw [List.mem_map]
    constructor
    · rintro ⟨p, hp, he⟩
      obtain ⟨rfl, rfl⟩ := Prod.mk.inj he
      have hk : p.1 ∈ keysOf indexes := List.mem_map.mpr ⟨p, hp, rfl⟩
      obtain ⟨d, rfl, hd, -⟩ := hc.used _ hk
      exact ⟨rfl, hd, hk⟩
    · rintro ⟨rfl, -, hi⟩
      obtain ⟨p, hp, rfl⟩ := List.mem_map.mp hi
      exact ⟨p, hp, rfl⟩

omit [DecidableEq ν] in
theorem asciiName_iff {s : String} : asciiName s = true ↔ ∀ c ∈ s.toList, c.toNat < 128 := by
  simp [asciiName]

omit [DecidableEq ν] in
theorem newGroup_iff {ascii : ν → Bool} {decl : Decl} {indexes : List (String × List ν)} {fused : List (String × List String)} (hc : Consistent decl indexes fused) :
    (∃ g, newGroup ascii decl.managed (pairs decl indexes) indexes fused = .ok g) ↔ Storable ascii decl indexes := by
  have hvals : (∃ r, sequence (if pairs decl indexes = [] then [] else indexes.map (fun p => getArray ascii p.2)) = .ok r) ↔ ∀ p ∈ indexes, p.2 ≠ [] ∧ ∀ v ∈ p.2, ascii v = true := by
    by_cases hp : pairs decl indexes = []
    · rw [if_pos hp]
      have : indexes = [] := by
        by_contra hne
        obtain ⟨p, hp'⟩ := List.exists_mem_of_ne_nil _ hne
        obtain ⟨d, hd⟩ := hc.used p.1 (List.mem_map.mpr ⟨p, hp', rfl⟩)
        rw [← pairs_hasIndex hc, hp] at hd
        simp at hd
      simp [this, sequence]
    · rw [if_neg hp]
      constructor
      · rintro ⟨r, hr⟩ p hp'
        obtain ⟨y, _, hy⟩ := forall₂_mem_left (SideOps.sequence_inv hr) p hp'
        exact getArray_iff.mp hy
      · intro h
        exact ⟨_, sequence_map_ok (g := fun _ => ()) (fun p hp' => getArray_iff.mpr (h p hp'))⟩
  have hlev : ∀ p ∈ fused, ∃ l, levelsOf indexes (pairs decl indexes) p.2 = .ok l := by
    intro p hp
    unfold levelsOf
    obtain ⟨ys, h, -⟩ := sequence_exists (Q := fun _ _ => True) (l := p.2) (f := fun d => match get (pairs decl indexes) d with
      | .error e => .error e
      | .ok i => match get indexes i with
        | .error e => .error e
        | .ok l => .ok l.length) (fun d hd => by
      obtain ⟨i, hi⟩ := hc.fused p hp d hd
      obtain ⟨i', hi'⟩ := lookup_of_mem_keys (l := pairs decl indexes) (List.mem_map.mpr ⟨_, (pairs_hasIndex hc).mpr hi, rfl⟩)
      have hi2 := (pairs_hasIndex hc).mp (lookup_mem hi')
      obtain ⟨l, hl⟩ := lookup_of_mem_keys (hc.given _ _ hi2)
      exact ⟨l.length, by rw [get_ok hi']; dsimp only; rw [get_ok hl], trivial⟩)
    exact ⟨ys, h⟩
  unfold newGroup
  constructor
  · rintro ⟨g, h⟩
    split at h
    · cases h
    · rename_i ha
      split at h
      · cases h
      · rename_i hb
        have ha := getArray_iff.mp ha
        exact ⟨ha.1, fun d hd => asciiName_iff.mp (ha.2 d hd), hvals.mp ⟨_, hb⟩⟩
  · intro hs
    obtain ⟨r, hr⟩ := hvals.mpr hs.values
    have ha : getArray asciiName decl.managed = .ok () := getArray_iff.mpr ⟨hs.some, fun d hd => asciiName_iff.mpr (hs.names d hd)⟩
    obtain ⟨fs, hf, -⟩ := sequence_exists (Q := fun _ _ => True) (l := fused) (f := fun p => match levelsOf indexes (pairs decl indexes) p.2 with
      | .error e => .error e
      | .ok l => .ok (p.1, p.2, l)) (fun p hp => by
      obtain ⟨l, hl⟩ := hlev p hp
      exact ⟨(p.1, p.2, l), by rw [hl], trivial⟩)
    rw [ha]
    dsimp only
    rw [hr]
    dsimp only
    split
    · rename_i he
      exact absurd (he.symm.trans hf) (by simp)
    · exact ⟨_, rfl⟩

end ABX.H5IO
