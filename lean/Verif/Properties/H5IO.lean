import Verif.Proofs.H5IO7
/-!
C66: tables written with `H5IO` (h5tools/h5io.py) hold what was given.
C67: what the creation of a table accepts and makes, what opening finds.
-/
namespace ABX.H5IO
open ExtSort NP2H5 Task Spec

variable {ν : Type} [DecidableEq ν]

/-! ### C66 -/

/-- Rows given to a new table in one or more calls (as values of the indexes, or as positions in them with `indexed=True`, or raw) are all in the file at the end of the `with` statement, in order:
raw datasets under their name at the root of the file; the columns of the indexed datasets that are not fused side by side in 'indexed_data', where the stored 'indexed_cumudims' delimit them;
and two keys of a fused dataset are equal exactly when the rows of all its members are.  Other groups and datasets of the file are unchanged.
Missing (`Ready`): the non-fused datasets each have their own index under their own name (see `C66_shared_index`), rows are shorter than 20 kB, fused datasets have at most 2^64 combinations,
the first call has rows if there are raw datasets (`C66_empty_first`), the raw datasets are not yet at the root of the file (`C66_two_groups`), and columns do not change between calls (`C66_columns`). -/
theorem C66_stored_partial {ascii : ν → Bool} {fs : Option (File ν)} {group : String} {decl : Decl} {indexes : List (String × List ν)} {fused : List (String × List String)}
    {f : File ν} {g : Group ν} (hinit : init ascii fs group (some (decl, indexes, fused)) = (some f, .ok g))
    {dims : String → Nat} (hr : Ready f group g dims) {calls : List (Bool × List (String × Input ν))} {ms : List (String → List (List Nat))}
    (hc : List.Forall₂ (Call g dims) calls ms) (h0 : ∃ m, ms.head? = some m ∧ ∀ d ∈ g.raw, m d ≠ []) :
    ∃ f' g', session f group g calls = .ok f' ∧ f'.groups.lookup group = some g' ∧ g'.empty = false ∧
      (g'.managed = g.managed ∧ g'.indexed = g.indexed ∧ g'.indexes = g.indexes ∧ g'.fused = g.fused) ∧
      (∀ d ∈ g.raw, f'.data.lookup ("/", d) = some (total ms d)) ∧
      (∀ j d, g.nonFused[j]? = some d → ∃ rows cum, f'.data.lookup (group, "indexed_data") = some rows ∧ g'.cumudims = some cum ∧ rows.map (part cum j) = total ms d) ∧
      (∀ p ∈ g.fused, ∃ keys : List Nat, f'.data.lookup (group, p.1) = some (keys.map (fun k => [k])) ∧ (∀ d ∈ g.managed, (total ms d).length = keys.length) ∧
        ∀ i j, i < keys.length → j < keys.length → (keys[i]? = keys[j]? ↔ ∀ d ∈ p.2.1, (total ms d)[i]? = (total ms d)[j]?)) ∧
      (∀ k, k ≠ group → f'.groups.lookup k = f.groups.lookup k) ∧ ∀ x, x ∉ paths group g → f'.data.lookup x = f.data.lookup x := by
  obtain ⟨hw, hg⟩ := init_wf hinit
  obtain ⟨m, hm, h0⟩ := h0
  cases hc with
  | nil => simp at hm
  | @cons c m' calls ms hc1 hc2 =>
    obtain rfl : m' = m := by simpa using hm
    have hcs : List.Forall₂ (Call g dims) (c :: calls) (m' :: ms) := .cons hc1 hc2
    have hv : ∀ m ∈ m' :: ms, ValidM g dims m := fun m hm => by
      obtain ⟨c, _, h⟩ := forall₂_mem_right hcs m hm
      exact call_valid hw h
    obtain ⟨f', g', ds, s1, s2, s3, s4, s5, s6, s7, s8, s9, s10⟩ := session_ok hw ⟨g, hg⟩ hr hcs h0
    have hnf : ∀ d ∈ g.nonFused, d ∈ g.managed := fun d hd => hw.sub d (mem_nonFused hd)
    refine ⟨f', g', s1, s3, s4, s7, ?_, ?_, ?_, s8, s10⟩
    · intro d hd
      obtain ⟨D, hD, e1, e2⟩ := s2.raw d hd
      rw [← e1, s9 D hD]
      simp only [R, e2]
      rfl
    · intro j d hj
      have hne : g.nonFused ≠ [] := by rintro h; rw [h] at hj; simp at hj
      obtain ⟨D, hD, e1, e2⟩ := s2.indexed hne
      refine ⟨_, _, by rw [← e1]; exact s9 D hD, by rw [s5, if_neg hne], ?_⟩
      simp only [R, e2]
      exact indexed_part hv hnf hj
    · intro p hp
      obtain ⟨D, hD, w, e1, e2, e3⟩ := s2.fused p hp
      obtain ⟨⟨n, hn⟩, -, -⟩ := total_rows hv
      obtain ⟨keys, k1, k2, k3⟩ := fused_keys hv (hr.fused p hp).1 (fun d hd => hw.sub d ((hw.fused p hp).1 d hd)) (hw.fused p hp).1 rfl e3 hn
      refine ⟨keys, ?_, ?_, ?_⟩
      · rw [← e1, s9 D hD, ← k1]
        simp only [R, e2]
      · intro d hd
        rw [hn d hd, k2]
      · rw [k2]; exact k3

/-- the values given to an indexed dataset are found again: the numbers stored are positions of the values in the index -/
theorem C66_decode {g : Group ν} {dims : String → Nat} {flag : Bool} {d i : String} {vs l : List ν} {m : List (List Nat)} (h : Given g dims flag d (.values vs) m)
    (hd : g.indexed.lookup d = some i) (hi : g.indexes.lookup i = some l) : m.map (fun r => r.map (fun n => l[n]?)) = vs.map (fun v => [some v]) := by
  cases h with
  | values _ i' l' hf hd' hi' h1 hv =>
    rw [hd] at hd'
    obtain rfl := Option.some.inj hd'
    rw [hi] at hi'
    obtain rfl := Option.some.inj hi'
    rw [List.map_map]
    apply List.map_congr_left
    intro v hv'
    have hlt := List.idxOf_lt_length_iff.mpr (hv v hv')
    simp [hlt]

/-- violated when indexed datasets share an index, or have one of another name, and are not fused: the declaration is accepted, and every write raises (line 261 looks for the index under the name of
the dataset) -/
theorem C66_shared_index {ascii : ν → Bool} {fs : Option (File ν)} {group : String} {decl : Decl} {indexes : List (String × List ν)} {fused : List (String × List String)}
    {f : File ν} {g : Group ν} (hinit : init ascii fs group (some (decl, indexes, fused)) = (some f, .ok g)) {d : String} (hd : d ∈ g.nonFused) (hn : d ∉ keysOf indexes)
    (c : Bool × List (String × Input ν)) (calls : List (Bool × List (String × Input ν))) : ∃ e, session f group g (c :: calls) = .error e := by
  obtain ⟨indexed, h1, -, h3, -⟩ := init_ok hinit
  obtain ⟨c1, c2, c3⟩ := checkDecl_ok h1
  have hg := newGroup_ok h3 c1 c2 c3
  refine session_error (init_wf hinit).1.empty (initDatasets_error ?_)
  obtain ⟨e, he⟩ := indexedDecl_error (group := group) hd (by rw [hg.2.2.2.1]; exact hn) c.2
  refine addAll_error (e := e) ?_
  have hne : g.nonFused ≠ [] := List.ne_nil_of_mem hd
  simp [hne, he]

/-- violated when the file has a dataset of the name of a raw one at its root, for instance one written in another group: every write raises -/
theorem C66_two_groups {f : File ν} {group : String} {g : Group ν} (he : g.empty = true) {d : String} (hd : d ∈ g.raw) (hx : ∃ x, f.data.lookup ("/", d) = some x)
    (c : Bool × List (String × Input ν)) (calls : List (Bool × List (String × Input ν))) : ∃ e, session f group g (c :: calls) = .error e := by
  refine session_error he (initDatasets_error ?_)
  cases hr : rawDecl c.2 d with
  | error e =>
    refine addAll_error (e := e) ?_
    rw [List.mem_append, List.mem_append]
    exact .inl (.inl (List.mem_map.mpr ⟨d, hd, hr⟩))
  | ok D =>
    refine addAll_exists (D := D) ?_ ?_
    · have : D.path = ("/", d) := by
        unfold rawDecl at hr
        split at hr
        · rw [← Except.ok.inj hr]
        · cases hr
        · cases hr
      rw [this]; exact hx
    · rw [List.mem_append, List.mem_append]
      exact .inl (.inl (List.mem_map.mpr ⟨d, hd, hr⟩))

/-- violated when the first call gives no rows and there are raw datasets: `IndexError` or another error -/
theorem C66_empty_first {f : File ν} {group : String} {g : Group ν} (he : g.empty = true) {d : String} (hd : d ∈ g.raw) {c : Bool × List (String × Input ν)} {k : Nat}
    (hx : c.2.lookup d = some (.numbers ⟨k, []⟩)) (calls : List (Bool × List (String × Input ν))) : ∃ e, session f group g (c :: calls) = .error e := by
  refine session_error he ?_
  unfold initDatasets
  dsimp only
  split
  · exact ⟨_, rfl⟩
  · rename_i data' hp
    have : data' = c.2 := by
      unfold parse at hp
      split at hp
      · exact (Except.ok.inj hp).symm
      · cases hp
    subst this
    obtain ⟨e, h⟩ := sequence_error (f := rawOk c.2) (e := .indexError) hd (by unfold rawOk; rw [get_ok hx]; simp)
    rw [h]
    exact ⟨_, rfl⟩

omit [DecidableEq ν] in
/-- a list with too many elements is accepted, and what is too many is lost (line 223: `zip`); one with too few is refused -/
theorem C66_list (managed : List String) (l : List (Input ν)) :
    (managed.length ≤ l.length → parse managed (ofList managed l) = .ok (managed.zip (l.take managed.length))) ∧
    (managed.Nodup → l.length < managed.length → parse managed (ofList managed l) = .error .valueError) := by
  constructor
  · intro h
    unfold ofList
    have hz : managed.zip l = managed.zip (l.take managed.length) := by
      have := List.zip_append (l₁ := managed) (r₁ := []) (l₂ := l.take managed.length) (r₂ := l.drop managed.length) (by simp; omega)
      simpa using this
    have hk : keysOf (managed.zip l) = managed := by
      unfold keysOf; exact List.map_fst_zip h
    unfold parse
    rw [hk, if_pos ⟨fun _ h => h, fun _ h => h⟩, hz]
  · intro hn h
    unfold parse
    rw [if_neg]
    rintro ⟨-, h2⟩
    have hk : keysOf (ofList managed l) = managed.take l.length := by
      unfold keysOf ofList
      have hz : managed.zip l = (managed.take l.length).zip l := by
        have := List.zip_append (l₁ := managed.take l.length) (r₁ := managed.drop l.length) (l₂ := l) (r₂ := []) (by simp; omega)
        simpa using this
      rw [hz, List.map_fst_zip (by simp)]
    rw [hk] at h2
    have := List.Subset.trans (l₁ := managed) h2 (List.Subset.refl _)
    have := (List.subperm_of_subset hn this).length_le
    simp at this
    omega

/-! ### C67 -/

/-- A creation is accepted exactly when the declaration is consistent (the indexes declared are those given, fused datasets are indexed), the group does not exist yet, there is a dataset, and names and
indexes are ASCII and not empty.  (That the *file* does not exist yet is not required: `C67_existing_file`.) -/
theorem C67_accepts {ascii : ν → Bool} {fs : Option (File ν)} {group : String} {decl : Decl} {indexes : List (String × List ν)} {fused : List (String × List String)} :
    (∃ f g, init ascii fs group (some (decl, indexes, fused)) = (some f, .ok g)) ↔
      Consistent decl indexes fused ∧ Storable ascii decl indexes ∧ ∀ f, fs = some f → group ∉ keysOf f.groups := by
  have hgr : (∀ f, fs = some f → group ∉ keysOf f.groups) ↔ (fs.getD ⟨[], []⟩).groups.lookup group = none := by
    cases fs with
    | none => simp
    | some f =>
      simp only [Option.some.injEq, forall_eq', Option.getD_some]
      constructor
      · exact lookup_none
      · intro h hk
        obtain ⟨x, hx⟩ := lookup_of_mem_keys hk
        rw [h] at hx
        cases hx
  rw [hgr]
  constructor
  · rintro ⟨f, g, h⟩
    obtain ⟨indexed, h1, h2, h3, -⟩ := init_ok h
    obtain ⟨rfl, hc⟩ := checkDecl_iff.mp h1
    exact ⟨hc, (newGroup_iff hc).mp ⟨g, h3⟩, h2⟩
  · rintro ⟨hc, hs, hl⟩
    obtain ⟨g, hg⟩ := (newGroup_iff hc).mpr hs
    have h1 : checkDecl decl indexes fused = .ok (pairs decl indexes) := checkDecl_iff.mpr ⟨rfl, hc⟩
    obtain ⟨c1, c2, c3⟩ := checkDecl_ok h1
    have hkw := (newGroup_ok hg c1 c2 c3).2.2.2.2.2
    refine ⟨⟨(fs.getD ⟨[], []⟩).groups ++ [(group, g)], (fs.getD ⟨[], []⟩).data⟩, g, ?_⟩
    unfold init
    simp only [h1, hl, hg, load_new hkw]

/-- The group made has the datasets, indexes and fused datasets declared, each dataset with the index declared for it, and is empty; the rest of the file is as it was. -/
theorem C67_made {ascii : ν → Bool} {fs : Option (File ν)} {group : String} {decl : Decl} {indexes : List (String × List ν)} {fused : List (String × List String)} {f : File ν} {g : Group ν}
    (h : init ascii fs group (some (decl, indexes, fused)) = (some f, .ok g)) (hn : decl.managed.Nodup) (hx : (keysOf indexes).Nodup) :
    f.groups.lookup group = some g ∧ g.empty = true ∧ g.managed = decl.managed ∧ g.indexes = indexes ∧ g.fused.map (fun p => (p.1, p.2.1)) = fused ∧
      (∀ d i, g.indexed.lookup d = some i ↔ HasIndex decl indexes d i) ∧ (∀ d, d ∈ g.raw ↔ d ∈ decl.managed ∧ ∀ i, ¬ HasIndex decl indexes d i) ∧
      (∀ k, k ≠ group → f.groups.lookup k = (fs.getD ⟨[], []⟩).groups.lookup k) ∧ f.data = (fs.getD ⟨[], []⟩).data := by
  obtain ⟨indexed, h1, h2, h3, hf⟩ := init_ok h
  obtain ⟨c1, c2, c3⟩ := checkDecl_ok h1
  obtain ⟨w, e1, e2, e3, e4, -⟩ := newGroup_ok h3 c1 c2 c3
  obtain ⟨hp, hc⟩ := checkDecl_iff.mp h1
  have hnd : (keysOf (pairs decl indexes)).Nodup := by
    cases decl with
    | names l => unfold pairs keysOf; rw [List.map_map]; exact hx
    | mapping l =>
      unfold pairs keysOf
      dsimp only
      have : (l.filterMap (fun p => p.2.map (fun i => (p.1, i)))).map Prod.fst = (l.filter (fun p => p.2.isSome)).map Prod.fst := by
        clear hn h h1 c1 h3 hp hc e1
        induction l with
        | nil => rfl
        | cons p l ih =>
          obtain ⟨a, b⟩ := p
          cases b with
          | none => rw [List.filterMap_cons_none (by rfl), List.filter_cons_of_neg (by simp)]; exact ih
          | some b => rw [List.filterMap_cons_some (b := (a, b)) (by rfl), List.filter_cons_of_pos (by simp), List.map_cons, List.map_cons, ih]
      rw [this]
      exact List.Nodup.sublist (List.Sublist.map _ List.filter_sublist) hn
  have hlk : ∀ d i, g.indexed.lookup d = some i ↔ HasIndex decl indexes d i := by
    intro d i
    rw [e2, hp, ← pairs_hasIndex hc]
    exact ⟨lookup_mem, lookup_of_mem hnd⟩
  refine ⟨(init_wf h).2, w.empty, e1, e3, e4, hlk, ?_, ?_, by rw [hf]⟩
  · intro d
    rw [mem_raw, e1]
    refine and_congr_right (fun _ => ?_)
    constructor
    · intro hk i hi
      exact hk (List.mem_map.mpr ⟨_, lookup_mem ((hlk d i).mpr hi), rfl⟩)
    · intro hk hm
      obtain ⟨i, hi⟩ := lookup_of_mem_keys hm
      exact hk i ((hlk d i).mp hi)
  · intro k hk
    rw [hf]
    dsimp only
    have : (k == group) = false := by simpa using hk
    rw [lookup_append, List.lookup_cons, this]
    simp

/-- the documentation says that a table is created in a new file, and line 59 raises when the file exists; line 66 catches that error: what is declared is created in the existing file as in a new one -/
theorem C67_existing_file (ascii : ν → Bool) (f0 : File ν) (group : String) (hg : group ∉ keysOf f0.groups) (decl : Decl) (indexes : List (String × List ν)) (fused : List (String × List String)) :
    (∃ f g, init ascii (some f0) group (some (decl, indexes, fused)) = (some f, .ok g)) ↔ ∃ f g, init ascii none group (some (decl, indexes, fused)) = (some f, .ok g) := by
  rw [C67_accepts, C67_accepts]
  simp [hg]

omit [DecidableEq ν] in
/-- a creation under the name of an existing group raises, but marks the table of that group as empty and not sorted -/
theorem C67_flags_reset {ascii : ν → Bool} {f0 : File ν} {group : String} {g0 : Group ν} (hg : f0.groups.lookup group = some g0) {decl : Decl} {indexes : List (String × List ν)}
    {fused : List (String × List String)} (hc : Consistent decl indexes fused) :
    ∃ f e g', init ascii (some f0) group (some (decl, indexes, fused)) = (some f, .error e) ∧ f.groups.lookup group = some g' ∧ g'.empty = true ∧ f.data = f0.data := by
  have h1 : checkDecl decl indexes fused = .ok (pairs decl indexes) := checkDecl_iff.mpr ⟨rfl, hc⟩
  refine ⟨{ f0 with groups := put f0.groups group { g0 with empty := true, sorted := false } }, .runtimeError, { g0 with empty := true, sorted := false }, ?_, ?_, rfl, rfl⟩
  · unfold init
    simp only [h1, Option.getD_some, hg]
  · simp [put_lookup, hg]

/-- after a session, the file can be opened again exactly when it has no fused datasets (line 157 reads the weights under a name that was not written, line 297) -/
theorem C67_reopen {ascii : ν → Bool} {fs : Option (File ν)} {group : String} {decl : Decl} {indexes : List (String × List ν)} {fused : List (String × List String)}
    {f : File ν} {g : Group ν} (hinit : init ascii fs group (some (decl, indexes, fused)) = (some f, .ok g))
    {dims : String → Nat} (hr : Ready f group g dims) {calls : List (Bool × List (String × Input ν))} {ms : List (String → List (List Nat))}
    (hc : List.Forall₂ (Call g dims) calls ms) (h0 : ∃ m, ms.head? = some m ∧ ∀ d ∈ g.raw, m d ≠ []) :
    ∃ f' g', session f group g calls = .ok f' ∧ f'.groups.lookup group = some g' ∧ init ascii (some f') group none = (some f', if fused = [] then .ok g' else .error .keyError) := by
  obtain ⟨hw, hg⟩ := init_wf hinit
  obtain ⟨m, hm, h0⟩ := h0
  cases hc with
  | nil => simp at hm
  | @cons c m' calls ms hc1 hc2 =>
    obtain rfl : m' = m := by simpa using hm
    obtain ⟨f', g', ds, s1, s2, s3, s4, s5, s6, s7, s8, s9, s10⟩ := session_ok hw ⟨g, hg⟩ hr (.cons hc1 hc2) h0
    refine ⟨f', g', s1, s3, ?_⟩
    have hfu : g.fused = [] ↔ fused = [] := by
      obtain ⟨indexed, h1, -, h3, -⟩ := init_ok hinit
      obtain ⟨c1, c2, c3⟩ := checkDecl_ok h1
      rw [← (newGroup_ok h3 c1 c2 c3).2.2.2.2.1]
      simp
    unfold init
    simp only [s3, load, s6, hfu]

/-- nothing can be added to a table that was written before and is opened again -/
theorem C67_no_append (f : File ν) (group : String) (g : Group ν) (hg : g.empty = false) (append indexed : Bool) (data : List (String × Input ν)) :
    ∃ e, write ⟨f, group, g, []⟩ append indexed data = .error e := by
  unfold write
  dsimp only
  rw [hg]
  cases append
  · exact ⟨.ioError, by simp⟩
  · exact ⟨.valueError, by simp⟩

omit [DecidableEq ν] in
theorem put_put {β : Type} (l : List (String × β)) (k : String) (x : β) : put (put l k x) k x = put l k x := by
  unfold put
  rw [List.map_map]
  apply List.map_congr_left
  intro p _
  simp only [Function.comp]
  split <;> simp_all

omit [DecidableEq ν] in
theorem setFlags_idem (o : Obj ν) (outs : List Out) : setFlags { setFlags o with outs := outs } = { setFlags o with outs := outs } := by
  unfold setFlags
  simp only [put_put]

theorem writeOuts_length {data : List (String × Input ν)} : ∀ {os os' : List Out}, writeOuts data os = .ok os' → os'.length = os.length
  | [], os', h => by rw [writeOuts] at h; cases h; rfl
  | o :: os, os', h => by
    rw [writeOuts] at h
    split at h
    · cases h
    · split at h
      · cases h
      · split at h
        · cases h
        · rename_i hr
          cases h
          simp [writeOuts_length hr]

/-- C66: `write` with `iterate=True` raises for a table without data (line 193 calls `next`, which python 3 does not have on iterators). -/
theorem C66_iterate_first (f : File ν) (group : String) (g : Group ν) (hg : g.empty = true) (append indexed : Bool) (datas : List (List (String × Input ν))) :
    writeIter ⟨f, group, g, []⟩ append indexed datas = .error .attributeError := by
  unfold writeIter
  simp [hg]

/-- C66: after a first `write`, `iterate=True` does what calls of `write` with the successive data do. -/
theorem C66_iterate (o : Obj ν) (he : o.g.empty = false) (ho : o.outs ≠ []) (indexed : Bool) (data : List (String × Input ν)) (datas : List (List (String × Input ν))) :
    writeIter o true indexed (data :: datas) = writeAll o ((data :: datas).map (fun d => (indexed, d))) := by
  have hw : ∀ (o : Obj ν), o.g.empty = false → o.outs ≠ [] → ∀ d, write o true indexed d = write1 (setFlags o) indexed d := by
    intro o h1 h2 d
    unfold write
    simp [h1, h2]
  have key : ∀ (ds : List (List (String × Input ν))) (o : Obj ν), o.outs ≠ [] → setFlags o = o → o.g.empty = false →
      write1All o indexed ds = writeAll o (ds.map (fun d => (indexed, d))) := by
    intro ds
    induction ds with
    | nil => intro o _ _ _; rfl
    | cons d ds ih =>
      intro o h1 h2 h3
      rw [List.map_cons, write1All, writeAll, hw o h3 h1, h2]
      cases hx : write1 o indexed d with
      | error e => rfl
      | ok o' =>
        dsimp only
        have hx' : ∃ outs, o' = { o with outs := outs } ∧ outs ≠ [] := by
          unfold write1 at hx
          split at hx
          · cases hx
          · split at hx
            · cases hx
            · split at hx
              · cases hx
              · rename_i outs hr
                cases hx
                refine ⟨outs, rfl, ?_⟩
                intro h
                have := writeOuts_length hr
                rw [h] at this
                exact h1 (List.length_eq_zero_iff.mp this.symm)
        obtain ⟨outs, rfl, hne⟩ := hx'
        apply ih
        · exact hne
        · have := setFlags_idem o outs
          rw [h2] at this
          exact this
        · exact h3
  unfold writeIter
  rw [if_neg (by simp), if_neg (by simp [he]), if_neg ho]
  rw [key _ (setFlags o) ho (setFlags_idem o o.outs) rfl]
  rw [List.map_cons, writeAll, writeAll, hw o he ho, hw (setFlags o) rfl ho]
  rw [show setFlags (setFlags o) = setFlags o from setFlags_idem o o.outs]

/-! ### concrete cases -/

namespace Ex

/-- the declaration of the test of the repository (test/test_h5io.py), with an index of its own for the language -/
def decl : Decl := .mapping [("talker1", some "talker"), ("talker2", some "talker"), ("language", some "language"), ("age", none)]
def indexes : List (String × List String) := [("talker", ["t1", "t2", "t3"]), ("language", ["French", "English"])]
def fused : List (String × List String) := [("talkers", ["talker1", "talker2"])]
def group : Group String := ⟨true, false, ["talker1", "talker2", "language", "age"], [("talker1", "talker"), ("talker2", "talker"), ("language", "language")], indexes,
  [("talkers", ["talker1", "talker2"], [3, 3])], [], none⟩
def file : File String := ⟨[("/g", group)], []⟩

theorem init_eq : init (fun _ => true) none "/g" (some (decl, indexes, fused)) = (some file, .ok group) := by decide

def col (l : List Nat) : Input String := .numbers ⟨1, l.map (fun x => [x])⟩

/-- two calls, the second with `indexed=True` -/
def calls : List (Bool × List (String × Input String)) :=
  [(false, [("talker1", .values ["t1", "t2", "t2"]), ("talker2", .values ["t3", "t3", "t1"]), ("language", .values ["French", "English", "French"]), ("age", col [44, 33, 22])]),
   (true, [("talker1", col [0, 2]), ("talker2", col [2, 1]), ("language", col [1, 1]), ("age", col [11, 33])])]

def rows1 (d : String) : List (List Nat) :=
  if d = "talker1" then [[0], [1], [1]] else if d = "talker2" then [[2], [2], [0]] else if d = "language" then [[0], [1], [0]] else [[44], [33], [22]]
def rows2 (d : String) : List (List Nat) :=
  if d = "talker1" then [[0], [2]] else if d = "talker2" then [[2], [1]] else if d = "language" then [[1], [1]] else [[11], [33]]

theorem ready : Ready file "/g" group (fun _ => 1) :=
  ⟨by decide, by decide, by decide, by decide, by decide, by decide, by decide⟩

theorem given : List.Forall₂ (Call group (fun _ => 1)) calls [rows1, rows2] := by
  refine .cons ⟨by decide, fun k => ?_, ?_, 3, by decide⟩ (.cons ⟨by decide, fun k => ?_, ?_, 2, by decide⟩ .nil)
  · simp [keysOf, group]
  · intro p hp
    simp only [List.mem_cons, List.not_mem_nil, or_false] at hp
    rcases hp with rfl | rfl | rfl | rfl
    · exact .values _ "talker" ["t1", "t2", "t3"] rfl rfl rfl rfl (by decide)
    · exact .values _ "talker" ["t1", "t2", "t3"] rfl rfl rfl rfl (by decide)
    · exact .values _ "language" ["French", "English"] rfl rfl rfl rfl (by decide)
    · exact .raw _ (by decide) (by decide)
  · simp [keysOf, group]
  · intro p hp
    simp only [List.mem_cons, List.not_mem_nil, or_false] at hp
    rcases hp with rfl | rfl | rfl | rfl
    · exact .numbers _ "talker" ["t1", "t2", "t3"] rfl rfl rfl (by decide)
    · exact .numbers _ "talker" ["t1", "t2", "t3"] rfl rfl rfl (by decide)
    · exact .numbers _ "language" ["French", "English"] rfl rfl rfl (by decide)
    · exact .raw _ (by decide) (by decide)

/-- the hypotheses of `C66_stored_partial` and `C67_reopen` hold, and what the file has -/
example : ∃ f', session file "/g" group calls = .ok f' ∧ f'.data.lookup ("/", "age") = some [[44], [33], [22], [11], [33]] := by
  obtain ⟨f', g', h1, -, -, -, h2, -⟩ := C66_stored_partial init_eq ready given ⟨rows1, rfl, by decide⟩
  exact ⟨f', h1, by rw [h2 "age" (by decide)]; rfl⟩

theorem data_eq : (match session file "/g" group calls with | .ok f => f.data | .error _ => []) =
    [(("/", "age"), [[44], [33], [22], [11], [33]]), (("/g", "indexed_data"), [[0], [1], [0], [1], [1]]), (("/g", "talkers"), [[6], [7], [1], [6], [5]])] := by decide +kernel

example : init (fun _ => true) none "/g" (some (.mapping [("a", some "t"), ("b", some "t")], [("t", ["x", "y"])], [])) =
    (some ⟨[("/g", ⟨true, false, ["a", "b"], [("a", "t"), ("b", "t")], [("t", ["x", "y"])], [], [], none⟩)], []⟩,
      .ok ⟨true, false, ["a", "b"], [("a", "t"), ("b", "t")], [("t", ["x", "y"])], [], [], none⟩) := by decide

example : Consistent decl indexes fused ∧ Storable (fun _ => true) decl indexes := by
  obtain ⟨h1, h2, -⟩ := C67_accepts.mp ⟨_, _, init_eq⟩
  exact ⟨h1, h2⟩

end Ex

/-- violated by positions that are not in the index: with `indexed=True` they are stored modulo 256, and read as another value -/
theorem C66_out_of_range :
    ∃ (f : File String) (g : Group String), init (fun _ => true) none "/g" (some (.names ["a"], [("a", ["x", "y"])], [])) = (some f, .ok g) ∧
      ∃ f', session f "/g" g [(true, [("a", .numbers ⟨1, [[257]]⟩)])] = .ok f' ∧ f'.data.lookup ("/g", "indexed_data") = some [[1]] := by
  refine ⟨⟨[("/g", ⟨true, false, ["a"], [("a", "a")], [("a", ["x", "y"])], [], [], none⟩)], []⟩, ⟨true, false, ["a"], [("a", "a")], [("a", ["x", "y"])], [], [], none⟩, by decide, ?_⟩
  exact ⟨⟨[("/g", ⟨false, false, ["a"], [("a", "a")], [("a", ["x", "y"])], [], [], some [1]⟩)], [(("/g", "indexed_data"), [[1]])]⟩, by decide +kernel, by decide⟩

/-- violated by columns that change between calls: two columns then one for `a`, one then two for `b`; the table is accepted, and `a` is read as having a value that was given to `b` -/
theorem C66_columns :
    ∃ (f : File String) (g : Group String), init (fun _ => true) none "/g" (some (.names ["a", "b"], [("a", ["x", "y"]), ("b", ["u", "v"])], [])) = (some f, .ok g) ∧
      ∃ f', session f "/g" g [(true, [("a", .numbers ⟨2, [[0, 0]]⟩), ("b", .numbers ⟨1, [[0]]⟩)]), (true, [("a", .numbers ⟨1, [[0]]⟩), ("b", .numbers ⟨2, [[1, 1]]⟩)])] = .ok f' ∧
        ∃ rows, f'.data.lookup ("/g", "indexed_data") = some rows ∧ rows.map (part [2, 3] 0) = [[0, 0], [0, 1]] ∧ (∃ g', f'.groups.lookup "/g" = some g' ∧ g'.cumudims = some [2, 3]) := by
  refine ⟨⟨[("/g", ⟨true, false, ["a", "b"], [("a", "a"), ("b", "b")], [("a", ["x", "y"]), ("b", ["u", "v"])], [], [], none⟩)], []⟩,
    ⟨true, false, ["a", "b"], [("a", "a"), ("b", "b")], [("a", ["x", "y"]), ("b", ["u", "v"])], [], [], none⟩, by decide, ?_⟩
  exact ⟨⟨[("/g", ⟨false, false, ["a", "b"], [("a", "a"), ("b", "b")], [("a", ["x", "y"]), ("b", ["u", "v"])], [], [], some [2, 3]⟩)], [(("/g", "indexed_data"), [[0, 0, 0], [0, 1, 1]])]⟩,
    by decide +kernel, [[0, 0, 0], [0, 1, 1]], by decide, by decide, _, rfl, rfl⟩

/-- C66: the rows of a dataset that is neither indexed nor fused: as given when the number of columns is that of the dataset, the one column repeated otherwise, and an array with another number of columns is refused -/
theorem C66_raw {d : OutDecl} {n : String} (hd : d.src = .raw n) {data : List (String × Input ν)} {m : Mat} (hm : data.lookup n = some (.numbers m)) (hw : ∀ r ∈ m.rows, r.length = m.cols) :
    (m.cols = d.cols → rowsFor d data = .ok m.rows) ∧ (m.cols ≠ 1 → m.cols ≠ d.cols → rowsFor d data = .error .valueError) ∧
    (m.cols = 1 → ∃ rows, rowsFor d data = .ok rows ∧ List.Forall₂ (fun r r' => r'.length = d.cols ∧ ∀ x ∈ r', r = [x]) m.rows rows) := by
  have h0 : rowsFor d data = fitCols d.cols m := by
    unfold rowsFor matOf get
    rw [hd]
    simp only [hm]
  rw [h0]
  unfold fitCols
  refine ⟨fun h => by rw [if_pos h], fun h1 h2 => by rw [if_neg h2, if_neg h1], fun h1 => ?_⟩
  by_cases hc : m.cols = d.cols
  · rw [if_pos hc]
    refine ⟨_, rfl, List.forall₂_same.mpr fun r hr => ⟨by rw [hw r hr, hc], fun x hx => ?_⟩⟩
    obtain ⟨y, rfl⟩ := List.length_eq_one_iff.mp ((hw r hr).trans h1)
    rw [List.mem_singleton.mp hx]
  · rw [if_neg hc, if_pos h1]
    refine ⟨_, rfl, List.forall₂_map_right_iff.mpr (List.forall₂_same.mpr fun r hr => ?_)⟩
    obtain ⟨y, rfl⟩ := List.length_eq_one_iff.mp ((hw r hr).trans h1)
    refine ⟨by simp, fun x hx => ?_⟩
    simp only [List.flatMap_cons, List.flatMap_nil, List.append_nil, List.mem_replicate] at hx
    rw [hx.2]


#print axioms C66_raw
#print axioms C66_stored_partial
#print axioms C66_decode
#print axioms C66_shared_index
#print axioms C66_two_groups
#print axioms C66_empty_first
#print axioms C66_list
#print axioms C67_accepts
#print axioms C67_made
#print axioms C67_existing_file
#print axioms C67_flags_reset
#print axioms C67_reopen
#print axioms C67_no_append
#print axioms C66_iterate_first
#print axioms C66_iterate
#print axioms C66_out_of_range
#print axioms C66_columns

end ABX.H5IO
