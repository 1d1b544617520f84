import Verif.Proofs.H5IO
import Verif.Proofs.SideOps
import Verif.Proofs.TaskInit
import Verif.Spec.H5IO
/-!
Lemmas for Properties/H5IO.lean: what is written, and a whole session.
-/
namespace ABX.H5IO
open ExtSort NP2H5 Task Spec
open Lookup (indexOf fusedType fusedLevels keyWeights keyOf cap m64 fusedKey expand InRange)

variable {ν : Type} [DecidableEq ν]

/-! ### groups -/

/-- what a new group satisfies -/
structure Wf (g : Group ν) : Prop where
  empty : g.empty = true
  ne : g.managed ≠ []
  sub : ∀ d ∈ keysOf g.indexed, d ∈ g.managed
  ix : ∀ p ∈ g.indexed, ∃ l, g.indexes.lookup p.2 = some l
  fused : ∀ p ∈ g.fused, (∀ d ∈ p.2.1, d ∈ keysOf g.indexed) ∧ p.2.2 = p.2.1.map (levels g)

theorem lookup_of_mem_keys {β κ : Type} [BEq κ] [LawfulBEq κ] {l : List (κ × β)} {k : κ} (h : k ∈ keysOf l) : ∃ x, l.lookup k = some x := by
  induction l with
  | nil => simp [keysOf] at h
  | cons p l ih =>
    rw [List.lookup_cons]
    by_cases hk : k = p.1
    · subst hk; exact ⟨p.2, by simp⟩
    · have : (k == p.1) = false := by simpa using hk
      rw [this]
      exact ih (by simpa [keysOf, hk] using h)

theorem lookup_mem {β κ : Type} [BEq κ] [LawfulBEq κ] {l : List (κ × β)} {k : κ} {x : β} (h : l.lookup k = some x) : (k, x) ∈ l := by
  induction l with
  | nil => simp at h
  | cons p l ih =>
    rw [List.lookup_cons] at h
    by_cases hk : k = p.1
    · subst hk; simp at h; subst h; simp
    · have : (k == p.1) = false := by simpa using hk
      rw [this] at h
      exact List.mem_cons_of_mem _ (ih h)

theorem lookup_of_mem {β κ : Type} [BEq κ] [LawfulBEq κ] {l : List (κ × β)} (hn : (keysOf l).Nodup) {k : κ} {x : β} (h : (k, x) ∈ l) : l.lookup k = some x := by
  induction l with
  | nil => simp at h
  | cons p l ih =>
    rw [List.lookup_cons]
    simp only [keysOf, List.map_cons, List.nodup_cons] at hn
    rcases List.mem_cons.mp h with rfl | h
    · simp
    · have hk : k ≠ p.1 := by
        rintro rfl
        exact hn.1 (List.mem_map.mpr ⟨_, h, rfl⟩)
      have : (k == p.1) = false := by simpa using hk
      rw [this]
      exact ih hn.2 h

theorem lookup_none {β κ : Type} [BEq κ] [LawfulBEq κ] {l : List (κ × β)} {k : κ} (h : k ∉ keysOf l) : l.lookup k = none := by
  cases hl : l.lookup k with
  | none => rfl
  | some x => exact absurd (List.mem_map.mpr ⟨_, lookup_mem hl, rfl⟩) h

theorem get_ok {β κ : Type} [DecidableEq κ] {l : List (κ × β)} {k : κ} {x : β} (h : l.lookup k = some x) : get l k = .ok x := by simp [get, h]

theorem get_iff {β κ : Type} [DecidableEq κ] {l : List (κ × β)} {k : κ} {x : β} : get l k = .ok x ↔ l.lookup k = some x := by
  unfold get
  cases l.lookup k <;> simp

theorem levels_eq {g : Group ν} {d i : String} {l : List ν} (h1 : g.indexed.lookup d = some i) (h2 : g.indexes.lookup i = some l) : levels g d = l.length := by
  simp [levels, h1, h2]

theorem Wf.index {g : Group ν} (h : Wf g) {d : String} (hd : d ∈ keysOf g.indexed) : ∃ i l, g.indexed.lookup d = some i ∧ g.indexes.lookup i = some l := by
  obtain ⟨i, hi⟩ := lookup_of_mem_keys hd
  obtain ⟨l, hl⟩ := h.ix _ (lookup_mem hi)
  exact ⟨i, l, hi, hl⟩

theorem checkFused_ok {fused : List (String × List String)} {ix indexed : List (String × String)} (h : checkFused fused ix = .ok indexed) :
    ix = indexed ∧ ∀ p ∈ fused, ∀ d ∈ p.2, d ∈ keysOf ix := by
  unfold checkFused at h
  split at h
  · rename_i hc
    exact ⟨Except.ok.inj h, fun p hp d hd => hc d (List.mem_flatMap.mpr ⟨p, hp, hd⟩)⟩
  · cases h

theorem checkDecl_ok {d : Decl} {indexes : List (String × List ν)} {fused : List (String × List String)} {indexed : List (String × String)} (h : checkDecl d indexes fused = .ok indexed) :
    (∀ k ∈ keysOf indexed, k ∈ d.managed) ∧ (∀ p ∈ indexed, p.2 ∈ keysOf indexes) ∧ ∀ p ∈ fused, ∀ d ∈ p.2, d ∈ keysOf indexed := by
  unfold checkDecl at h
  cases d with
  | names l =>
    dsimp only at h
    split at h
    · rename_i hc
      obtain ⟨rfl, h2⟩ := checkFused_ok h
      refine ⟨?_, ?_, h2⟩
      · intro k hk
        simp only [keysOf, List.map_map] at hk
        obtain ⟨p, hp, rfl⟩ := List.mem_map.mp hk
        exact hc _ (List.mem_map.mpr ⟨p, hp, rfl⟩)
      · intro p hp
        obtain ⟨q, hq, rfl⟩ := List.mem_map.mp hp
        exact List.mem_map.mpr ⟨q, hq, rfl⟩
    · cases h
  | mapping l =>
    dsimp only at h
    split at h
    · rename_i hc
      obtain ⟨rfl, h2⟩ := checkFused_ok h
      refine ⟨?_, fun p hp => hc.1 _ (List.mem_map.mpr ⟨p, hp, rfl⟩), h2⟩
      intro k hk
      obtain ⟨p, hp, rfl⟩ := List.mem_map.mp hk
      obtain ⟨q, hq, hqp⟩ := List.mem_filterMap.mp hp
      obtain ⟨i, -, rfl⟩ := Option.map_eq_some_iff.mp hqp
      exact List.mem_map.mpr ⟨q, hq, rfl⟩
    · cases h

theorem levelsOf_ok {indexes : List (String × List ν)} {indexed : List (String × String)} {members : List String} {ls : List Nat} (h : levelsOf indexes indexed members = .ok ls)
    {g : Group ν} (h1 : g.indexed = indexed) (h2 : g.indexes = indexes) : ls = members.map (levels g) := by
  have := SideOps.sequence_inv h
  clear h
  induction this with
  | nil => rfl
  | @cons d n _ _ hx _ ih =>
    rw [List.map_cons, ← ih]
    congr 1
    cases hd : get indexed d with
    | error e => rw [hd] at hx; cases hx
    | ok i =>
      rw [hd] at hx
      dsimp only at hx
      cases hi : get indexes i with
      | error e => rw [hi] at hx; cases hx
      | ok l =>
        rw [hi] at hx
        rw [levels_eq (by rw [h1]; exact get_iff.mp hd) (by rw [h2]; exact get_iff.mp hi)]
        exact (Except.ok.inj hx).symm

theorem newGroup_ok {ascii : ν → Bool} {managed : List String} {indexed : List (String × String)} {indexes : List (String × List ν)} {fused : List (String × List String)} {g : Group ν}
    (h : newGroup ascii managed indexed indexes fused = .ok g) (h1 : ∀ k ∈ keysOf indexed, k ∈ managed) (h2 : ∀ p ∈ indexed, p.2 ∈ keysOf indexes)
    (h3 : ∀ p ∈ fused, ∀ d ∈ p.2, d ∈ keysOf indexed) :
    Wf g ∧ g.managed = managed ∧ g.indexed = indexed ∧ g.indexes = indexes ∧ g.fused.map (fun p => (p.1, p.2.1)) = fused ∧ g.keyWeights = [] := by
  unfold newGroup at h
  split at h
  · cases h
  · rename_i hne
    have hne : managed ≠ [] := by
      rintro rfl
      simp [getArray] at hne
    split at h
    · cases h
    · split at h
      · cases h
      · rename_i fs hfs
        have hg := (Except.ok.inj h).symm
        subst hg
        have hinv := SideOps.sequence_inv hfs
        have hmap : fs.map (fun p => (p.1, p.2.1)) = fused := by
          clear hfs h3 h
          induction hinv with
          | nil => rfl
          | cons hx _ ih =>
            rw [List.map_cons, ih]
            congr 1
            rename_i p q _ _
            split at hx
            · cases hx
            · rw [← Except.ok.inj hx]
        have hlev : ∀ q ∈ fs, q.2.2 = q.2.1.map (levels (⟨true, false, managed, indexed, indexes, fs, [], none⟩ : Group ν)) := by
          intro q hq
          obtain ⟨p, hp⟩ := forall₂_mem_right hinv q hq
          split at hp
          · exact absurd hp.2 (by simp)
          · rename_i ls hls
            rw [← Except.ok.inj hp.2]
            exact levelsOf_ok hls rfl rfl
        refine ⟨⟨rfl, hne, h1, fun p hp => lookup_of_mem_keys (h2 p hp), fun q hq => ⟨?_, hlev q hq⟩⟩, rfl, rfl, rfl, hmap, rfl⟩
        intro d hd
        refine h3 (q.1, q.2.1) ?_ d hd
        rw [← hmap]
        exact List.mem_map.mpr ⟨q, hq, rfl⟩

end ABX.H5IO
