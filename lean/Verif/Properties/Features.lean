import Verif.Model.Features
import Verif.Proofs.SideOps
/-!
Property C58: the features of an item.
-/
namespace ABX.Distances
open ExtSort SideOps
variable {τ ψ : Type}

theorem whereTrue_lt : ∀ (l : List Bool), ∀ i ∈ whereTrue l, i < l.length := by
  intro l i hi
  unfold whereTrue at hi
  simp at hi
  obtain ⟨h1, h2⟩ := hi
  omega

/-- C58: when a recording has one frame for each time, the features of an item are its frames whose time is between the onset and the offset, both included, in order. -/
theorem C58_frames (le : τ → τ → Bool) (F : FeatFile τ ψ) (r : Item τ) (times : List τ) (frames : List ψ) (h : F.lookup r.file = some (times, frames)) (hl : times.length = frames.length) :
    getRaw le F r = .ok (((times.zip frames).filter (fun p => le r.onset p.1 && le p.1 r.offset)).map (·.2)) := by
  have h1 : times = (times.zip frames).map (·.1) := (List.map_fst_zip (by omega)).symm
  have h2 : frames = (times.zip frames).map (·.2) := (List.map_snd_zip (by omega)).symm
  have := gather_where (times.zip frames) (fun p => le r.onset p.1 && le p.1 r.offset) (·.2)
  unfold getRaw
  rw [h]
  dsimp only
  rw [← this, ← h2]
  congr 2
  conv_lhs => rw [h1]
  rw [List.map_map]
  rfl

/-- C58: a recording without features raises a KeyError. -/
theorem C58_missing (le : τ → τ → Bool) (F : FeatFile τ ψ) (r : Item τ) (h : F.lookup r.file = none) : getRaw le F r = .error .keyError := by
  unfold getRaw
  rw [h]

theorem mergeFeatures_spec : ∀ (fs : List (FeatFile τ ψ)) (acc : FeatFile τ ψ),
    ((∃ F, mergeFeatures fs acc = .ok F) ↔ fs.Pairwise (fun f g => ∀ k, k ∈ f.map (·.1) → k ∉ g.map (·.1)) ∧ ∀ f ∈ fs, ∀ k, k ∈ acc.map (·.1) → k ∉ f.map (·.1)) ∧
    ∀ F, mergeFeatures fs acc = .ok F → F = acc ++ fs.flatten
  | [], acc => by
    refine ⟨by simp [mergeFeatures], ?_⟩
    intro F h
    cases h
    simp
  | f :: fs, acc => by
    obtain ⟨ih1, ih2⟩ := mergeFeatures_spec fs (acc ++ f)
    unfold mergeFeatures
    have hany : (f.any (fun p => acc.any (fun q => q.1 == p.1))) = true ↔ ∃ k, k ∈ acc.map (·.1) ∧ k ∈ f.map (·.1) := by
      rw [List.any_eq_true]
      constructor
      · rintro ⟨p, hp, h⟩
        rw [List.any_eq_true] at h
        obtain ⟨q, hq, h⟩ := h
        have h : q.1 = p.1 := by simpa using h
        exact ⟨p.1, List.mem_map.mpr ⟨q, hq, h⟩, List.mem_map.mpr ⟨p, hp, rfl⟩⟩
      · rintro ⟨k, h1, h2⟩
        obtain ⟨q, hq, rfl⟩ := List.mem_map.mp h1
        obtain ⟨p, hp, hpq⟩ := List.mem_map.mp h2
        exact ⟨p, hp, List.any_eq_true.mpr ⟨q, hq, by simpa using hpq.symm⟩⟩
    by_cases hx : (f.any (fun p => acc.any (fun q => q.1 == p.1))) = true
    · rw [if_pos hx]
      refine ⟨⟨?_, ?_⟩, ?_⟩
      · rintro ⟨F, h⟩; cases h
      · rintro ⟨-, h⟩
        obtain ⟨k, h1, h2⟩ := hany.mp hx
        exact absurd h2 (h f (by simp) k h1)
      · rintro F h; cases h
    · rw [if_neg hx]
      rw [hany] at hx
      refine ⟨?_, ?_⟩
      · rw [ih1, List.pairwise_cons]
        constructor
        · rintro ⟨h1, h2⟩
          refine ⟨⟨?_, h1⟩, ?_⟩
          · intro g hg k hk
            exact h2 g hg k (by rw [List.map_append, List.mem_append]; exact .inr hk)
          · intro g hg k hk
            rcases List.mem_cons.mp hg with rfl | hg
            · intro hk'; exact hx ⟨k, hk, hk'⟩
            · exact h2 g hg k (by rw [List.map_append, List.mem_append]; exact .inl hk)
        · rintro ⟨⟨h1, h2⟩, h3⟩
          refine ⟨h2, ?_⟩
          intro g hg k hk
          rw [List.map_append, List.mem_append] at hk
          rcases hk with hk | hk
          · exact h3 g (by simp [hg]) k hk
          · exact h1 g hg k hk
      · intro F h
        rw [ih2 F h, List.flatten_cons, List.append_assoc]

/-- C58, several feature files: they are accepted exactly when no recording is in two of them, and then every recording has the features that its file gives. -/
theorem C58_files (fs : List (FeatFile τ ψ)) :
    ((∃ F, mergeFeatures fs [] = .ok F) ↔ fs.Pairwise (fun f g => ∀ k, k ∈ f.map (·.1) → k ∉ g.map (·.1))) ∧
    ∀ F, mergeFeatures fs [] = .ok F → ∀ f ∈ fs, ∀ k v, f.lookup k = some v → F.lookup k = some v := by
  obtain ⟨h1, h2⟩ := mergeFeatures_spec fs []
  refine ⟨by rw [h1]; simp, ?_⟩
  intro F hF f hf k v hk
  have hp := (h1.mp ⟨F, hF⟩).1
  rw [h2 F hF, List.nil_append]
  clear h1 h2 hF
  have hkm : ∀ {l : FeatFile τ ψ} {v}, l.lookup k = some v → k ∈ l.map (·.1) := by
    intro l v h
    by_contra hn
    have : l.lookup k = none := by
      rw [List.lookup_eq_none_iff]
      intro p hp
      by_contra hne
      have : k = p.1 := by simpa using hne
      exact hn (List.mem_map.mpr ⟨p, hp, this.symm⟩)
    rw [this] at h
    cases h
  induction fs with
  | nil => cases hf
  | cons g gs ih =>
    rw [List.pairwise_cons] at hp
    rw [List.flatten_cons, List.lookup_append]
    rcases List.mem_cons.mp hf with rfl | hf
    · rw [hk]; rfl
    · cases hg : g.lookup k with
      | none => exact ih hf hp.2
      | some u => exact absurd (hkm hk) (hp.1 f hf k (hkm hg))

/-- C58, example: times 0.0, 0.5, 1.0, 1.5 and an item from 0.5 to 1.0 -/
example : getRaw (fun a b : Nat => decide (a ≤ b)) [("a", ([0, 5, 10, 15], ["w", "x", "y", "z"]))] ⟨"a", 5, 10⟩ = .ok ["x", "y"] := by decide +kernel

example : ∃ F, mergeFeatures (τ := Nat) [[("a", ([0], ["w"]))], [("b", ([0, 1], ["x", "y"]))]] [] = .ok F := ⟨_, rfl⟩

#print axioms C58_frames
#print axioms C58_missing
#print axioms C58_files

end ABX.Distances
