import Verif.Proofs.Score2
/-! Helper lemmas for the scores: files written by `generate` and `_generate_pairs`; range of the scores. -/
namespace ABX.Score
open ExtSort H52NP ABX.Task Pairs SideOps Sampler
variable {δ ρ : Type}

theorem ready_of {data : List (Int × Int × Int)} {F : File} (hF : F.data = data) {Ls : List (Level ρ)} {ivs : List (Nat × Nat)} {us : List (List Int)} (h : AllPairs data Ls ivs us)
    (hf : List.Forall₂ (LevelFit data) Ls ivs) (hn : (Ls.map (·.key)).Nodup) (hsq : ∀ L ∈ Ls, baseOf L ≤ 94906265) {dist : List δ} (hd : dist.length = us.flatten.length) :
    List.Forall₂ (fun key iv => ∃ base start stop, LevelReady F ⟨us.flatten, attrsOf Ls (us.map List.length)⟩ dist key iv base start stop)
      (Ls.map (·.key)) ivs := by
  have hlen : (us.map List.length).length = Ls.length := by rw [List.length_map]; exact (allPairs_length h).1
  have hlv := attrs_levels Ls (us.map List.length) 0 hlen
  have hsp := attrs_spec h []
  rw [List.length_nil] at hsp
  have hkeys := attrs_keys hlv
  subst hF
  rw [List.forall₂_map_left_iff]
  rw [List.forall₂_iff_get] at hf hlv hsp ⊢
  refine ⟨hf.1, ?_⟩
  intro i h1 h2
  have f := hf.2 i h1 h2
  have a1 := hlv.2 i h1 (by rw [← hlv.1]; exact h1)
  have a2 := hsp.2 i h2 (by rw [← hsp.1]; exact h2)
  generalize hat : (List.zipWith (fun L (p : Nat × Nat) => (L.key, baseOf L, ((p.1 : Nat) : Int), ((p.2 : Nat) : Int))) Ls (intervals 0 (us.map List.length))).get ⟨i, by rw [← hlv.1]; exact h1⟩ = at' at *
  have hmem : at' ∈ attrsOf Ls (us.map List.length) := by rw [← hat]; exact List.get_mem _ _
  have hL := List.get_mem Ls ⟨i, h1⟩
  refine ⟨at'.2.1, at'.2.2.1, at'.2.2.2, ⟨?_, ?_, ?_, ?_, f.le, ?_, a2, ?_⟩⟩
  · rw [← a1.1]
    exact lookup_of_nodup (by unfold attrsOf; rw [hkeys]; exact hn) hmem
  · rw [a1.2]; unfold baseOf; omega
  · rw [a1.2]; exact hsq _ hL
  · exact Nat.le_of_lt f.lt
  · rw [a1.2]; exact f.range
  · exact npSlice_len_eq hd _ _

theorem intervals_cover (ns : List Nat) : ∀ c i, c ≤ i → i < c + ns.sum → ∃ (j : Nat) (p : Nat × Nat), (intervals c ns)[j]? = some p ∧ p.1 ≤ i ∧ i < p.2 := by
  induction ns with
  | nil => intro c i h1 h2; simp at h2; omega
  | cons n ns ih =>
    intro c i h1 h2
    rw [List.sum_cons] at h2
    rw [intervals]
    by_cases h : i < c + n
    · exact ⟨0, (c, c + n), rfl, h1, h⟩
    · obtain ⟨j, p, k1, k2⟩ := ih (c + n) i (by omega) (by omega)
      exact ⟨j + 1, p, by simpa using k1, k2⟩

theorem sign_range (lt : δ → δ → Bool) (x y : δ) : sign lt x y = -1 ∨ sign lt x y = 0 ∨ sign lt x y = 1 := by
  unfold sign
  split <;> split <;> simp

theorem h5Assign_mem {a v r : List Int} {lo hi : Nat} (h : h5Assign a lo hi v = .ok r) : ∀ x ∈ r, x ∈ a ∨ x ∈ v := by
  unfold h5Assign at h
  dsimp only at h
  split at h
  · cases h; exact fun x hx => Or.inl hx
  split at h
  · cases h
    intro x hx
    simp only [List.mem_append] at hx
    rcases hx with (hx | hx) | hx
    · exact Or.inl (List.mem_of_mem_take hx)
    · exact Or.inr hx
    · exact Or.inl (List.mem_of_mem_drop hx)
  split at h
  · cases h
    intro x hx
    simp only [List.mem_append] at hx
    rcases hx with (hx | hx) | hx
    · exact Or.inl (List.mem_of_mem_take hx)
    · rw [(List.mem_replicate.mp hx).2]; simp
    · exact Or.inl (List.mem_of_mem_drop hx)
  · cases h

theorem scoreLoop_range {f : Int × Int × Int → Except Err Int} (hf : ∀ d s, f d = .ok s → s = -1 ∨ s = 0 ∨ s = 1) :
    ∀ (cs : List (List (Int × Int × Int))) (idx : Nat) (scores S : List Int), (∀ s ∈ scores, s = -1 ∨ s = 0 ∨ s = 1) →
      scoreLoop f cs idx scores = .ok S → ∀ s ∈ S, s = -1 ∨ s = 0 ∨ s = 1
  | [], idx, scores, S, h0, h => by unfold scoreLoop at h; cases h; exact h0
  | c :: cs, idx, scores, S, h0, h => by
    unfold scoreLoop at h
    split at h
    · cases h
    rename_i s hs
    split at h
    · cases h
    rename_i sc ha
    apply scoreLoop_range hf cs _ _ _ _ h
    intro x hx
    rcases h5Assign_mem ha x hx with hx | hx
    · exact h0 x hx
    · obtain ⟨d, _, hd⟩ := forall₂_mem_right (sequence_inv hs) x hx
      exact hf d x hd

theorem tripScore_range {lt : δ → δ → Bool} {t : IntType} {base : Int} {pairs : List Int} {dis : List δ} {d : Int × Int × Int} {s : Int}
    (h : tripScore lt t base pairs dis d = .ok s) : s = -1 ∨ s = 0 ∨ s = 1 := by
  unfold tripScore at h
  split at h
  · cases h
  split at h
  · cases h
  cases h
  exact sign_range ..

theorem scoreLevels_range {lt : δ → δ → Bool} {bufLen : Nat} {F : File} {P : PairFile} {dist : List δ} :
    ∀ (ps : List (List Val × Nat)) (scores S : List Int), (∀ s ∈ scores, s = -1 ∨ s = 0 ∨ s = 1) →
      scoreLevels lt bufLen F P dist ps scores = .ok S → ∀ s ∈ S, s = -1 ∨ s = 0 ∨ s = 1
  | [], scores, S, h0, h => by unfold scoreLevels at h; cases h; exact h0
  | p :: ps, scores, S, h0, h => by
    unfold scoreLevels at h
    split at h
    · cases h
    rename_i sc hsc
    apply scoreLevels_range ps _ _ _ h
    unfold scoreLevel at hsc
    split at hsc
    · cases hsc
    split at hsc
    · cases hsc
    split at hsc
    · cases hsc
    split at hsc
    · cases hsc
    exact scoreLoop_range (fun d s hd => tripScore_range hd) _ _ _ _ h0 hsc

end ABX.Score
