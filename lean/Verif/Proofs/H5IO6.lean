import Verif.Proofs.H5IO5
/-!
Lemmas for Properties/H5IO.lean: what a reader of the file finds; the creation of a group.
-/
namespace ABX.H5IO
open ExtSort NP2H5 Task Spec
open Lookup (indexOf fusedType fusedLevels keyWeights cap m64 m64_eq fusedKey expand InRange radix)

variable {ν : Type} [DecidableEq ν]

attribute [local irreducible] m64 Lookup.keyOf

theorem cumsum_getD : ∀ (l : List Nat) (a j : Nat), j < l.length → (cumsum a l).getD j 0 = a + (l.take (j + 1)).sum
  | n :: l, a, 0, _ => by simp [cumsum]
  | n :: l, a, j + 1, h => by
    rw [cumsum, List.getD_cons_succ, cumsum_getD l (a + n) j (by simpa using h), List.take_succ_cons, List.sum_cons, Nat.add_assoc]

theorem part_eq {κ : Type} (dims : κ → Nat) {ds : List κ} {j : Nat} {d : κ} (h : ds[j]? = some d) (row : List Nat) :
    part (cumsum 0 (ds.map dims)) j row = npSlice row ((ds.take j).map dims).sum (((ds.take j).map dims).sum + dims d) := by
  obtain ⟨hj, hd⟩ := List.getElem?_eq_some_iff.mp h
  unfold part
  have h1 : (cumsum 0 (ds.map dims)).getD j 0 = ((ds.take j).map dims).sum + dims d := by
    rw [cumsum_getD _ _ _ (by simpa using hj), Nat.zero_add, ← List.map_take, List.take_succ_eq_append_getElem hj, List.map_append, List.sum_append, hd]
    simp
  rw [h1]
  congr 1
  cases j with
  | zero => simp
  | succ j => dsimp only; rw [cumsum_getD _ _ _ (by simp; omega), Nat.zero_add, List.map_take]

/-- the rows of all calls -/
theorem total_rows {g : Group ν} {dims : String → Nat} {ms : List (String → List (List Nat))} (h : ∀ m ∈ ms, ValidM g dims m) :
    (∃ n, ∀ d ∈ g.managed, (total ms d).length = n) ∧ (∀ d ∈ g.managed, ∀ r ∈ total ms d, r.length = dims d) ∧ ∀ d ∈ keysOf g.indexed, ∀ r ∈ total ms d, ∀ x ∈ r, x < levels g d := by
  refine ⟨?_, ?_, ?_⟩
  · induction ms with
    | nil => exact ⟨0, fun d _ => rfl⟩
    | cons m ms ih =>
      obtain ⟨n, hn⟩ := ih (fun m hm => h m (by simp [hm]))
      obtain ⟨k, hk⟩ := (h m (by simp)).rows
      refine ⟨k + n, fun d hd => ?_⟩
      have := hn d hd
      unfold total at this ⊢
      rw [List.flatMap_cons, List.length_append, hk d hd, this]
  · intro d hd r hr
    obtain ⟨m, hm, hr⟩ := List.mem_flatMap.mp hr
    exact (h m hm).cols d hd r hr
  · intro d hd r hr
    obtain ⟨m, hm, hr⟩ := List.mem_flatMap.mp hr
    exact (h m hm).lt d hd r hr

theorem R_joined {g : Group ν} {dims : String → Nat} {ms : List (String → List (List Nat))} (h : ∀ m ∈ ms, ValidM g dims m) {ds : List String} (hd : ∀ d ∈ ds, d ∈ g.managed) :
    ms.flatMap (fun m => joinRows (ds.map m)) = joinRows (ds.map (total ms)) := by
  refine (joinRows_flat ds ms (fun m d => m d) (fun m hm => ?_)).symm
  obtain ⟨n, hn⟩ := (h m hm).rows
  exact ⟨n, fun d hd' => hn d (hd d hd')⟩

theorem indexed_part {g : Group ν} {dims : String → Nat} {ms : List (String → List (List Nat))} (h : ∀ m ∈ ms, ValidM g dims m) {ds : List String} (hd : ∀ d ∈ ds, d ∈ g.managed) {j : Nat} {d : String}
    (hj : ds[j]? = some d) : (ms.flatMap (fun m => joinRows (ds.map m))).map (part (cumsum 0 (ds.map dims)) j) = total ms d := by
  rw [R_joined h hd]
  obtain ⟨⟨n, hn⟩, hc, -⟩ := total_rows h
  obtain ⟨hlt, he⟩ := List.getElem?_eq_some_iff.mp hj
  have := joinRows_slice dims (total ms) ds (fun d hd' => hn d (hd d hd')) (fun d hd' => hc d (hd d hd')) (ds.take j) d (ds.drop (j + 1)) (by
    rw [← he, List.cons_getElem_drop_succ, List.take_append_drop])
  rw [← this]
  apply List.map_congr_left
  intro row _
  exact part_eq dims hj row

theorem fused_keys {g : Group ν} {dims : String → Nat} {ms : List (String → List (List Nat))} (h : ∀ m ∈ ms, ValidM g dims m) {ds : List String} (hne : ds ≠ []) (hd : ∀ d ∈ ds, d ∈ g.managed)
    (hx : ∀ d ∈ ds, d ∈ keysOf g.indexed) {key : List Nat → Nat} {ns : List Nat} (hns : ns = expand (ds.map (levels g)) (ds.map dims)) (hk : ∀ row, InRange ns row → key row = radix ns row)
    {n : Nat} (hn : ∀ d ∈ g.managed, (total ms d).length = n) :
    ∃ keys : List Nat, ms.flatMap (fun m => (joinRows (ds.map m)).map (fun row => [key row])) = keys.map (fun k => [k]) ∧ keys.length = n ∧
      ∀ i j, i < n → j < n → (keys[i]? = keys[j]? ↔ ∀ d ∈ ds, (total ms d)[i]? = (total ms d)[j]?) := by
  obtain ⟨-, hc, hl⟩ := total_rows h
  have hlen : (joinRows (ds.map (total ms))).length = n := joinRows_length (by simpa using hne) (by
    intro r hr
    obtain ⟨d, hd', rfl⟩ := List.mem_map.mp hr
    exact hn d (hd d hd'))
  have hin := joinRows_inRange (g := g) (dims := dims) (m := total ms) (ds := ds) (fun d hd' => hc d (hd d hd')) (fun d hd' => hl d (hx d hd'))
  refine ⟨(joinRows (ds.map (total ms))).map key, ?_, by simpa using hlen, ?_⟩
  · rw [← R_joined h hd, List.map_map, List.map_flatMap]
    rfl
  · intro i j hi hj
    rw [← joinRows_eq_iff dims (total ms) (fun d hd' => hn d (hd d hd')) (fun d hd' => hc d (hd d hd')) i j hne hi hj]
    have hi' : i < (joinRows (ds.map (total ms))).length := by omega
    have hj' : j < (joinRows (ds.map (total ms))).length := by omega
    rw [List.getElem?_map, List.getElem?_map, List.getElem?_eq_getElem hi', List.getElem?_eq_getElem hj', Option.map_some, Option.map_some]
    constructor
    · intro he
      have he := Option.some.inj he
      have h1 := hin _ (List.getElem_mem hi')
      have h2 := hin _ (List.getElem_mem hj')
      rw [← hns] at h1 h2
      rw [hk _ h1, hk _ h2] at he
      rw [Lookup.radix_inj h1 h2 he]
    · intro he
      rw [Option.some.inj he]

/-! ### creation -/

theorem load_new {g : Group ν} (h : g.keyWeights = []) : load g = .ok g := by simp [load, h]

theorem init_ok {ascii : ν → Bool} {fs : Option (File ν)} {group : String} {d : Decl} {indexes : List (String × List ν)} {fused : List (String × List String)} {f : File ν} {g : Group ν}
    (h : init ascii fs group (some (d, indexes, fused)) = (some f, .ok g)) :
    ∃ indexed, checkDecl d indexes fused = .ok indexed ∧ (fs.getD ⟨[], []⟩).groups.lookup group = none ∧ newGroup ascii d.managed indexed indexes fused = .ok g ∧
      f = ⟨(fs.getD ⟨[], []⟩).groups ++ [(group, g)], (fs.getD ⟨[], []⟩).data⟩ := by
  unfold init at h
  dsimp only at h
  split at h
  · cases h
  · rename_i indexed hi
    split at h
    · cases h
    · rename_i hl
      split at h
      · cases h
      · rename_i g' hg
        have h1 := Option.some.inj (Prod.mk.inj h).1
        have h2 := (Prod.mk.inj h).2
        have hkw : g'.keyWeights = [] := by
          obtain ⟨c1, c2, c3⟩ := checkDecl_ok hi
          exact (newGroup_ok hg c1 c2 c3).2.2.2.2.2
        rw [load_new hkw] at h2
        obtain rfl := Except.ok.inj h2
        exact ⟨indexed, hi, hl, hg, h1.symm⟩

theorem init_wf {ascii : ν → Bool} {fs : Option (File ν)} {group : String} {d : Decl} {indexes : List (String × List ν)} {fused : List (String × List String)} {f : File ν} {g : Group ν}
    (h : init ascii fs group (some (d, indexes, fused)) = (some f, .ok g)) : Wf g ∧ f.groups.lookup group = some g := by
  obtain ⟨indexed, h1, h2, h3, rfl⟩ := init_ok h
  obtain ⟨c1, c2, c3⟩ := checkDecl_ok h1
  refine ⟨(newGroup_ok h3 c1 c2 c3).1, ?_⟩
  dsimp only
  rw [lookup_append, h2]
  simp

end ABX.H5IO
