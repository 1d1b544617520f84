import Verif.Proofs.Pairs3
/-!
Helper lemmas for the table of pairs: what the attributes delimit.
-/
namespace ABX.Pairs
open ExtSort H52NP Task SideOps Sampler
variable {α ρ : Type}

theorem attrs_spec {data : List (Int × Int × Int)} {Ls : List (Level ρ)} {ivs : List (Nat × Nat)} {us : List (List Int)} (h : AllPairs data Ls ivs us) :
    ∀ (pre : List Int), List.Forall₂ (fun iv (at' : List Val × (Nat × Int × Int)) =>
        IsPairs data at'.2.1 iv (npSlice (pre ++ us.flatten) at'.2.2.1.toNat at'.2.2.2.toNat)) ivs
      (List.zipWith (fun L (p : Nat × Nat) => (L.key, baseOf L, ((p.1 : Nat) : Int), ((p.2 : Nat) : Int))) Ls (intervals pre.length (us.map List.length))) := by
  induction h with
  | nil => intro pre; exact .nil
  | @cons L iv u Ls ivs us hL hu _ ih =>
    intro pre
    rw [List.map_cons, intervals, List.zipWith_cons_cons, List.flatten_cons, ← List.append_assoc]
    refine .cons ?_ ?_
    · simp only [Int.toNat_natCast]
      rw [npSlice_append3]
      exact hu
    · have := ih (pre ++ u)
      rw [List.length_append] at this
      exact this

theorem allPairs_length {data : List (Int × Int × Int)} {Ls : List (Level ρ)} {ivs : List (Nat × Nat)} {us : List (List Int)} (h : AllPairs data Ls ivs us) :
    us.length = Ls.length ∧ ivs.length = Ls.length := by
  induction h with
  | nil => exact ⟨rfl, rfl⟩
  | cons _ _ _ ih => simp [ih]

theorem attrs_levels (Ls : List (Level ρ)) : ∀ (ns : List Nat) (c : Nat), ns.length = Ls.length →
    List.Forall₂ (fun L (at' : List Val × (Nat × Int × Int)) => at'.1 = L.key ∧ at'.2.1 = baseOf L) Ls
      (List.zipWith (fun L (p : Nat × Nat) => (L.key, baseOf L, ((p.1 : Nat) : Int), ((p.2 : Nat) : Int))) Ls (intervals c ns)) := by
  induction Ls with
  | nil => intro ns c _; exact .nil
  | cons L Ls ih =>
    intro ns c h
    cases ns with
    | nil => simp at h
    | cons n ns =>
      rw [intervals, List.zipWith_cons_cons]
      exact .cons ⟨rfl, rfl⟩ (ih ns _ (by simpa using h))

theorem attrs_ivs (Ls : List (Level ρ)) : ∀ (ns : List Nat) (c : Nat), ns.length = Ls.length →
    (List.zipWith (fun L (p : Nat × Nat) => (L.key, baseOf L, ((p.1 : Nat) : Int), ((p.2 : Nat) : Int))) Ls (intervals c ns)).map (fun x => x.2.2) =
      (intervals c ns).map (fun p => (((p.1 : Nat) : Int), ((p.2 : Nat) : Int))) := by
  induction Ls with
  | nil => intro ns c h; cases ns with
    | nil => rfl
    | cons => simp at h
  | cons L Ls ih =>
    intro ns c h
    cases ns with
    | nil => simp at h
    | cons n ns =>
      rw [intervals, List.zipWith_cons_cons, List.map_cons, List.map_cons, ih ns _ (by simpa using h)]

theorem attrs_keys {Ls : List (Level ρ)} {l : List (List Val × (Nat × Int × Int))} (h : List.Forall₂ (fun L (at' : List Val × (Nat × Int × Int)) => at'.1 = L.key ∧ at'.2.1 = baseOf L) Ls l) :
    l.map (·.1) = Ls.map (·.key) := by
  induction h with
  | nil => rfl
  | cons h _ ih => rw [List.map_cons, List.map_cons, ih, h.1]

end ABX.Pairs
