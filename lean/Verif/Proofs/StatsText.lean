import Verif.Proofs.Stats
import Verif.Proofs.NbLevels
import Verif.Proofs.Names
/-! The text of the statistics. -/
namespace ABX.Task
open ExtSort SideOps
open Database (Text)
variable {ρ : Type}

/-- the text goes on with a level or ends -/
def AtLevel (u : Text) : Prop := u = [] ∨ u.head? = some '#'

theorem fields_unique : ∀ {fs fs' : List (Text × Int)} {t t' u u' : Text}, Spec.StatFields fs t → Spec.StatFields fs' t' → AtLevel u → AtLevel u' →
    (∀ f ∈ fs, ':' ∉ f.1 ∧ f.1.head? ≠ some '#') → (∀ f ∈ fs', ':' ∉ f.1 ∧ f.1.head? ≠ some '#') → t ++ u = t' ++ u' → fs = fs' ∧ u = u' := by
  have start : ∀ {name r u' : Text}, name.head? ≠ some '#' → AtLevel u' → name ++ ": ".toList ++ r = u' → False := by
    intro name r u' h1 h2 h3
    subst h3
    cases name with
    | nil => rcases h2 with h | h <;> simp at h
    | cons c name =>
      rcases h2 with h | h
      · simp at h
      · simp at h h1; exact h1 h
  intro fs fs' t t' u u' h h' hu hu' hf hf' he
  induction h generalizing fs' t' with
  | nil =>
    cases h' with
    | nil => exact ⟨rfl, by simpa using he⟩
    | @cons name n fs t h' =>
      exfalso
      exact start (r := Names.decimal n ++ ['\n'] ++ t ++ u') (hf' (name, n) (by simp)).2 hu (by simpa using he.symm)
  | @cons name n fs t h ih =>
    cases h' with
    | nil =>
      exfalso
      exact start (r := Names.decimal n ++ ['\n'] ++ t ++ u) (hf (name, n) (by simp)).2 hu' (by simpa using he)
    | @cons name' n' fs' t' h' =>
      have e1 : name ++ ':' :: (' ' :: Names.decimal n ++ '\n' :: (t ++ u)) = name' ++ ':' :: (' ' :: Names.decimal n' ++ '\n' :: (t' ++ u')) := by
        simpa using he
      obtain ⟨en, e2⟩ := Names.cut_unique ':' _ _ _ _ (hf (name, n) (by simp)).1 (hf' (name', n') (by simp)).1 e1
      have nl : ∀ n : Int, '\n' ∉ ' ' :: Names.decimal n := by
        intro n h
        rcases List.mem_cons.mp h with h | h
        · exact absurd h (by decide)
        · exact (Names.decimal_clean n).2 h
      obtain ⟨ed, e3⟩ := Names.cut_unique '\n' _ _ _ _ (nl n) (nl n') e2
      obtain ⟨e4, e5⟩ := ih h' (fun f hm => hf f (by simp [hm])) (fun f hm => hf' f (by simp [hm])) e3
      have := Names.decimal_inj (List.cons.inj ed).2
      have en : name = name' := en
      exact ⟨by rw [en, this, e4], e5⟩

theorem levels_at {ls : List (Text × List (Text × Int))} {u : Text} (h : Spec.StatLevels ls u) : AtLevel u := by
  cases h with
  | nil => exact .inl rfl
  | cons h1 h2 => exact .inr rfl

theorem levels_unique : ∀ {ls ls' : List (Text × List (Text × Int))} {u : Text}, Spec.StatLevels ls u → Spec.StatLevels ls' u →
    Spec.ReadableStats ls → Spec.ReadableStats ls' → ls = ls' := by
  intro ls ls' u h h' hr hr'
  induction h generalizing ls' with
  | nil =>
    generalize hz : ([] : Text) = z at h'
    cases h' with
    | nil => rfl
    | cons _ _ => simp at hz
  | @cons name fs t ls u h1 h2 ih =>
    generalize hz : "### by level: ".toList ++ name ++ " ###\n".toList ++ t ++ u = z at h'
    cases h' with
    | nil => simp at hz
    | @cons name' fs' t' ls' u' h1' h2' =>
      have e1 : (name ++ " ###".toList) ++ '\n' :: (t ++ u) = (name' ++ " ###".toList) ++ '\n' :: (t' ++ u') := by
        simpa using hz
      have nl : ∀ {name : Text}, '\n' ∉ name → '\n' ∉ name ++ " ###".toList := by
        intro name h hm
        rcases List.mem_append.mp hm with h' | h'
        · exact h h'
        · exact absurd h' (by decide)
      obtain ⟨en, e2⟩ := Names.cut_unique '\n' _ _ _ _ (nl (hr (name, fs) (by simp)).1) (nl (hr' (name', fs') (by simp)).1) e1
      obtain ⟨e3, e4⟩ := fields_unique h1 h1' (levels_at h2) (levels_at h2') (hr (name, fs) (by simp)).2 (hr' (name', fs') (by simp)).2 e2
      subst e4
      have := ih h2' (fun l hl => hr l (by simp [hl])) (fun l hl => hr' l (by simp [hl]))
      have e3 : fs = fs' := e3
      have en : name = name' := List.append_cancel_right en
      rw [en, e3, this]

theorem levelText_levels : ∀ (l : List ((List Val × LevelStats) × Option Nat)),
    Spec.StatLevels (l.map (fun p => (Names.keyName p.1.1, [("nb_triplets".toList, p.1.2.nbTriplets)] ++
      (match p.2 with | some n => [("nb_levels".toList, (n : Int))] | none => []) ++
      [("nb_across_pairs".toList, p.1.2.nbAcrossPairs), ("nb_on_pairs".toList, p.1.2.nbOnPairs), ("nb_on_levels".toList, (p.1.2.nbOnLevels : Int)),
        ("nb_across_levels".toList, (p.1.2.nbAcrossLevels : Int)), ("nb_on_across_levels".toList, (p.1.2.nbOnAcrossLevels : Int))])))
      (l.flatMap (fun p => levelText p.1.1 p.1.2 p.2))
  | [] => .nil
  | p :: l => by
    rw [List.map_cons, List.flatMap_cons]
    have hF : Spec.StatFields ([("nb_triplets".toList, p.1.2.nbTriplets)] ++
      (match p.2 with | some n => [("nb_levels".toList, (n : Int))] | none => []) ++
      [("nb_across_pairs".toList, p.1.2.nbAcrossPairs), ("nb_on_pairs".toList, p.1.2.nbOnPairs), ("nb_on_levels".toList, (p.1.2.nbOnLevels : Int)),
        ("nb_across_levels".toList, (p.1.2.nbAcrossLevels : Int)), ("nb_on_across_levels".toList, (p.1.2.nbOnAcrossLevels : Int))])
        (statLine "nb_triplets" p.1.2.nbTriplets ++ ((match p.2 with | some n => statLine "nb_levels" n | none => []) ++
          (statLine "nb_across_pairs" p.1.2.nbAcrossPairs ++ (statLine "nb_on_pairs" p.1.2.nbOnPairs ++ (statLine "nb_on_levels" p.1.2.nbOnLevels ++
          (statLine "nb_across_levels" p.1.2.nbAcrossLevels ++ (statLine "nb_on_across_levels" p.1.2.nbOnAcrossLevels ++ []))))))) := by
      cases p.2 with
      | none => exact .cons (.cons (.cons (.cons (.cons (.cons .nil)))))
      | some n => exact .cons (.cons (.cons (.cons (.cons (.cons (.cons .nil))))))
    have := Spec.StatLevels.cons (name := Names.keyName p.1.1) hF (levelText_levels l)
    convert this using 1
    obtain ⟨⟨k, s⟩, nb⟩ := p
    unfold levelText
    cases nb <;> simp only [List.append_assoc, List.append_nil, List.nil_append]

end ABX.Task
