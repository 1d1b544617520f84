import Verif.Model.Connector
/-!
Property C87: calls of functions of auxiliary files in a script.  What the documentation describes (`Documented`) is stated on syntax trees only.
-/
namespace ABX.Connector

/-- a call as the file documents it: `alias(in_1, ..., in_k)` or `alias(in_1, ..., in_k).out['name_1', ..., 'name_n']`, where no argument is a call of that kind -/
inductive Documented (aliases : List String) : Node → Prop
  | all (x : String) (args : List String) (hx : x ∈ aliases) : Documented aliases (.call (.name x) (args.map .name) false false)
  | some (x : String) (args outs : List String) (hx : x ∈ aliases) :
      Documented aliases (.subscript (.attr (.call (.name x) (args.map .name) false false) "out") (.strings outs))

/-- is it a call of an alias with a keyword argument, possibly followed by `.out[...]` -/
def Keyworded (aliases : List String) : Node → Prop
  | .call (.name x) _ true _ => x ∈ aliases
  | .subscript (.attr (.call (.name x) _ true _) "out") _ => x ∈ aliases
  | _ => False

theorem genericVisit_error (after : String → Node → Except Err Node) (n : Node) : genericVisit after n = .error .attributeError := by
  have h : superLookup mro "NodeVisitor" "generic_visit" = .error .attributeError := by decide +kernel
  simp only [genericVisit, h]

/-- No syntax tree can be treated, in any version of python: every visit raises AttributeError or ValueError, also that of the documented calls. -/
theorem C87_violated (py2 : Bool) (aliases : List String) (after : String → Node → Except Err Node) (n : Node) :
    visit py2 aliases after n = .error .attributeError ∨ visit py2 aliases after n = .error .valueError := by
  have hc : ∀ k s, checkCall py2 k s = .error .attributeError ∨ checkCall py2 k s = .error .valueError ∨ checkCall py2 k s = .ok () := by
    intro k s; cases k <;> cases s <;> cases py2 <;> simp [checkCall]
  have hf : ∀ f, funcId f = .error .attributeError ∨ ∃ x, funcId f = .ok x := by
    intro f; cases f <;> simp [funcId]
  cases n with
  | name x => exact .inl (genericVisit_error after (.name x))
  | attr v a => exact .inl (genericVisit_error after (.attr v a))
  | strings l => exact .inl (genericVisit_error after (.strings l))
  | other cs => exact .inl (genericVisit_error after (.other cs))
  | call f as k s =>
    simp only [visit, visitCall]
    rcases hf f with h | ⟨x, h⟩
    · simp [h]
    · simp only [h]
      split
      · rcases hc k s with h | h | h <;> simp [h, genericVisit_error]
      · simp [genericVisit_error]
  | subscript v s =>
    simp only [visit, visitSubscript]
    split
    · rename_i f as k st
      rcases hf f with h | ⟨x, h⟩
      · simp [h]
      · simp only [h]
        split
        · rcases hc k st with h | h | h <;> simp only [h]
          · simp
          · simp
          · split <;> simp [genericVisit_error]
        · simp [genericVisit_error]
    · simp [genericVisit_error]

/-- Which of the two, in python 3: ValueError exactly for a call of an auxiliary function with a keyword argument, at the root of the tree. -/
theorem C87_error (aliases : List String) (after : String → Node → Except Err Node) (n : Node) :
    visit false aliases after n = .error .valueError ↔ Keyworded aliases n := by
  have hf : ∀ f, funcId f = .error .attributeError ∨ ∃ x, f = .name x := by
    intro f; cases f <;> simp [funcId]
  cases n with
  | name x => simp [visit, genericVisit_error, Keyworded]
  | attr v a => simp [visit, genericVisit_error, Keyworded]
  | strings l => simp [visit, genericVisit_error, Keyworded]
  | other cs => simp [visit, genericVisit_error, Keyworded]
  | call f as k s =>
    simp only [visit, visitCall]
    rcases hf f with h | ⟨x, rfl⟩
    · cases f <;> simp_all [funcId, Keyworded]
    · by_cases hx : x ∈ aliases <;> cases k <;> simp [funcId, hx, checkCall, genericVisit_error, Keyworded]
  | subscript v s =>
    simp only [visit, visitSubscript]
    split
    · rename_i f as k st
      rcases hf f with h | ⟨x, rfl⟩
      · cases f <;> simp_all [funcId, Keyworded]
      · by_cases hx : x ∈ aliases <;> cases k <;> simp [funcId, hx, checkCall, genericVisit_error, Keyworded]
    · rename_i hv
      simp only [genericVisit_error]
      refine ⟨fun h => by simp at h, fun h => ?_⟩
      exfalso
      unfold Keyworded at h
      split at h
      · rename_i he; cases he
      · rename_i he; injection he with h1 h2; exact hv _ _ _ _ h1
      · exact h

/-- is it a call of an alias with a keyword or starred argument, possibly followed by `.out[...]`, or a call of an alias followed by `.out[...]` where the brackets hold something other than strings -/
def Refused (aliases : List String) : Node → Prop
  | .call (.name x) _ k st => x ∈ aliases ∧ (k = true ∨ st = true)
  | .subscript (.attr (.call (.name x) _ k st) "out") slice => x ∈ aliases ∧ (k = true ∨ st = true ∨ ∀ l, slice ≠ .strings l)
  | _ => False

/-- Which of the two, in python 2: ValueError exactly for a call of an auxiliary function, at the root of the tree, with a keyword or starred argument or with outputs that are not given as strings. -/
theorem C87_error_py2 (aliases : List String) (after : String → Node → Except Err Node) (n : Node) :
    visit true aliases after n = .error .valueError ↔ Refused aliases n := by
  have hf : ∀ f, funcId f = .error .attributeError ∨ ∃ x, f = .name x := by
    intro f; cases f <;> simp [funcId]
  cases n with
  | name x => simp [visit, genericVisit_error, Refused]
  | attr v a => simp [visit, genericVisit_error, Refused]
  | strings l => simp [visit, genericVisit_error, Refused]
  | other cs => simp [visit, genericVisit_error, Refused]
  | call f as k s =>
    simp only [visit, visitCall]
    rcases hf f with h | ⟨x, rfl⟩
    · cases f <;> simp_all [funcId, Refused]
    · by_cases hx : x ∈ aliases <;> cases k <;> cases s <;> simp [funcId, hx, checkCall, genericVisit_error, Refused]
  | subscript v s =>
    simp only [visit, visitSubscript]
    split
    · rename_i f as k st
      rcases hf f with h | ⟨x, rfl⟩
      · cases f <;> simp_all [funcId, Refused]
      · by_cases hx : x ∈ aliases <;> cases k <;> cases st <;> cases s <;> simp [funcId, hx, checkCall, genericVisit_error, Refused]
    · rename_i hv
      simp only [genericVisit_error]
      refine ⟨fun h => by simp at h, fun h => ?_⟩
      exfalso
      unfold Refused at h
      split at h
      · rename_i he; cases he
      · rename_i he; injection he with h1 h2; exact hv _ _ _ _ h1
      · exact h

/-- In python 3 the documented calls raise AttributeError. -/
theorem C87_documented (aliases : List String) (after : String → Node → Except Err Node) (n : Node) (h : Documented aliases n) :
    visit false aliases after n = .error .attributeError := by
  rcases C87_violated false aliases after n with h' | h'
  · exact h'
  · exfalso
    have := (C87_error aliases after n).1 h'
    cases h <;> simp [Keyworded] at this

/-- A compute function whose script has auxiliary functions is not created: the constructor of the connector lacks an argument.  Without auxiliary functions the code is left as it is. -/
theorem C87_connect (py2 : Bool) (aux aliases : List String) (after : String → Node → Except Err Node) (main : Node) :
    connect py2 aux aliases after main = if aux = [] then .ok main else .error .typeError := by
  cases aux <;> simp [connect, construct]

/-! ### examples -/

/-- `f(a, b)` with the alias `f` -/
example : Documented ["f"] (.call (.name "f") [.name "a", .name "b"] false false) := .all "f" ["a", "b"] (by simp)
/-- `f(a).out['o']` -/
example : Documented ["f"] (.subscript (.attr (.call (.name "f") [.name "a"] false false) "out") (.strings ["o"])) := .some "f" ["a"] ["o"] (by simp)
/-- `f(a).out[i]` -/
example : Refused ["f"] (.subscript (.attr (.call (.name "f") [.name "a"] false false) "out") (.name "i")) := by simp [Refused]
/-- `f(a, k=1)` -/
example : Keyworded ["f"] (.call (.name "f") [.name "a"] true false) := by simp [Keyworded]

#print axioms C87_violated
#print axioms C87_error
#print axioms C87_error_py2
#print axioms C87_documented
#print axioms C87_connect

end ABX.Connector
