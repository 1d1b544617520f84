import Verif.Model.H5IO
/-!
Specification of what calls to `H5IO.write` give to the datasets of a group, and of what a reader of the file finds.
-/
namespace ABX.H5IO.Spec

variable {ν : Type} [DecidableEq ν]

/-- the input given for the dataset `d` (of `dims d` columns), by a call with the given flag `indexed`, stands for these rows of numbers: the numbers given for a raw dataset;
the positions given, or the positions of the values given, in the index of an indexed dataset -/
inductive Given (g : Group ν) (dims : String → Nat) (flag : Bool) (d : String) : Input ν → List (List Nat) → Prop
  | raw (m : List (List Nat)) (hd : d ∉ keysOf g.indexed) (hm : ∀ r ∈ m, r.length = dims d) : Given g dims flag d (.numbers ⟨dims d, m⟩) m
  | numbers (m : List (List Nat)) (i : String) (l : List ν) (hf : flag = true) (hd : g.indexed.lookup d = some i) (hi : g.indexes.lookup i = some l)
      (hm : ∀ r ∈ m, r.length = dims d ∧ ∀ x ∈ r, x < l.length) : Given g dims flag d (.numbers ⟨dims d, m⟩) m
  | values (vs : List ν) (i : String) (l : List ν) (hf : flag = false) (hd : g.indexed.lookup d = some i) (hi : g.indexes.lookup i = some l)
      (h1 : dims d = 1) (hv : ∀ v ∈ vs, v ∈ l) : Given g dims flag d (.values vs) (vs.map (fun v => [l.idxOf v]))

/-- a call of `write` that gives the rows `m d` to every dataset `d`, the same number of rows to all -/
structure Call (g : Group ν) (dims : String → Nat) (c : Bool × List (String × Input ν)) (m : String → List (List Nat)) : Prop where
  nodup : (keysOf c.2).Nodup
  keys : ∀ k, k ∈ keysOf c.2 ↔ k ∈ g.managed
  given : ∀ p ∈ c.2, Given g dims c.1 p.1 p.2 (m p.1)
  rows : ∃ n, ∀ d ∈ g.managed, (m d).length = n

/-- all rows given to a dataset -/
def total (ms : List (String → List (List Nat))) (d : String) : List (List Nat) := ms.flatMap (fun m => m d)

/-- the number of values of the index of a dataset -/
def levels (g : Group ν) (d : String) : Nat :=
  match g.indexed.lookup d with
  | none => 0
  | some i => match g.indexes.lookup i with
    | none => 0
    | some l => l.length

/-- the columns of the dataset number `j`, from the ends of the columns of the datasets -/
def part (cum : List Nat) (j : Nat) (row : List Nat) : List Nat :=
  npSlice row (match j with | 0 => 0 | j + 1 => cum.getD j 0) (cum.getD j 0)

/-- the datasets that a first call of `write` creates -/
def paths (group : String) (g : Group ν) : List (String × String) :=
  g.raw.map (fun d => ("/", d)) ++ (if g.nonFused = [] then [] else [(group, "indexed_data")]) ++ g.fused.map (fun p => (group, p.1))

/-- conditions on the declaration, the numbers of columns and the file.  `same`: an indexed dataset that is not fused has an index of its own, with its name.
`raw` and `wide`: a row is shorter than 20 kB.  `fused`: there are at most 2^64 combinations.  `fresh`: the datasets to create have distinct names, and are not in the file. -/
structure Ready (f : File ν) (group : String) (g : Group ν) (dims : String → Nat) : Prop where
  same : ∀ d ∈ g.nonFused, g.indexed.lookup d = some d
  len : ∀ p ∈ g.indexes, p.2.length < 2 ^ 64
  pos : ∀ d ∈ g.managed, 0 < dims d
  raw : ∀ d ∈ g.raw, 8 * dims d < 20000
  wide : 8 * (g.nonFused.map dims).sum < 20000
  fused : ∀ p ∈ g.fused, p.2.1 ≠ [] ∧ (p.2.1.map (fun d => levels g d ^ dims d)).prod ≤ 2 ^ 64
  fresh : (paths group g).Nodup ∧ ∀ x ∈ paths group g, x ∉ keysOf f.data

/-! ### creation -/

/-- the index named `i` is declared for the dataset `d` -/
def HasIndex (decl : Decl) (indexes : List (String × List ν)) (d i : String) : Prop :=
  match decl with
  | .names l => d = i ∧ d ∈ l ∧ i ∈ keysOf indexes
  | .mapping l => (d, some i) ∈ l

/-- the indexes declared are those given, and fused datasets are indexed -/
structure Consistent (decl : Decl) (indexes : List (String × List ν)) (fused : List (String × List String)) : Prop where
  given : ∀ d i, HasIndex decl indexes d i → i ∈ keysOf indexes
  used : ∀ i ∈ keysOf indexes, ∃ d, HasIndex decl indexes d i
  fused : ∀ p ∈ fused, ∀ d ∈ p.2, ∃ i, HasIndex decl indexes d i

/-- names and values that can be stored: at least one dataset, no empty index, only ASCII -/
structure Storable (ascii : ν → Bool) (decl : Decl) (indexes : List (String × List ν)) : Prop where
  some : decl.managed ≠ []
  names : ∀ d ∈ decl.managed, ∀ c ∈ d.toList, c.toNat < 128
  values : ∀ p ∈ indexes, p.2 ≠ [] ∧ ∀ v ∈ p.2, ascii v = true

end ABX.H5IO.Spec
