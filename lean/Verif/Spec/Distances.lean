import Verif.Model.Workers
/-! Specification of the distance file: what its rows should be, independently of how they are computed. -/
namespace ABX.Distances
open ExtSort ABX.Task Pairs
variable {ρ φ δ : Type}

/-- row `k` of the distances holds what it should: the distance between the items A and X of the pair, the k-th of unique_pairs/data, A + base * X, in this order -/
def RowOK (I : Inputs ρ φ δ) (k : Nat) (d : δ) : Prop :=
  ∃ (by_ : List Val) (base : Nat) (start stop : Int) (db : List ρ) (A X : Nat) (rA rX : ρ) (fA fX : φ),
    I.pairs.attrs.lookup by_ = some (base, start, stop) ∧ start ≤ k ∧ (k : Int) < stop ∧ I.pairs.data[k]? = some ((A + base * X : Nat) : Int) ∧ A < base ∧
    I.feats.lookup by_ = some db ∧ db[A]? = some rA ∧ db[X]? = some rX ∧ I.getFeat rA = .ok fA ∧ I.getFeat rX = .ok fX ∧ I.distance fA fX = .ok d

/-- what is needed of the table of pairs for a level -/
structure LevelIn (P : PairFile) (by_ : List Val) (base : Nat) (start stop : Int) : Prop where
  attr : P.attrs.lookup by_ = some (base, start, stop)
  pos : 0 < base
  le : 0 ≤ start ∧ start ≤ stop ∧ stop ≤ P.data.length
  keys : ∀ k ∈ npSlice P.data start.toNat stop.toNat, 0 ≤ k

/-- a block within its level -/
def BlockIn (P : PairFile) (b : Block) : Prop :=
  ∃ base start stop, LevelIn P b.by_ base start stop ∧ b.start ≤ b.stop ∧ b.stop ≤ (stop - start).toNat

/-- row `k` is there and right -/
def Good (I : Inputs ρ φ δ) (rows : List δ) (k : Nat) : Prop := ∃ d, rows[k]? = some d ∧ RowOK I k d

/-- all rows of a block are right -/
def BlockDone (I : Inputs ρ φ δ) (rows : List δ) (b : Block) : Prop :=
  ∀ base start stop, I.pairs.attrs.lookup b.by_ = some (base, start, stop) → ∀ k : Nat, start.toNat + b.start ≤ k → k < start.toNat + b.stop → Good I rows k

/-- the levels `bys` of the table of pairs are intervals that do not overlap and together are the whole table -/
structure Tiled (P : PairFile) (bys : List (List Val)) : Prop where
  ne : bys ≠ []
  nodup : bys.Nodup
  levels : ∀ b ∈ bys, ∃ base start stop, LevelIn P b base start stop
  cover : ∀ k : Nat, k < P.data.length → ∃ b ∈ bys, ∃ base start stop, P.attrs.lookup b = some (base, start, stop) ∧ start ≤ k ∧ (k : Int) < stop
  disjoint : ∀ b c base start stop base' start' stop', P.attrs.lookup b = some (base, start, stop) → P.attrs.lookup c = some (base', start', stop') →
    ∀ k : Int, start ≤ k → k < stop → start' ≤ k → k < stop' → b = c

end ABX.Distances
