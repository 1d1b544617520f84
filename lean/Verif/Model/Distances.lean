import Verif.Model.Pairs
/-!
Model of ABXpy/distances/distances.py: division of the pairs into jobs (`create_distance_jobs`, lines 33-129), computation of the distances of a block
(`run_distance_job`, lines 150-275), extraction of the features of an item (`Features_Accessor`, lines 336-375) and `compute_distances`, lines 282-328.

Simplifications: python 3 (`/` is a float division); `np.ceil(total / float(n_cpu))` is exact (it is, below 2^53 pairs); the features are a function
`getFeat` of the item and the distance a function `distance` of two features, both of which may raise an exception; warnings, printed messages and the
parameter `normalized`, which is only passed to the distance, are left out; `splitted_features` is False (line 303).
-/
namespace ABX.Distances
open ExtSort Task Pairs
variable {ρ φ δ : Type}

/-- a block of pairs of one level: positions `start`..`stop` among the pairs of the level; `float`: the positions are floats -/
structure Block where
  by_ : List Val
  start : Nat
  stop : Nat
  float : Bool
  deriving DecidableEq, Repr

/-- the loop of lines 91-104 for a level of `n` pairs; `start` and `stop` of its blocks -/
def splitLoop (max : Nat) : (fuel n sta : Nat) → Except Err (List (Nat × Nat))
  | fuel, n, sta =>
    if 0 < n then
      match fuel with
      | 0 => .error .diverge
      | fuel + 1 =>
        let amount := if n > max then max else n                            -- lines 94-97
        match splitLoop max fuel (n - amount) (sta + amount) with
        | .error e => .error e
        | .ok bs => .ok ((sta, sta + amount) :: bs)
    else .ok []

/-- `attrs[2] - attrs[1]` for every level, lines 57-60 -/
def nPairs (P : PairFile) : List (List Val) → Except Err (List (List Val × Nat))
  | [] => .ok []
  | by_ :: bys => match P.attrs.lookup by_ with
    | none => .error .keyError
    | some (_, start, stop) => match nPairs P bys with
      | .error e => .error e
      | .ok ns => .ok ((by_, (stop - start).toNat) :: ns)

/-- lines 86-104: the blocks of all levels -/
def splitAll (max : Nat) (float : Bool) : List (List Val × Nat) → Except Err (List Block)
  | [] => .ok []
  | (by_, n) :: rest => match splitLoop max n n 0 with
    | .error e => .error e
    | .ok bs => match splitAll max float rest with
      | .error e => .error e
      | .ok bs' => .ok (bs.map (fun p => ⟨by_, p.1, p.2, float⟩) ++ bs')

/-- `np.argmin` -/
def argmin : List Nat → Except Err Nat
  | [] => .error .valueError
  | x :: xs => .ok ((x :: xs).idxOf (xs.foldl min x))

/-- lines 110-115; `sizes` is `n_dist` -/
def assign (sizes : List Nat) : (order cpu loads : List Nat) → Except Err (List Nat × List Nat)
  | [], cpu, loads => .ok (cpu, loads)
  | i :: is, cpu, loads => match argmin loads with
    | .error e => .error e
    | .ok c => match loads[c]?, sizes[i]? with
      | some l, some n => assign sizes is (cpu.set i c) (loads.set c (l + n))
      | _, _ => .error .indexError

/-- `buffer_max_size * 1000000 / 8`, a float, lines 33, 85 -/
def bufferMax : Nat := 12500000

/-- `create_distance_jobs`, lines 33-129: the blocks of every job -/
def createJobs (argsort : List Int → List Nat) (bys : List (List Val)) (P : PairFile) (nCpu : Nat) : Except Err (List (List Block)) :=
  if bys = [] then .error .nameError                                        -- `total_n_pairs` is set in the loop, lines 58-61, 66
  else if nCpu = 0 then .error .zeroDivision                                -- line 83
  else match nPairs P bys with
  | .error e => .error e
  | .ok ns =>
    let total := (ns.map (·.2)).sum                                          -- line 81
    let ceil := (total + nCpu - 1) / nCpu
    let max := if ceil ≤ bufferMax then ceil else bufferMax                  -- lines 82-85
    -- when the maximum is the float, one block cut at a float makes `start` and `stop` (lines 118-119) arrays of floats
    let float := decide (bufferMax < ceil) && ns.any (fun p => decide (bufferMax < p.2))
    match splitAll max float ns with
    | .error e => .error e
    | .ok blocks =>
      let sizes := blocks.map (fun b => b.stop - b.start)                    -- n_dist
      match assign sizes (argsort (sizes.map (fun n : Nat => (n : Int)))).reverse (List.replicate blocks.length 0) (List.replicate nCpu 0) with
      | .error e => .error e
      | .ok (cpu, _) => .ok ((List.range nCpu).map (fun i => ((blocks.zip cpu).filter (fun p => p.2 == i)).map (·.1)))   -- lines 121-128

/-- what the jobs read: pairs, tables of items of the levels (feat_dbs), features, distance -/
structure Inputs (ρ φ δ : Type) where
  pairs : PairFile
  feats : List (List Val × List ρ)
  getFeat : ρ → Except Err φ
  distance : φ → φ → Except Err δ

/-- lines 204-212: table of items, first row, base and pairs of a block -/
def readBlock (I : Inputs ρ φ δ) (b : Block) : Except Err (List ρ × Nat × Nat × List Int) :=
  match I.feats.lookup b.by_ with
  | none => .error .keyError
  | some db => match I.pairs.attrs.lookup b.by_ with
    | none => .error .keyError
    | some (base, start, _) =>
      if b.float then .error .typeError                                      -- slice with floats, line 211
      else .ok (db, start.toNat, base, npSlice I.pairs.data (start.toNat + b.start) (start.toNat + b.stop))

/-- `by_db.iloc[i]` -/
def iloc (db : List ρ) (i : Int) : Except Err ρ :=
  if 0 ≤ i then match db[i.toNat]? with | some r => .ok r | none => .error .indexError
  else match db[((db.length : Int) + i).toNat]? with
    | some r => if 0 ≤ (db.length : Int) + i then .ok r else .error .indexError
    | none => .error .indexError

/-- features of the items of a block, by index of the table of items (the positions, since it was reset), lines 222-225 -/
def blockFeats (I : Inputs ρ φ δ) (db : List ρ) (inds : List Int) : Except Err (List (Int × φ)) :=
  match sequence (inds.map (iloc db)) with                                  -- line 223
  | .error e => .error e
  | .ok items => match sequence (items.map I.getFeat) with                    -- line 225
    | .error e => .error e
    | .ok fs => .ok ((inds.map (fun i => if 0 ≤ i then i else (db.length : Int) + i)).zip fs)

/-- lines 231-257 for the pair `k` -/
def pairDist (I : Inputs ρ φ δ) (base : Nat) (feats : List (Int × φ)) (k : Int) : Except Err δ :=
  match feats.lookup (k % base), feats.lookup (k / base) with
  | some fA, some fB => I.distance fA fB
  | _, _ => .error .keyError

/-- lines 216-269: the distances of the pairs of a block -/
def computeBlock (I : Inputs ρ φ δ) (db : List ρ) (base : Nat) (ks : List Int) : Except Err (List δ) :=
  match blockFeats I db (npUnique (ks.map (· % (base : Int)) ++ ks.map (· / (base : Int)))) with   -- lines 216-222
  | .error e => .error e
  | .ok fs => sequence (ks.map (pairDist I base fs))

end ABX.Distances
