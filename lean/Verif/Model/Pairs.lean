import Verif.Model.TaskGen
import Mathlib.Data.List.Sort
/-!
Model of `Task._generate_pairs`, ABXpy/task.py lines 848-986: the table of the AX and BX pairs of the triplets of every
'by' level, without repetition.

Simplifications: the temporary file is a value; the lengths of the buffers of NP2H5 and H52NP, chosen by these classes from the item
size, are a parameter (`Bufs`); groups of the files are named by the 'by' key instead of `str(by)`.
Arithmetic: `max_ind` is a numpy int64 (line 869), so that `(max_ind + 1) ** 2 - 1` wraps to 64 bits; keys are computed
in the unsigned type of the arrays (numpy < 2: a scalar that fits does not change the type of an array).
-/
namespace ABX.Pairs
open ExtSort H52NP Task SideOps

/-- numpy's int64 -/
def int64 : IntType := ⟨64, true⟩

/-- lengths of the buffers: triplets (877), pairs written (879) and read (912, 934), unique pairs written (935) and
read (969), final table (960) -/
structure Bufs where
  trips : Nat
  pairsOut : Nat
  pairsIn : Nat
  uniqOut : Nat
  uniqIn : Nat
  final : Nat

/-- drop repetitions of a value that follow each other -/
def dedupAdj : List Int → List Int
  | [] => []
  | [x] => [x]
  | x :: y :: l => if x = y then dedupAdj (y :: l) else x :: dedupAdj (y :: l)

/-- `np.unique`: the distinct values, increasing -/
def npUnique (l : List Int) : List Int := dedupAdj (l.insertionSort (· ≤ ·))

/-- `triplets[:, 0] + (max_ind + 1) * triplets[:, 2]` in the type `t`, lines 883-904 (`a`, `x` already converted) -/
def pairKey (t : IntType) (base a x : Int) : Int := t.cast (a + t.cast (base * x))

/-- lines 883-904: the pairs of a chunk of triplets, AX and BX in alternation -/
def pairsOf (t : IntType) (base : Int) (chunk : List (Int × Int × Int)) : List Int :=
  chunk.flatMap (fun d => [pairKey t base (t.cast d.1) (t.cast d.2.2), pairKey t base (t.cast d.2.1) (t.cast d.2.2)])

/-- `for chunk in inp` for a reader of the rows `start`..`stop` of a dataset -/
def chunksOf (zero : α) (ds : List α) (start stop bufLen : Nat) : Except Err (List (List α)) :=
  match RBuf.create zero quarter ds start stop bufLen with
  | .error e => .error e
  | .ok b => b.iterate quarter (stop - start + 1)

/-- lines 913-923: the number of distinct pairs in the chunks of a sorted table -/
def countLoop : List (List Int) → (last n : Int) → Except Err Int
  | [], _, n => .ok n
  | c :: cs, last, n =>
    match c.head?, c.getLast? with
    | some x, some l =>
      let n := n + (npUnique c).length                                     -- line 918
      countLoop cs l (if x = last then n - 1 else n)                        -- lines 919-922
    | _, _ => .error .indexError                                            -- line 919 on an empty chunk

/-- lines 942-952: what is written for every chunk of a sorted table -/
def uniqueLoop : List (List Int) → (last : Int) → Except Err (List (List Int))
  | [], _ => .ok []
  | c :: cs, last =>
    match npUnique c with                                                   -- line 944
    | [] => .error .indexError                                              -- line 947 on an empty chunk
    | x :: rest =>
      let p := if x = last then rest else x :: rest                          -- lines 947-948
      match p.getLast? with
      | none => uniqueLoop cs last                                          -- line 949
      | some l => match uniqueLoop cs l with                                 -- lines 950-951
        | .error e => .error e
        | .ok ws => .ok (p :: ws)

/-- lines 869-951 for one 'by' level: the number of unique pairs, and the dataset of unique pairs in the temporary file.
`iv` is the row of triplets/by_index, `labels` the index of the data frame of the level. -/
def levelPairs (argsort : List Int → List Nat) (bufs : Bufs) (data : List (Int × Int × Int)) (iv : Int × Int) (labels : List Nat) :
    Except Err (Nat × Int × List Int) :=
  match labels with
  | [] => .error .valueError                                                -- np.max of an empty array, line 869
  | l :: ls =>
    let maxInd := ls.foldl max l
    match fitIntegerType (int64.cast ((maxInd + 1 : Nat) ^ 2 - 1)) false with -- lines 871-872
    | .error e => .error e
    | .ok t => match chunksOf (0, 0, 0) data iv.1.toNat iv.2.toNat bufs.trips with       -- lines 875-881
      | .error e => .error e
      | .ok chunks => match writeDataset 0 "pairs" 0 bufs.pairsOut none (chunks.map (pairsOf t (maxInd + 1 : Nat))) with  -- lines 877-906
        | .error e => .error e
        | .ok pairs => match sortPairs argsort (t.bits / 8) 1000 (pairs.length + 1) pairs with     -- line 908
          | .error e => .error e
          | .ok (sorted, _) => match chunksOf 0 sorted 0 sorted.length bufs.pairsIn with
            | .error e => .error e
            | .ok chunks => match countLoop chunks (-1) 0 with
              | .error e => .error e
              | .ok n => match uniqueLoop chunks (-1) with
                | .error e => .error e
                | .ok ws => match writeDataset 0 "unique_pairs" n.toNat bufs.uniqOut none ws with  -- lines 935-951
                  | .error e => .error e
                  | .ok uniq => .ok (maxInd + 1, n, uniq)

/-- the group unique_pairs of the task file -/
structure PairFile where
  data : List Int                                        -- unique_pairs/data
  attrs : List (List Val × (Nat × Int × Int))            -- attributes of the group
  deriving DecidableEq

/-- what the first loop (lines 863-959) leaves for a level: its row of triplets/by_index, `max_ind + 1`, the number of unique pairs and the
unique pairs in the temporary file -/
structure LevelOut where
  key : List Val
  iv : Int × Int
  base : Nat
  n : Int
  uniq : List Int

/-- lines 965-983: what is written for every level, and the attributes -/
def mergeLoop (bufs : Bufs) : List LevelOut → (byIndex : Int) → Except Err (List (List Int) × List (List Val × (Nat × Int × Int)))
  | [], _ => .ok ([], [])
  | o :: rest, byIndex =>
    if o.iv.1 = o.iv.2 then mergeLoop bufs rest byIndex                       -- lines 966-968
    else match chunksOf 0 o.uniq 0 o.uniq.length bufs.uniqIn with              -- lines 971-974
    | .error e => .error e
    | .ok chunks => match mergeLoop bufs rest (byIndex + o.n) with             -- line 980
      | .error e => .error e
      | .ok (ws, attrs) => .ok (chunks.map (List.map int64.cast) ++ ws, (o.key, o.base, byIndex, byIndex + o.n) :: attrs)

/-- `by_dbs` after lines 789-790 (`del self.by_dbs[by]` for the levels without triplets) -/
def remaining (T : Task.Task ρ) (F : File) : List (Level ρ) := T.levels.filter (fun L => F.bys.contains L.key)

/-- body of the first loop, lines 864-951, for the level number `p.2` -/
def firstStep (argsort : List Int → List Nat) (bufs : Bufs) (data : List (Int × Int × Int)) (byIndex : List (Int × Int)) (p : Level ρ × Nat) :
    Except Err LevelOut :=
  match byIndex[p.2]? with
  | none => .error .indexError                                               -- line 868
  | some iv => match levelPairs argsort bufs data iv (p.1.frame.map (·.1)) with
    | .error e => .error e
    | .ok (base, n, uniq) => .ok ⟨p.1.key, iv, base, n, uniq⟩

/-- `_generate_pairs`, lines 848-986 -/
def generatePairs (argsort : List Int → List Nat) (bufs : Bufs) (T : Task.Task ρ) (F : File) : Except Err PairFile :=
  match sequence ((remaining T F).zipIdx.map (firstStep argsort bufs F.data F.byIndex)) with
  | .error e => .error e
  | .ok ls => match mergeLoop bufs ls 0 with
    | .error e => .error e
    | .ok (ws, attrs) => match writeDataset 0 "unique_pairs/data" ((ls.map LevelOut.n).sum.toNat) bufs.final none ws with  -- lines 960-963
      | .error e => .error e
      | .ok data => .ok ⟨data, attrs⟩

end ABX.Pairs
