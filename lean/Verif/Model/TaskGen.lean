import Verif.Model.Task
import Verif.Model.Sampler
import Verif.Model.NP2H5
/-!
Model of ABXpy/task.py: regressors, sorting and thresholding of the triplets of a block (lines 569-663, 1111-1166,
1181-1205) and writing of the task file (673-806, 808-844).

Regressors are operations with values in `Nat` (indices of values, as produced by indexed columns,
dbfun_column.py).  Simplifications: the names of the regressor datasets are in Model/RegInfo.lean (here a regressor is
a column, columns are in the order by, on_across_by, A, B, X of regressor_manager.py lines 99-113);
indices are stored exactly (the type fitted by h5io.py lines 263-268 holds every index, see C43, C50).
-/
namespace ABX.Task
open ExtSort SideOps Sampler

/-- what numpy computes: `argsort`, and the mixed radix index of a row of regressors given the numbers of levels
(lines 591-605) -/
structure Num where
  argsort : List Int → List Nat
  index : List Nat → List Nat → Int

/-- lines 603-605 in exact arithmetic -/
def horner (ns row : List Nat) : Nat := (ns.zip row).foldl (fun acc p => p.2 + p.1 * acc) 0

/-- the arithmetic is exact as long as the number of combinations is at most 2^53 (beyond, numpy wraps the product
or computes the index in float64) -/
def Num.Exact (N : Num) : Prop :=
  ∀ ns row, ns.length = row.length → ns.prod ≤ 2 ^ 53 → (∀ p ∈ ns.zip row, p.2 < p.1) → N.index ns row = (horner ns row : Nat)

/-- `sample_without_replacement(n, N, dtype)`, sampler.py lines 198-248, with the conversions to `dtype`
(lines 225, 231 and 243) -/
def sampleT (t : IntType) (n N : Nat) (src : Src) : Except Err (List Nat) :=
  if N > 100 ∧ 10 * n < 6 * N then rejection n N (fun i k => (src.draw N i k).map (castNat t)) src.fuel
  else (knuth n N src.u src.fuel).map (List.map (castNat t))

/-- `unique_idx`, lines 1183-1186: where a run of equal values starts, and the end -/
def uniqueIdx (s : List Int) : List Nat :=
  (List.range (s.length + 1)).filter (fun i => i == 0 || i == s.length || s[i]? != s[i - 1]?)

/-- `counts`, line 1187 -/
def runCounts (u : List Nat) : List Nat := (u.tail.zip u).map (fun p => p.1 - p.2)

/-- the loop of lines 1194-1204; `j` numbers the runs (for the random source) -/
def thresholdLoop (permut : List Nat) (t : IntType) (threshold : Nat) (src : Nat → Src) :
    (counts : List Nat) → (i j : Nat) → Except Err (List (List Nat))
  | [], _, _ => .ok []
  | c :: cs, i, j =>
    let part : Except Err (List Nat) :=
      if threshold ≠ 0 ∧ c > threshold then                            -- line 1197
        match sampleT t threshold c (src j) with                        -- lines 1198-1199
        | .error e => .error e
        | .ok s => gather permut (s.map (fun x => castNat t (x + i)))   -- lines 1200-1201
      else .ok (npSlice permut i (i + c))                               -- line 1203
    match part with
    | .error e => .error e
    | .ok p => match thresholdLoop permut t threshold src cs (i + c) (j + 1) with
      | .error e => .error e
      | .ok ps => .ok (p :: ps)

/-- `sort_and_threshold`, lines 1181-1205; `threshold = 0` stands for None/False/0 -/
def sortAndThreshold (permut : List Nat) (newIndex : List Int) (t : IntType) (threshold : Nat) (src : Nat → Src) :
    Except Err (List Nat × List Nat) :=
  match gather newIndex permut with                                    -- line 1183
  | .error e => .error e
  | .ok sorted =>
    let u := uniqueIdx sorted
    match thresholdLoop permut t threshold src (runCounts u) 0 0 with
    | .error e => .error e
    | .ok ps => .ok (ps.flatten, u)

/-- `set_by_regressors` (regressor_manager.py lines 71-72, side_operations_manager.py lines 350-354) -/
def byRegs (m : Mgr Nat) (row : Row) : Except Err (List Nat) :=
  sequence ((m.ops .by).map (fun f => match evaluate f (bindConst (m.byCtx .by) row 1) with
    | .error e => .error e
    | .ok r => match r[0]? with
      | none => .error .indexError
      | some v => .ok v))

/-- `set_on_across_by_regressors` (regressor_manager.py lines 74-76) -/
def onAcrossByRegs (m : Mgr Nat) (row : Row) : Except Err (List Nat) :=
  sequence ((m.ops .onAcrossBy).map (fun f => match evaluate f (m.blockCtx .onAcrossBy row 1) with
    | .error e => .error e
    | .ok r => match r[0]? with
      | none => .error .indexError
      | some v => .ok v))

/-- `set_A_regressors`, `set_B_regressors`, `set_X_regressors` (regressor_manager.py lines 78-88) -/
def itemRegs (m : Mgr Nat) (s : Stage) (vars : List Var) (fr : Frame) (row : Row) (items : List Nat) :
    Except Err (List (List Nat)) :=
  if (m.ops s).isEmpty then .ok [] else
  match locs fr items with
  | .error e => .error e
  | .ok rows => sequence ((m.ops s).map (fun f => evaluate f (bindRows vars rows ++ m.blockCtx s row rows.length)))

/-- gather every column -/
def gatherAll (cols : List (List Nat)) (ix : List Nat) : Except Err (List (List Nat)) := sequence (cols.map (gather · ix))

/-- `np.array(cols).T`: the rows -/
def rowsOf (cols : List (List Nat)) : List (List Nat) :=
  match cols with
  | [] => []
  | c :: cs => (List.range c.length).map (fun i => (c :: cs).filterMap (·[i]?))

/-- `np.max(regs, 0) + 1`, line 591 -/
def nRegs (cols : List (List Nat)) : List Nat := cols.map (fun c => c.foldl max 0 + 1)

/-- what `on_across_triplets` returns with regressors: triplets, regressor columns, block index -/
structure BlkOut where
  trips : List (Nat × Nat × Nat)
  regs : List (List Nat)
  index : List Nat
  deriving DecidableEq, Repr

/-- optional `[ABX_filter_ind]` -/
def filt (abx : Option (List Nat)) (cols : List (List Nat)) : Except Err (List (List Nat)) :=
  match abx with
  | none => .ok cols
  | some ix => gatherAll cols ix

/-- lines 589-624: the sort by the regressors of B and X; returns the sorted triplets, `thr_sort_permut` and
the block index -/
def sortBlock (N : Num) (threshold : Nat) (src : Nat → Src) (trips : List (Nat × Nat × Nat)) (cols : List (List Nat)) :
    Except Err (List (Nat × Nat × Nat) × List Nat × List Nat) :=
  if (rowsOf cols).isEmpty then .ok (trips, [], [0])                             -- line 624
  else
    match fitIntegerType ((⟨64, true⟩ : IntType).cast ((nRegs cols).prod : Nat)) false with   -- lines 597-601: np.prod is an int64
    | .error e => .error e
    | .ok t =>
      let newIndex := (rowsOf cols).map (N.index (nRegs cols))
      match sortAndThreshold (N.argsort newIndex) newIndex t threshold src with   -- lines 607-620
      | .error e => .error e
      | .ok (p, ix) => match gather trips p with                                   -- line 621
        | .error e => .error e
        | .ok trips => .ok (trips, p, ix)

/-- `_compute_regressors`, lines 1111-1166 -/
def computeRegressors (scalars : List Nat) (regA regB regX : List (List Nat)) (b : Blk) (nTrips : Nat) (p : List Nat) :
    Except Err (List (List Nat)) :=
  let tiled := scalars.map (fun v => List.replicate nTrips v)           -- lines 1129-1132
  match gatherAll regA b.iA with                                         -- line 1138
  | .error e => .error e
  | .ok rA =>
    let rA : Except Err (List (List Nat)) := match b.abx with            -- lines 1139-1141
      | none => .ok rA
      | some ix => match gatherAll rA ix with
        | .error e => .error e
        | .ok rA => gatherAll rA p
    match rA with
    | .error e => .error e
    | .ok rA => match gatherAll regB b.iB with                            -- lines 1146-1149
      | .error e => .error e
      | .ok rB => match filt b.abx rB with
        | .error e => .error e
        | .ok rB => match gatherAll rB p with
          | .error e => .error e
          | .ok rB => match gatherAll regX b.iX with                      -- lines 1154-1157
            | .error e => .error e
            | .ok rX => match filt b.abx rX with
              | .error e => .error e
              | .ok rX => match gatherAll rX p with
                | .error e => .error e
                | .ok rX => .ok (tiled ++ rA ++ rB ++ rX)

/-- the columns by which a block is sorted, lines 580-588 -/
def sortCols (regB regX : List (List Nat)) (b : Blk) : Except Err (List (List Nat)) :=
  match gatherAll regB b.iB with
  | .error e => .error e
  | .ok cB => match gatherAll regX b.iX with
    | .error e => .error e
    | .ok cX => filt b.abx (cB ++ cX)

/-- lines 569-663 of `on_across_triplets`, and `__write__` of h5io.py (the columns are concatenated, line 313: they must
have the same length) -/
def finishBlock (N : Num) (threshold : Nat) (src : Nat → Src) (m : Mgr Nat) (scalars : List Nat) (fr : Frame) (row : Row)
    (b : Blk) : Except Err BlkOut :=
  match itemRegs m .A (m.aCtx .A) fr row b.A with                          -- line 543
  | .error e => .error e
  | .ok regA => match itemRegs m .B (m.bCtx .B) fr row b.B with            -- line 544
    | .error e => .error e
    | .ok regB => match itemRegs m .X (m.xCtx .X) fr row b.X with          -- line 545
      | .error e => .error e
      | .ok regX => match sortCols regB regX b with
        | .error e => .error e
        | .ok cols => match sortBlock N threshold src b.trips cols with
          | .error e => .error e
          | .ok (trips, p, ix) =>
            if !(m.ops .ABX).isEmpty then .error .valueError                -- lines 646-649
            else match computeRegressors scalars regA regB regX b trips.length p with
              | .error e => .error e
              | .ok regs =>
                match regs with
                | [] => .ok ⟨trips, [], ix⟩
                | c :: cs => if cs.all (fun d => d.length == c.length) then .ok ⟨trips, c :: cs, ix⟩ else .error .valueError

/-- body of the loop of `_compute_triplets`, lines 815-838 -/
def blockOut (e : Env) (N : Num) (threshold : Nat) (src : List Val → List Val → Nat → Src) (T : Task ρ) (L : Level ρ)
    (byR : List Nat) (key : List Val) : Except Err (Option BlkOut) :=
  match blockTriplets e T L key with
  | .error e => .error e
  | .ok none => .ok none
  | .ok (some (row, b)) => match onAcrossByRegs T.regressors row with       -- lines 824-825
    | .error e => .error e
    | .ok obR => match finishBlock N threshold (src L.key key) T.regressors (byR ++ obR) L.frame row b with
      | .error e => .error e
      | .ok o => .ok (some o)

/-- `_compute_triplets`, lines 808-844, with `by_values = dict(db.iloc[0])` (line 765): the blocks written for a level -/
def levelOut (e : Env) (N : Num) (threshold : Nat) (src : List Val → List Val → Nat → Src) (T : Task ρ) (L : Level ρ) :
    Except Err (List BlkOut) :=
  match iloc L.frame 0 with
  | .error e => .error e
  | .ok row => match byRegs T.regressors row with                           -- line 811
    | .error e => .error e
    | .ok byR =>
      match sequence ((groupKeys e "gen" (T.on :: T.across) L.frame).map (blockOut e N threshold src T L byR)) with
      | .error e => .error e
      | .ok os => .ok (os.filterMap id)

/-- the task file -/
structure File where
  data : List (Int × Int × Int)             -- triplets/data
  blockIndex : List Int                     -- triplets/on_across_block_index
  bys : List (List Val)                     -- bys (as keys)
  byIndex : List (Int × Int)                -- triplets/by_index
  regs : List (List Val × List (List Nat))  -- regressors/<by>: columns

/-- lines 776-783: boundaries and names of the non-empty levels -/
def byLoop : List (List Val × Nat) → (current : Nat) → (bounds : List Nat) → (bys : List (List Val)) → List Nat × List (List Val)
  | [], _, bounds, bys => (bounds, bys)
  | (key, n) :: rest, current, bounds, bys =>
    if current + n = bounds.getLastD 0 then byLoop rest (current + n) bounds bys     -- line 778
    else byLoop rest (current + n) (bounds ++ [current + n]) (bys ++ [key])           -- lines 781-782

/-- columns of several blocks put one after the other -/
def appendCols (a b : List (List Nat)) : List (List Nat) :=
  match a, b with
  | [], b => b
  | a, [] => a
  | a, b => List.zipWith (· ++ ·) a b

/-- conversion of a triplet to the item type of the dataset -/
def castTrip (t : IntType) (x : Nat × Nat × Nat) : Int × Int × Int := (t.cast x.1, t.cast x.2.1, t.cast x.2.2)

/-- writing of one dataset: `add_dataset` without fixed size, a `write` for every element of `ws`, optionally a resize of the dataset
before the flush of the end of the `with` block -/
def writeDataset (zero : α) (name : String) (nRows bufLen : Nat) (resize : Option Nat) (ws : List (List α)) : Except Err (List α) :=
  match NP2H5.Buf.create zero name none nRows bufLen false false with
  | .error e => .error e
  | .ok b => match b.run zero (ws.map .write) with
    | .error e => .error e
    | .ok b =>
      let b := match resize with
        | none => b
        | some n => { b with data := h5Resize zero b.data n }
      match NP2H5.exitOk zero [b] with
      | .error e => .error e
      | .ok bs => .ok (bs.flatMap (·.data))

/-- `generate_triplets`, lines 673-806 (without the pairs); `none` if there are no triplets (lines 703-706).
`nbBlocks` is `stats['nb_blocks']`; `bl1`, `bl2` are the buffer lengths chosen by NP2H5.
The order of the levels is that of the dictionary `by_dbs`, that is of the list `T.levels`. -/
def generate (e : Env) (N : Num) (threshold : Nat) (src : List Val → List Val → Nat → Src) (bl1 bl2 : Nat) (T : Task ρ) :
    Except Err (Option File) :=
  match nbTriplets e T with
  | .error e => .error e
  | .ok total =>
    if total = 0 then .ok none else
    let nbBlocks := (T.levels.map (fun L => (groupKeys e "stats" (T.on :: T.across) L.frame).length)).sum
    match fitIntegerType total with                                      -- line 746
    | .error e => .error e
    | .ok t => match fitIntegerType nbBlocks with                        -- line 754
      | .error e => .error e
      | .ok tb => match sequence (T.levels.map (fun L => (levelOut e N threshold src T L).map (fun o => (L.key, o)))) with
        | .error e => .error e
        | .ok outs =>
          let (bounds, bys) := byLoop (outs.map (fun p => (p.1, (p.2.map (fun o => o.trips.length)).sum))) 0 [0] []
          match fitIntegerType (bounds.getLastD 0) with                  -- lines 786-788
          | .error e => .error e
          | .ok ti =>
            let aux := bounds.map (fun n : Nat => ti.cast n)
            let blocks := outs.flatMap (·.2)
            match writeDataset (0, 0, 0) "triplets/data" total.toNat bl1 (some (bounds.getLastD 0))
                (blocks.map (fun o => o.trips.map (castTrip t))) with     -- lines 834, 801
            | .error e => .error e
            | .ok data =>
              match writeDataset 0 "triplets/on_across_block_index" nbBlocks bl2 none
                  (blocks.map (fun o => o.index.map (fun n : Nat => tb.cast n))) with      -- line 836
              | .error e => .error e
              | .ok bi =>
                .ok (some ⟨data, bi, bys, aux.zip aux.tail, outs.map (fun p => (p.1, (p.2.map BlkOut.regs).foldl appendCols []))⟩)

end ABX.Task
