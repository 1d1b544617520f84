import Verif.Model.SideOps
import Verif.Model.TypeFit
/-!
Model of ABXpy/task.py: preparation of the item table (lines 187-347), statistics (349-463) and generation of the
triplets of a block (465-567).

A data frame is a list of (index label, row).  The order in which pandas enumerates groups and python
enumerates sets is a parameter (`Env`); every theorem quantifies over it.  Simplifications: a missing item file, the
verbose messages and progress display are not represented; the columns determined by on / across / by
(the descendants in the column hierarchy) are an argument (`cols`).
-/
namespace ABX.Task
open ExtSort SideOps

/-- a pandas data frame: index labels and rows -/
abbrev Frame := List (Nat × Row)

/-- iteration orders: of groups of a `groupby` (call site, distinct keys) and of python sets (call site, block
key, elements) and of sets of column names; result of sorting column values -/
structure Env where
  groups : String → List (List Val) → List (List Val)
  sets : String → List Val → List Nat → List Nat
  names : List String → List String          -- set of column names
  sort : List Val → List Val                 -- `sorted`

/-- an iteration order enumerates every element once -/
structure Env.Lawful (e : Env) : Prop where
  groups : ∀ s l, (e.groups s l).Perm l
  sets : ∀ s k l, (e.sets s k l).Perm l
  names : ∀ l, (e.names l).Perm l
  sort : ∀ l, (e.sort l).Perm l

/-- the values of a row in some columns -/
def keyOf (cols : List String) (r : Row) : List Val := cols.map r

/-- the keys of `frame.groupby(cols)` -/
def groupKeys (e : Env) (site : String) (cols : List String) (fr : Frame) : List (List Val) :=
  e.groups site (fr.map (fun p => keyOf cols p.2)).dedup

/-- the rows of one group, in frame order -/
def groupFrame (fr : Frame) (cols : List String) (key : List Val) : Frame :=
  fr.filter (fun p => keyOf cols p.2 == key)

/-- `frame.groupby(cols).groups[key]`: the labels of one group -/
def groupLabels (fr : Frame) (cols : List String) (key : List Val) : Except Err (List Nat) :=
  match groupFrame fr cols key with
  | [] => .error .keyError
  | g => .ok (g.map (·.1))

/-- `frame.iloc[i]`: by position -/
def iloc (fr : Frame) (i : Nat) : Except Err Row :=
  match fr[i]? with
  | none => .error .indexError
  | some p => .ok p.2

/-- `frame[...][label]`: by label -/
def loc (fr : Frame) (l : Nat) : Except Err Row :=
  match fr.find? (fun p => p.1 == l) with
  | none => .error .keyError
  | some p => .ok p.2

/-- rows of a list of labels -/
def locs (fr : Frame) (ls : List Nat) : Except Err (List Row) := sequence (ls.map (loc fr))

/-- `frame.reset_index(drop=True)` -/
def resetIndex (fr : Frame) : Frame := fr.zipIdx.map (fun p => (p.2, p.1.2))

/-- conversion of an index to an integer type -/
def castNat (t : IntType) (n : Nat) : Nat := (t.cast n).toNat

/-- the arguments of `Task` (line 187), with the result of `database.load` -/
structure Args (ρ : Type) where
  columns : List String
  on : String
  across : List String
  by_ : List String
  cols : Cols
  filters : List (DBFun Bool)
  regressors : List (DBFun Nat)
  db : Frame
  feat : List ρ

/-- one 'by' level: `self.by_dbs[key]`, `self.feat_dbs[key]`, `self.types[key]` -/
structure Level (ρ : Type) where
  key : List Val
  frame : Frame
  feat : List ρ
  type : IntType

/-- the attributes of the task that are used for generating triplets -/
structure Task (ρ : Type) where
  on : String
  across : List String
  cols : Cols
  filters : Mgr Bool
  regressors : Mgr Nat
  levels : List (Level ρ)

/-- `_init_check_database`, lines 258-283 -/
def checkDatabase (a : Args ρ) : Except Err Unit :=
  if !a.columns.contains a.on then .error .assertion                              -- line 272
  else if !a.across.all a.columns.contains then .error .assertion                 -- line 273
  else if !a.by_.all a.columns.contains then .error .assertion                    -- line 274
  else if a.columns.any (fun c => c.toList.contains '_' || c.toList.contains '#') then .error .assertion   -- lines 276-280
  else .ok ()

/-- assignment of a column -/
def Row.set (r : Row) (c : String) (v : Val) : Row := fun d => if d = c then v else r d

/-- lines 213-215: `self.db['#by'] = 0` when no 'by' is given -/
def dummyBy (by_ : List String) (fr : Frame) : List String × Frame :=
  if by_.isEmpty then (["#by"], fr.map (fun p => (p.1, Row.set p.2 "#by" (.int 0)))) else (by_, fr)

/-- lines 217-219: `self.db['#across'] = range(len(self.db))` when no 'across' is given -/
def dummyAcross (across : List String) (fr : Frame) : List String × Frame :=
  if across.isEmpty then (["#across"], fr.zipIdx.map (fun p => (p.1.1, Row.set p.1.2 "#across" (.int p.2)))) else (across, fr)

/-- `fit_integer_type(np.max(db.index.values), is_signed=False)`, lines 345-347 -/
def levelType (fr : Frame) : Except Err IntType :=
  match (fr.map (·.1) : List Nat) with
  | [] => .error .valueError                        -- np.max of an empty array
  | l :: ls => fitIntegerType (ls.foldl max l : Nat) false

/-- body of the loop of `_init_prepare_database`, lines 293-320, for one 'by' key; `none` if the level is filtered
out.  (`_init_prepare_types` is included: the code runs it after the loop.) -/
def prepareLevel (m : Mgr Bool) (byCols : List String) (fr : Frame) (feat : List ρ) (key : List Val) :
    Except Err (Option (Level ρ)) :=
  let g := groupFrame fr byCols key
  match iloc g 0 with                                            -- line 300
  | .error e => .error e
  | .ok byRow => match m.byFilter byRow with                     -- line 303
    | .error e => .error e
    | .ok false => .ok none
    | .ok true => match gather feat (g.map (·.1)) with            -- line 305: labels used as positions
      | .error e => .error e
      | .ok feat =>
        let g := resetIndex g                                     -- line 308
        match m.genericFilter byRow (g.map (·.2)) with            -- line 317
        | .error e => .error e
        | .ok kept => match gather g kept with
          | .error e => .error e
          | .ok g => match levelType g with
            | .error e => .error e
            | .ok t => .ok (some ⟨key, g, feat, t⟩)

/-- `DBfun_Column(reg, db, col, indexed=True)` (dbfun_column.py lines 13-22, 33-37): the index of the value among the
sorted values of the column -/
def columnReg (e : Env) (fr : Frame) (v : Var) : DBFun Nat where
  inputs := [v]
  fn := fun env => (columnIndex e.sort (fr.map (fun p => p.2 v.1))).findIdx (· == env v)
  ext := by intro e1 e2 h; rw [h v (by simp)]

/-- the default regressors, regressor_manager.py lines 21-32: `on_1`, `on_2` and `_1`, `_2` of the columns determined by across -/
def defaultRegs (e : Env) (a : Args ρ) (fr : Frame) : List (DBFun Nat) :=
  [columnReg e fr (a.on, .one), columnReg e fr (a.on, .two)] ++
    (e.names a.cols.across).flatMap (fun c => [columnReg e fr (c, .one), columnReg e fr (c, .two)])

/-- `Task.__init__`, lines 187-246, up to the statistics -/
def init (e : Env) (a : Args ρ) : Except Err (Task ρ) :=
  match checkDatabase a with
  | .error e => .error e
  | .ok _ =>
    let (byCols, fr) := dummyBy a.by_ a.db
    let (across, fr) := dummyAcross a.across fr
    match mgr true a.cols a.filters with
    | .error e => .error e
    | .ok m => match mgr false a.cols (a.regressors ++ defaultRegs e a fr) with
      | .error e => .error e
      | .ok rm => match sequence ((groupKeys e "by" byCols fr).map (prepareLevel m byCols fr a.feat)) with
        | .error e => .error e
        | .ok ls => .ok ⟨a.on, across, a.cols, m, rm, ls.filterMap id⟩

/-- `antiacross_blocks[by][across_key]`, lines 327-334 -/
def antiLabels (fr : Frame) (across : List String) (key : List Val) : List Nat :=
  (fr.filter (fun p => (across.zip key).all (fun q => p.2 q.1 != q.2))).map (·.1)

/-- lines 502-527: the candidates A, B, X of a block -/
def candidates (e : Env) (T : Task ρ) (L : Level ρ) (key : List Val) (block : List Nat) :
    Except Err (List Nat × List Nat × List Nat) :=
  match key with                                                   -- on_across_from_key, lines 1172-1178
  | [] => .error .indexError
  | on :: across =>
    let A := block.map (castNat L.type)                             -- line 505
    match groupLabels L.frame [T.on] [on] with                      -- line 506
    | .error e => .error e
    | .ok onSet =>
      let B : Except Err (List Nat) :=
        if T.across = ["#across"] then
          .ok (e.sets "B" key (((L.frame.map (·.1)).dedup).filter (fun l => !onSet.contains l)))   -- lines 513-515
        else match groupLabels L.frame T.across across with          -- lines 518-520
          | .error e => .error e
          | .ok g => .ok (e.sets "B" key (g.dedup.filter (fun l => !A.contains l)))
      match B with
      | .error e => .error e
      | .ok B =>
        let X := if across.length > 1 then                           -- line 523: `type(across) is tuple`
            e.sets "X" key ((antiLabels L.frame T.across across).dedup.filter onSet.contains)    -- lines 524-525
          else e.sets "X" key (onSet.dedup.filter (fun l => !A.contains l))                      -- line 527
        .ok (A, B.map (castNat L.type), X.map (castNat L.type))

/-- lines 531-539 for one of A, B, X: apply the filters of the stage, if there are any -/
def singletonStage (ops : List (DBFun Bool)) (filt : List Row → Except Err (List Nat)) (fr : Frame) (items : List Nat) :
    Except Err (List Nat) :=
  if ops.isEmpty then .ok items
  else match locs fr items with
    | .error e => .error e
    | .ok rows => match filt rows with
      | .error e => .error e
      | .ok ix => gather items ix

/-- the triplets of a block with the indices used to build them -/
structure Blk where
  A : List Nat
  B : List Nat
  X : List Nat
  iA : List Nat
  iB : List Nat
  iX : List Nat
  abx : Option (List Nat)                 -- ABX_filter_ind, `none` if there are no ABX filters
  trips : List (Nat × Nat × Nat)
  deriving DecidableEq, Repr

/-- lines 547-567: full factorial combination and ABX filters -/
def combine (m : Mgr Bool) (fr : Frame) (row : Row) (A B X : List Nat) : Except Err Blk :=
  let size := A.length * B.length * X.length
  if size > 0 then
    match fitIntegerType size false with                            -- line 553
    | .error e => .error e
    | .ok t =>
      let ind := (List.range size).map (castNat t)                   -- line 554
      let iX := ind.map (· % X.length)                               -- line 557
      let iB := ind.map (fun i => i / X.length % B.length)           -- line 558
      let iA := ind.map (fun i => i / (B.length * X.length))         -- line 559
      match gather A iA with
      | .error e => .error e
      | .ok a => match gather B iB with
        | .error e => .error e
        | .ok b => match gather X iX with
          | .error e => .error e
          | .ok x =>
            let trips := a.zip (b.zip x)                             -- line 560
            if (m.ops .ABX).isEmpty then .ok ⟨A, B, X, iA, iB, iX, none, trips⟩
            else match locs fr a with
              | .error e => .error e
              | .ok ra => match locs fr b with
                | .error e => .error e
                | .ok rb => match locs fr x with
                  | .error e => .error e
                  | .ok rx => match m.abxFilter row (ra.zip (rb.zip rx)) with     -- lines 564-565
                    | .error e => .error e
                    | .ok ix => match gather trips ix with           -- line 566
                      | .error e => .error e
                      | .ok trips => .ok ⟨A, B, X, iA, iB, iX, some ix, trips⟩
  else .ok ⟨A, B, X, [], [], [], if (m.ops .ABX).isEmpty then none else some [], []⟩       -- lines 626-641

/-- `on_across_triplets` up to the regressors, lines 465-567 -/
def onAcrossTriplets (e : Env) (T : Task ρ) (L : Level ρ) (key : List Val) (block : List Nat) (row : Row) :
    Except Err Blk :=
  match candidates e T L key block with
  | .error e => .error e
  | .ok (A, B, X) => match singletonStage (T.filters.ops .A) (T.filters.aFilter row) L.frame A with   -- lines 531-533
    | .error e => .error e
    | .ok A => match singletonStage (T.filters.ops .B) (T.filters.bFilter row) L.frame B with          -- lines 534-536
      | .error e => .error e
      | .ok B => match singletonStage (T.filters.ops .X) (T.filters.xFilter row) L.frame X with        -- lines 537-539
        | .error e => .error e
        | .ok X => combine T.filters L.frame row A B X

/-- the block of a key and the row used for its labels: `groups[block_key]`, `db.iloc[block[0]]`
(lines 414-415, 814-821): a label used as a position -/
def blockRow (T : Task ρ) (L : Level ρ) (key : List Val) : Except Err (List Nat × Row) :=
  match groupLabels L.frame (T.on :: T.across) key with
  | .error e => .error e
  | .ok block => match block[0]? with
    | none => .error .indexError
    | some l => match iloc L.frame l with
      | .error e => .error e
      | .ok row => .ok (block, row)

/-- body of the loop of `_compute_triplets`, lines 815-831, without regressors: `none` if the block is filtered out -/
def blockTriplets (e : Env) (T : Task ρ) (L : Level ρ) (key : List Val) : Except Err (Option (Row × Blk)) :=
  match blockRow T L key with
  | .error e => .error e
  | .ok (block, row) => match T.filters.onAcrossByFilter row with       -- line 822
    | .error e => .error e
    | .ok false => .ok none
    | .ok true => match onAcrossTriplets e T L key block row with
      | .error e => .error e
      | .ok b => .ok (some (row, b))

/-- body of the loop of `compute_statistics`, lines 409-456, with `approximate=False`: (block size, on pairs,
across pairs) -/
def blockStats (e : Env) (T : Task ρ) (L : Level ρ) (key : List Val) : Except Err (Int × Int × Int) :=
  match blockRow T L key with
  | .error e => .error e
  | .ok (block, row) => match T.filters.onAcrossByFilter row with       -- line 422
    | .error e => .error e
    | .ok false => .ok (0, 0, 0)                                        -- line 456
    | .ok true => match key with
      | [] => .error .indexError
      | on :: across =>
        let nA : Int := block.length                                     -- line 423
        match groupLabels L.frame [T.on] [on] with                       -- line 424
        | .error e => .error e
        | .ok onSet =>
          let nB : Except Err Int :=
            if T.across = ["#across"] then .ok ((L.frame.length : Int) - onSet.length)       -- line 429
            else match groupLabels L.frame T.across across with
              | .error e => .error e
              | .ok g => .ok ((g.length : Int) - nA)                      -- line 431
          match nB with
          | .error e => .error e
          | .ok nB =>
            let nX : Int := onSet.length - nA                            -- line 433
            let noFilters := (T.filters.ops .A).isEmpty && (T.filters.ops .B).isEmpty && (T.filters.ops .X).isEmpty &&
              (T.filters.ops .ABX).isEmpty                               -- lines 437-439
            if noFilters && !(across.length > 1) then .ok (nA * nB * nX, nA * nX, nA * nB)   -- lines 441-443
            else match onAcrossTriplets e T L key block row with          -- lines 449-454
              | .error e => .error e
              | .ok b => .ok (b.trips.length, nA * nX, nA * nB)

/-- `by_stats[by]['block_sizes']`, iteration over the on/across blocks (lines 409-456) -/
def levelStats (e : Env) (T : Task ρ) (L : Level ρ) : Except Err (List (List Val × (Int × Int × Int))) :=
  sequence ((groupKeys e "stats" (T.on :: T.across) L.frame).map (fun k => (blockStats e T L k).map (fun s => (k, s))))

/-- `by_stats[by]['nb_triplets']` -/
def levelNbTriplets (e : Env) (T : Task ρ) (L : Level ρ) : Except Err Int :=
  (levelStats e T L).map (fun l => (l.map (fun p => p.2.1)).sum)

/-- `stats['nb_triplets']`, lines 458-459 -/
def nbTriplets (e : Env) (T : Task ρ) : Except Err Int :=
  (sequence (T.levels.map (levelNbTriplets e T))).map List.sum

end ABX.Task
