import Verif.Model.Stats
import Verif.Model.TaskGen
/-!
Model of a `Task` object on which methods are called one after the other (ABXpy/task.py): what `print_stats` (lines 1066-1109) and
`generate_triplets` (lines 673-806) change in the object.  `compute_nb_levels` (997-1064) adds the numbers of levels to the
statistics; `generate_triplets` deletes the levels without triplets from `by_dbs` (lines 791-792).

Simplifications: after an exception the object is not used any more; the random source and the buffer lengths are parameters of each
generation; the pairs are not represented.
-/
namespace ABX.Task
open ExtSort SideOps Sampler
open Database (Text)
variable {ρ : Type}

/-- what the methods read and change: `by_dbs` is `task.levels`; the last component of `byStats` is `by_stats[by]['nb_levels']`, if any -/
structure Obj (ρ : Type) where
  task : Task ρ
  stats : TaskStats
  byStats : List (List Val × LevelStats × Option Nat)

/-- `Task(...)`, lines 187-246: preparation, then `compute_statistics` (line 246) -/
def Obj.new (e : Env) (a : Args ρ) : Except Err (Obj ρ) :=
  match init e a with
  | .error er => .error er
  | .ok T => match computeStatistics false e T with
    | .error er => .error er
    | .ok (g, ls) => .ok ⟨T, g, ls.map (fun p => (p.1, p.2, none))⟩

/-- `self.by_stats[by]['nb_levels'] = n`, line 1061 -/
def setLevels (key : List Val) (n : Nat) (bs : List (List Val × LevelStats × Option Nat)) : List (List Val × LevelStats × Option Nat) :=
  bs.map (fun p => if p.1 = key then (p.1, p.2.1, some n) else p)

/-- the loop over `by_dbs` of `compute_nb_levels`, lines 1010-1061: the statistics, and the exception that ended it, if any -/
def nbLoop (e : Env) (T : Task ρ) : List (Level ρ) → List (List Val × LevelStats × Option Nat) →
    List (List Val × LevelStats × Option Nat) × Option Err
  | [], bs => (bs, none)
  | L :: Ls, bs => match nbLevel e T L with
    | .error er => (bs, some er)
    | .ok n => nbLoop e T Ls (setLevels L.key n bs)

/-- `compute_nb_levels`, lines 997-1064: the object, and the exception, if any -/
def Obj.computeNbLevels (e : Env) (o : Obj ρ) : Obj ρ × Option Err :=
  let noFilters := (o.task.filters.ops .A).isEmpty && (o.task.filters.ops .B).isEmpty && (o.task.filters.ops .X).isEmpty &&
    (o.task.filters.ops .ABX).isEmpty
  if !noFilters then (o, some .valueError)                                       -- lines 998-1002
  else
    let r := nbLoop e o.task o.task.levels o.byStats
    match r.2 with
    | some er => ({ o with byStats := r.1 }, some er)
    | none => match r.1.mapM (fun p => p.2.2) with                                -- lines 1063-1064
      | none => ({ o with byStats := r.1 }, some .keyError)
      | some ns => ({ o with byStats := r.1, stats := { o.stats with nbLevels := some ns.sum } }, none)

/-- `print_stats` with `summarized=True`, lines 1066-1109: the text and the object -/
def Obj.print (pp : TaskStats → Text) (e : Env) (o : Obj ρ) : Except Err (Text × Obj ρ) :=
  let out (o' : Obj ρ) : Except Err (Text × Obj ρ) :=
    .ok ("\n\n###### Global stats ######\n\n".toList ++ pp o.stats ++ "\n\n###### by blocks stats ######\n\n".toList ++
      o'.byStats.flatMap (fun p => levelText p.1 p.2.1 p.2.2), o')
  match o.computeNbLevels e with
  | (o', none) => out o'
  | (o', some .valueError) => out o'                                              -- line 1086
  | (_, some er) => .error er

/-- the arguments of `generate_triplets`, with the random source and the buffer lengths -/
structure GenArgs where
  threshold : Nat
  src : List Val → List Val → Nat → Src
  bl1 : Nat
  bl2 : Nat

/-- `generate_triplets` after the statistics, lines 703-806: as `generate`, with the numbers of triplets and of blocks found in `stats` -/
def generateFrom (total : Int) (nbBlocks : Nat) (e : Env) (N : Num) (g : GenArgs) (T : Task ρ) : Except Err (Option File) :=
  if total = 0 then .ok none else
  match fitIntegerType total with                                      -- line 746
  | .error e => .error e
  | .ok t => match fitIntegerType nbBlocks with                        -- line 754
    | .error e => .error e
    | .ok tb => match sequence (T.levels.map (fun L => (levelOut e N g.threshold g.src T L).map (fun o => (L.key, o)))) with
      | .error e => .error e
      | .ok outs =>
        let (bounds, bys) := byLoop (outs.map (fun p => (p.1, (p.2.map (fun o => o.trips.length)).sum))) 0 [0] []
        match fitIntegerType (bounds.getLastD 0) with                  -- lines 786-788
        | .error e => .error e
        | .ok ti =>
          let aux := bounds.map (fun n : Nat => ti.cast n)
          let blocks := outs.flatMap (·.2)
          match writeDataset (0, 0, 0) "triplets/data" total.toNat g.bl1 (some (bounds.getLastD 0))
              (blocks.map (fun o => o.trips.map (castTrip t))) with     -- lines 834, 801
          | .error e => .error e
          | .ok data =>
            match writeDataset 0 "triplets/on_across_block_index" nbBlocks g.bl2 none
                (blocks.map (fun o => o.index.map (fun n : Nat => tb.cast n))) with      -- line 836
            | .error e => .error e
            | .ok bi =>
              .ok (some ⟨data, bi, bys, aux.zip aux.tail, outs.map (fun p => (p.1, (p.2.map BlkOut.regs).foldl appendCols []))⟩)

/-- `generate_triplets` of an object: the file, and the object without the levels that are not in `bys` (lines 779, 791-792) -/
def Obj.generate (e : Env) (N : Num) (g : GenArgs) (o : Obj ρ) : Except Err (Option File × Obj ρ) :=
  match generateFrom o.stats.nbTriplets o.stats.nbBlocks e N g o.task with
  | .error er => .error er
  | .ok none => .ok (none, o)
  | .ok (some F) => .ok (some F, { o with task := { o.task with levels := o.task.levels.filter (fun L => F.bys.contains L.key) } })

/-- a call of a method -/
inductive Op where
  | print
  | generate (g : GenArgs)

/-- what a call gives -/
inductive Out where
  | text (t : Text)
  | file (F : Option File)

/-- one call -/
def Obj.step (pp : TaskStats → Text) (e : Env) (N : Num) (o : Obj ρ) : Op → Except Err (Out × Obj ρ)
  | .print => (o.print pp e).map (fun r => (.text r.1, r.2))
  | .generate g => (o.generate e N g).map (fun r => (.file r.1, r.2))

/-- calls one after the other -/
def Obj.run (pp : TaskStats → Text) (e : Env) (N : Num) : List Op → Obj ρ → Except Err (List Out × Obj ρ)
  | [], o => .ok ([], o)
  | op :: ops, o => match o.step pp e N op with
    | .error er => .error er
    | .ok (x, o) => match o.run pp e N ops with
      | .error er => .error er
      | .ok (xs, o) => .ok (x :: xs, o)

end ABX.Task
