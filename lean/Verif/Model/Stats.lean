import Verif.Model.NbLevels
import Verif.Model.Names
/-!
Model of `Task.compute_statistics` (ABXpy/task.py lines 350-463) with its argument `approximate`, and of `Task.print_stats`
(lines 1066-1109).  Not represented: the progress display; the text that `pprint` makes of a dictionary, which is a parameter; the
text of the statistics that are not summarized (lines 1079-1082), which is `pprint` of dictionaries.
-/
namespace ABX.Task
open ExtSort SideOps
open Database (Text)
variable {ρ : Type}

/-- body of the loop of `compute_statistics`, lines 409-456: (block size, on pairs, across pairs).  `blockStats` is the case
`approximate=False`. -/
def blockStatsWith (approximate : Bool) (e : Env) (T : Task ρ) (L : Level ρ) (key : List Val) : Except Err (Int × Int × Int) :=
  match blockRow T L key with                                           -- lines 414-415
  | .error e => .error e
  | .ok (block, row) => match T.filters.onAcrossByFilter row with       -- line 422
    | .error e => .error e
    | .ok false => .ok (0, 0, 0)                                        -- line 456
    | .ok true => match key with                                        -- line 419
      | [] => .error .indexError
      | on :: across =>
        let nA : Int := block.length                                     -- line 423
        match groupLabels L.frame [T.on] [on] with                       -- line 424
        | .error e => .error e
        | .ok onSet =>
          let nB : Except Err Int :=
            if T.across = ["#across"] then .ok ((L.frame.length : Int) - onSet.length)       -- line 429
            else match groupLabels L.frame T.across across with
              | .error e => .error e
              | .ok g => .ok ((g.length : Int) - nA)                      -- line 431
          match nB with
          | .error e => .error e
          | .ok nB =>
            let nX : Int := onSet.length - nA                            -- line 433
            let noFilters := (T.filters.ops .A).isEmpty && (T.filters.ops .B).isEmpty && (T.filters.ops .X).isEmpty &&
              (T.filters.ops .ABX).isEmpty
            if (approximate || noFilters) && !(across.length > 1) then    -- lines 437-441
              .ok (nA * nB * nX, nA * nX, nA * nB)                         -- lines 434-435, 442-443
            else match onAcrossTriplets e T L key block row with          -- lines 449-454
              | .error e => .error e
              | .ok b => .ok (b.trips.length, nA * nX, nA * nB)

/-- `by_stats[by]`, lines 380-389 and 403-456, without the tables `on_levels`, `across_levels`, `on_across_levels` and
`block_sizes` -/
structure LevelStats where
  nbItems : Nat
  nbOnLevels : Nat
  nbAcrossLevels : Nat
  nbOnAcrossLevels : Nat
  nbTriplets : Int
  nbAcrossPairs : Int
  nbOnPairs : Int
deriving DecidableEq

/-- the statistics of one level -/
def statsOf (approximate : Bool) (e : Env) (T : Task ρ) (L : Level ρ) : Except Err LevelStats :=
  match sequence ((groupKeys e "stats" (T.on :: T.across) L.frame).map (blockStatsWith approximate e T L)) with   -- line 409
  | .error e => .error e
  | .ok bs => .ok {
      nbItems := L.frame.length                                                         -- line 381
      nbOnLevels := (groupKeys e "stats on" [T.on] L.frame).length                      -- lines 382-383
      nbAcrossLevels := (groupKeys e "stats across" T.across L.frame).length            -- lines 384-385
      nbOnAcrossLevels := (groupKeys e "stats" (T.on :: T.across) L.frame).length       -- lines 386-387
      nbTriplets := (bs.map (fun s => s.1)).sum                                         -- lines 442, 453
      nbAcrossPairs := (bs.map (fun s => s.2.2)).sum                                    -- line 434
      nbOnPairs := (bs.map (fun s => s.2.1)).sum }                                      -- line 435

/-- `self.stats`: lines 363-368, 391-393, 458-459; `nb_levels` after `compute_nb_levels` (lines 1063-1064) -/
structure TaskStats where
  approximate : Bool
  approximateNbTriplets : Bool
  nbByLevels : Nat
  nbBlocks : Nat
  nbTriplets : Int
  nbLevels : Option Nat
deriving DecidableEq

/-- `compute_statistics`: `self.stats` and `self.by_stats` -/
def computeStatistics (approximate : Bool) (e : Env) (T : Task ρ) : Except Err (TaskStats × List (List Val × LevelStats)) :=
  match sequence (T.levels.map (fun L => (statsOf approximate e T L).map (fun s => (L.key, s)))) with
  | .error e => .error e
  | .ok ls =>
    let filtered := !((T.filters.ops .A).isEmpty && (T.filters.ops .B).isEmpty && (T.filters.ops .X).isEmpty &&
      (T.filters.ops .ABX).isEmpty)                                                      -- lines 364-365
    .ok ({ approximate := filtered
           approximateNbTriplets := approximate && filtered                              -- lines 366-367
           nbByLevels := T.levels.length                                                 -- line 368
           nbBlocks := (ls.map (fun p => p.2.nbOnAcrossLevels)).sum                      -- lines 391-393
           nbTriplets := (ls.map (fun p => p.2.nbTriplets)).sum                          -- lines 458-459
           nbLevels := none }, ls)

/-- a line `name: %d` -/
def statLine (name : String) (n : Int) : Text := name.toList ++ ": ".toList ++ Names.decimal n ++ ['\n']

/-- the lines of one level in the summarized text, lines 1091-1109 (`str(by)` is the name of the level); `nb`: the value of
`stats['nb_levels']`, if any -/
def levelText (key : List Val) (s : LevelStats) (nb : Option Nat) : Text :=
  "### by level: ".toList ++ Names.keyName key ++ " ###\n".toList ++          -- line 1092
  statLine "nb_triplets" s.nbTriplets ++
  (match nb with
    | some n => statLine "nb_levels" n                                        -- lines 1095-1096
    | none => []) ++
  statLine "nb_across_pairs" s.nbAcrossPairs ++
  statLine "nb_on_pairs" s.nbOnPairs ++
  statLine "nb_on_levels" s.nbOnLevels ++
  statLine "nb_across_levels" s.nbAcrossLevels ++
  statLine "nb_on_across_levels" s.nbOnAcrossLevels

/-- the `try` of lines 1084-1089: the numbers of levels, or none of them if `compute_nb_levels` raises ValueError (other exceptions
are not caught) -/
def nbLevelsTry (e : Env) (T : Task ρ) : Except Err (List (Option Nat)) :=
  if (T.filters.ops .A).isEmpty && (T.filters.ops .B).isEmpty && (T.filters.ops .X).isEmpty && (T.filters.ops .ABX).isEmpty then
    match sequence (T.levels.map (nbLevel e T)) with
    | .ok ns => .ok (ns.map some)
    | .error .valueError => .ok (T.levels.map (fun _ => none))
    | .error er => .error er
  else .ok (T.levels.map (fun _ => none))

/-- `print_stats_to_stream(stream, summarized=True)`, lines 1073-1109: the text written; `pp` is `pprint` of `self.stats` (which
`compute_nb_levels` changes only afterwards) -/
def printStats (pp : TaskStats → Text) (e : Env) (T : Task ρ) (S : TaskStats × List (List Val × LevelStats)) : Except Err Text :=
  match nbLevelsTry e T with
  | .error er => .error er
  | .ok ns => .ok ("\n\n###### Global stats ######\n\n".toList ++ pp S.1 ++ "\n\n###### by blocks stats ######\n\n".toList ++
      (S.2.zip ns).flatMap (fun p => levelText p.1.1 p.1.2 p.2))

end ABX.Task
