import Verif.Model.Task
/-!
Model of `Task.compute_nb_levels`, ABXpy/task.py lines 997-1065.  Not represented: the progress display.
-/
namespace ABX.Task
open ExtSort SideOps

/-- lines 1024-1047: the candidates B and X of a block.  (X is not the one of `candidates`: line 1045 removes the items of
the block whatever the number of across columns.) -/
def nbCandidates (e : Env) (T : Task ρ) (L : Level ρ) (key : List Val) (block : List Nat) : Except Err (List Nat × List Nat) :=
  match key with                                                   -- on_across_from_key, line 1021
  | [] => .error .indexError
  | on :: across =>
    let A := block.map (castNat L.type)                             -- lines 1026-1028
    match groupLabels L.frame [T.on] [on] with                      -- line 1029
    | .error e => .error e
    | .ok onSet =>
      let B : Except Err (List Nat) :=
        if T.across = ["#across"] then
          .ok (e.sets "nb_B" key (((L.frame.map (·.1)).dedup).filter (fun l => !onSet.contains l)))   -- lines 1036-1038
        else match groupLabels L.frame T.across across with          -- lines 1040-1044
          | .error e => .error e
          | .ok g => .ok (e.sets "nb_B" key (g.dedup.filter (fun l => !A.contains l)))
      match B with
      | .error e => .error e
      | .ok B => .ok (B.map (castNat L.type),
          (e.sets "nb_X" key (onSet.dedup.filter (fun l => !A.contains l))).map (castNat L.type))     -- lines 1047-1048

/-- lines 1057-1058: `len(db.iloc[items].groupby(grouping).groups)` -/
def nbGroups (fr : Frame) (grouping : List String) (items : List Nat) : Except Err Nat :=
  match sequence (items.map (iloc fr)) with
  | .error e => .error e
  | .ok rows => .ok (rows.map (keyOf grouping)).dedup.length

/-- body of the loop over blocks, lines 1019-1060: what is added to the number of levels -/
def nbBlock (e : Env) (T : Task ρ) (L : Level ρ) (key : List Val) : Except Err Nat :=
  match groupLabels L.frame (T.on :: T.across) key with                 -- line 1019
  | .error e => .error e
  | .ok block => match block[0]? with
    | none => .error .indexError
    | some l => match loc L.frame l with                                -- line 1020: `db.ix`, by label
      | .error e => .error e
      | .ok row => match T.filters.onAcrossByFilter row with            -- line 1023
        | .error e => .error e
        | .ok false => .ok 0
        | .ok true => match nbCandidates e T L key block with
          | .error e => .error e
          | .ok (B, X) =>
            if B.length > 0 ∧ X.length > 0 then                         -- line 1050
              let grouping := if T.across = ["#across"] then [T.on] else T.on :: T.across    -- lines 1052-1055
              match nbGroups L.frame grouping B with                    -- line 1057
              | .error e => .error e
              | .ok nB => match nbGroups L.frame grouping X with        -- line 1058
                | .error e => .error e
                | .ok nX => .ok (nB * nX)                               -- line 1059
            else .ok 0

/-- lines 1015-1062: `by_stats[by]['nb_levels']` -/
def nbLevel (e : Env) (T : Task ρ) (L : Level ρ) : Except Err Nat :=
  (sequence ((groupKeys e "stats" (T.on :: T.across) L.frame).map (nbBlock e T L))).map List.sum

/-- `compute_nb_levels`: `stats['nb_levels']` -/
def nbLevels (e : Env) (T : Task ρ) : Except Err Nat :=
  if (T.filters.ops .A).isEmpty && (T.filters.ops .B).isEmpty && (T.filters.ops .X).isEmpty && (T.filters.ops .ABX).isEmpty then
    (sequence (T.levels.map (nbLevel e T))).map List.sum
  else .error .valueError                                               -- lines 998-1002

end ABX.Task
