import Verif.Model.Progress
import Verif.Model.TaskObject
/-!
Model of the standard output of a verbose task (ABXpy/task.py): `Task.__init__` (lines 187-246 with 258-283, 285-297, 350-413) and
`compute_nb_levels` (lines 997-1013), when they do not raise.  Every loop makes its own `ProgressDisplay`.
Not represented: what is written before an exception.
-/
namespace ABX.Progress
open ExtSort SideOps
open Database (Text)
open ABX.Task
variable {ρ : Type}

/-- a display of one name, made before a loop over `keys`, that is updated and displayed in each turn: lines 289-296, 371-379, 395-412, 1004-1013 -/
def loopCalls {κ : Type} (message : String) (total : Nat) (keys : List κ) : List Call :=
  .add "block" message total :: keys.flatMap (fun _ => [.update "block" 1, .display])

/-- what the loop writes -/
def loopText {κ : Type} (tty : Bool) (message : String) (total : Nat) (keys : List κ) : Except Err Text :=
  match run (Display.new tty) (loopCalls message total keys) with
  | .error er => .error er
  | .ok (ts, _) => .ok ts.flatten

/-- what a verbose `Task(path, ...)` writes, lines 187-246 -/
def newText (tty : Bool) (path : Text) (e : Env) (a : Args ρ) : Except Err Text :=
  match checkDatabase a with
  | .error er => .error er
  | .ok _ =>
    let checked : Text := "checking input database ".toList ++ path ++ "\ninput database verified\n".toList       -- lines 263-264, 282-283
    let (byCols, fr) := dummyBy a.by_ a.db
    let (_, fr) := dummyAcross a.across fr
    let keys := groupKeys e "by" byCols fr
    match loopText tty "Preprocessing by block" keys.length keys with                                             -- lines 287-296
    | .error er => .error er
    | .ok t1 => match Obj.new e a with
      | .error er => .error er
      | .ok o => match loopText tty "Computing statistics for by block" o.stats.nbByLevels o.task.levels with       -- lines 371-379
        | .error er => .error er
        | .ok t2 =>
          let blocks := o.task.levels.flatMap (fun L => groupKeys e "stats" (o.task.on :: o.task.across) L.frame)   -- lines 401, 409
          match loopText tty "Computing statistics for by/on/across block" o.stats.nbBlocks blocks with             -- lines 395-412
          | .error er => .error er
          | .ok t3 => .ok (checked ++ t1 ++ t2 ++ t3)

/-- what a verbose `compute_nb_levels` writes when it does not raise, lines 1004-1013 -/
def nbLevelsText (tty : Bool) (o : Obj ρ) : Except Err Text :=
  loopText tty "Computing nb_levels for by block" o.stats.nbByLevels o.task.levels

end ABX.Progress
