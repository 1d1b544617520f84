import Verif.Model.Names
import Verif.Model.Task
/-!
Model of `ABXpy/misc/progress_display.py` and of the calls that a verbose `generate_triplets` (ABXpy/task.py lines 723-730, 816-844) makes of it.  An `OrderedDict` is the list of its items.  Not represented: flushing the
output; a terminal is recognized by `is_tty` (line 20, a test of the standard *input*), which is a parameter.
-/
namespace ABX.Progress
open ExtSort SideOps
open Database (Text)

/-- a `ProgressDisplay`, lines 9-24 -/
structure Display where
  message : List (String × String)
  total : List (String × Int)
  count : List (String × Int)
  init : Bool
  tty : Bool

/-- `__init__`, lines 9-24 -/
def Display.new (tty : Bool) : Display := ⟨[], [], [], true, tty⟩

/-- `d[k] = v` for an `OrderedDict`: in place if the key is known, else at the end -/
def setItem {α : Type} (d : List (String × α)) (k : String) (v : α) : List (String × α) :=
  if d.any (fun p => p.1 == k) then d.map (fun p => if p.1 = k then (k, v) else p) else d ++ [(k, v)]

/-- `add`, lines 26-29 -/
def Display.add (d : Display) (name message : String) (total : Int) : Display :=
  { d with message := setItem d.message name message, total := setItem d.total name total, count := setItem d.count name 0 }

/-- `update`, lines 31-32 -/
def Display.update (d : Display) (name : String) (amount : Int) : Except Err Display :=
  match d.count.lookup name with
  | none => .error .keyError
  | some c => .ok { d with count := setItem d.count name (c + amount) }

/-- `"\033[<%d>A" % n`, line 37 -/
def escape (n : Nat) : Text := Char.ofNat 27 :: '[' :: '<' :: Names.decimal n ++ ['>', 'A']

/-- `"%s %d on %d\n"`, line 46 -/
def line (message : String) (count total : Int) : Text :=
  message.toList ++ ' ' :: Names.decimal count ++ " on ".toList ++ Names.decimal total ++ ['\n']

/-- `display`, lines 34-48: the text written and the object -/
def Display.display (d : Display) : Text × Display :=
  let m : Text := if d.tty then escape d.message.length else []          -- lines 35-39
  let m := if d.init then [] else m                                      -- lines 40-42
  let ls := (d.message.map (·.2)).zip ((d.total.map (·.2)).zip (d.count.map (·.2)))    -- lines 43-45
  (m ++ ls.flatMap (fun p => line p.1 p.2.2 p.2.1), { d with init := false })

/-- a call of a method -/
inductive Call where
  | add (name message : String) (total : Int)
  | update (name : String) (amount : Int)
  | display

/-- calls one after the other: the texts written and the object -/
def run : Display → List Call → Except Err (List Text × Display)
  | d, [] => .ok ([], d)
  | d, .add n m t :: cs => run (d.add n m t) cs
  | d, .update n k :: cs => match d.update n k with
    | .error er => .error er
    | .ok d => run d cs
  | d, .display :: cs => match run d.display.2 cs with
    | .error er => .error er
    | .ok (ts, d') => .ok (d.display.1 :: ts, d')

open ABX.Task
variable {ρ : Type}

/-- the calls for a block, task.py lines 815-844; `sizes` is `by_stats[by]['block_sizes']` -/
def blockCalls (T : Task.Task ρ) (L : Level ρ) (sizes : List (List Val × (Int × Int × Int))) (key : List Val) : Except Err (List Call) :=
  match blockRow T L key with
  | .error er => .error er
  | .ok (_, row) => match T.filters.onAcrossByFilter row with               -- line 822
    | .error er => .error er
    | .ok false => .ok [.update "block" 1, .display]                        -- lines 816-817, 843-844
    | .ok true => match sizes.lookup key with                               -- lines 838-841
      | none => .error .keyError
      | some s => .ok [.update "block" 1, .update "triplets" s.1, .display]

/-- the calls for a level -/
def levelCalls (e : Env) (T : Task.Task ρ) (L : Level ρ) : Except Err (List (List Call)) :=
  match levelStats e T L with
  | .error er => .error er
  | .ok sizes => sequence ((groupKeys e "gen" (T.on :: T.across) L.frame).map (blockCalls T L sizes))

/-- the calls of a verbose `generate_triplets` that succeeds, with `n_blocks` and `total_n_triplets` (lines 723-730, 762-775) -/
def genCalls (e : Env) (nBlocks : Nat) (total : Int) (T : Task.Task ρ) : Except Err (List Call) :=
  match sequence (T.levels.map (levelCalls e T)) with
  | .error er => .error er
  | .ok ls => .ok (.add "block" "Computing triplets for by/on/across block" nBlocks ::
      .add "triplets" "Triplets considered:" total :: ls.flatten.flatten)

end ABX.Progress
