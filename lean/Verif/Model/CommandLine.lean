import Verif.Model.Database
/-!
Model of the command lines and of what the programs do with files: ABXpy/task.py 702-717 (files of `generate_triplets`), 1339-1371 (`main`); ABXpy/distance.py 49-93 (`edit_distance`, `run`), 135-146 (`main`);
ABXpy/score.py 64-82 (files of `score`), 138-143 (`main`); ABXpy/analyze.py 155-166 (`analyze`), 188-207 (`main`); the calls of the distance in ABXpy/distances/distances.py 230-257.

Files have names and contents (of any type `κ`); links and other names of the same file are not represented.  `can p` tells if a file of that name can be created (its directory exists).
What the programs compute is given by parameters: a computation that writes a file gives the content that it leaves and the exception that it raises, if it does.
The parsing of the arguments by argparse is in Model/Argparse.lean.  Not represented: temporary directories, messages.
-/
namespace ABX.CommandLine
open Database (Text splitext)

/-- how a program ends: normally, by `exit`, or with an exception -/
inductive End where
  | ok
  | exit
  | raised (e : Err)
  deriving DecidableEq

/-- the files -/
abbrev Files (κ : Type) := Text → Option κ

/-- the files with another content (or none) of `p` -/
def setFile {κ : Type} (fs : Files κ) (p : Text) (c : Option κ) : Files κ := fun q => if q = p then c else fs q

/-- a computation that creates the file `p` -/
def create {κ : Type} (can : Text → Bool) (fs : Files κ) (p : Text) (w : κ × Option Err) : Files κ × End :=
  if can p then
    (setFile fs p (some w.1), match w.2 with | none => .ok | some e => .raised e)
  else (fs, .raised .ioError)

/-- the removal of an existing file by the programs (task.py 1347-1349, distance.py 137-139, score.py 140-142, analyze.py 202-205) -/
def removeOld {κ : Type} (fs : Files κ) (p : Text) : Files κ := if (fs p).isSome then setFile fs p none else fs

/-! ### task.py -/

/-- the arguments used -/
structure TaskArgs where
  database : Text
  output : Option Text
  statsOnly : Bool

/-- `generate_triplets`, task.py lines 702-717; `nb` is the number of triplets, `w` what is written -/
def generateTriplets {κ : Type} (can : Text → Bool) (database : Text) (output : Option Text) (nb : Nat) (w : κ × Option Err) (fs : Files κ) : Files κ × End :=
  if nb = 0 then (fs, .ok)                                                        -- lines 703-706
  else
    let o := match output with
      | none => (splitext database).1 ++ ".abx".toList                            -- lines 713-714
      | some o => o
    if (fs o).isSome then (fs, .raised .valueError)                               -- lines 715-717
    else create can fs o w

/-- `main` of task.py, lines 1339-1371; `mk` is `Task(...)`, which reads files, `stats` is `print_stats` -/
def taskMain {κ τ : Type} (can : Text → Bool) (mk : Files κ → Except Err τ) (stats : τ → Except Err Unit) (nb : τ → Nat) (w : τ → κ × Option Err) (a : TaskArgs) (fs : Files κ) : Files κ × End :=
  let fs := match a.output with
    | none => fs
    | some o => if o = [] then fs else removeOld fs o                              -- lines 1347-1349
  match mk fs with
  | .error e => (fs, .raised e)
  | .ok t =>
    if a.statsOnly then match stats t with
      | .error e => (fs, .raised e)
      | .ok _ => (fs, .ok)
    else generateTriplets can a.database a.output (nb t) (w t) fs

/-! ### score.py -/

/-- `score`, lines 64-118; `prep` is the reading of the task file of lines 78-81, `w` what lines 82-118 write -/
def score {κ π : Type} (can : Text → Bool) (prep : κ → Except Err π) (w : π → κ → κ → κ × Option Err) (task distance : Text) (out : Option Text) (fs : Files κ) : Files κ × End :=
  let o := match out with
    | none => (splitext task).1 ++ '_' :: (splitext distance).1 ++ ".score".toList   -- lines 64-67
    | some o => o
  match fs task with
  | none => (fs, .raised .assertion)                                                 -- line 69
  | some t => match fs distance with
    | none => (fs, .raised .assertion)                                               -- lines 70-71
    | some d =>
      if (fs o).isSome then (fs, .raised .assertion)                                 -- lines 72-73
      else match prep t with
        | .error e => (fs, .raised e)
        | .ok p => create can fs o (w p t d)

/-- `main` of score.py, lines 138-143: `os.path.exists(None)` raises TypeError -/
def scoreMain {κ π : Type} (can : Text → Bool) (prep : κ → Except Err π) (w : π → κ → κ → κ × Option Err) (task distance : Text) (out : Option Text) (fs : Files κ) : Files κ × End :=
  match out with
  | none => (fs, .raised .typeError)
  | some o => score can prep w task distance (some o) (removeOld fs o)

/-! ### analyze.py -/

/-- `analyze`, lines 155-166: the result file is opened (`empty` is the content of a new file), then the others are read -/
def analyze {κ : Type} (can : Text → Bool) (empty : κ) (w : κ → κ → κ × Option Err) (task scores out : Text) (fs : Files κ) : Files κ × End :=
  if can out then
    let fs1 := setFile fs out (some empty)
    match fs1 task with
    | none => (fs1, .raised .ioError)
    | some t => match fs1 scores with
      | none => (fs1, .raised .ioError)
      | some s => create can fs1 out (w t s)
  else (fs, .raised .ioError)

/-- `main` of analyze.py, lines 188-207 -/
def analyzeMain {κ : Type} (can : Text → Bool) (empty : κ) (w : κ → κ → κ × Option Err) (scores task out : Text) (fs : Files κ) : Files κ × End :=
  match fs scores with
  | none => (fs, .exit)                                                              -- lines 192-194
  | some _ => match fs task with
    | none => (fs, .exit)                                                            -- lines 197-199
    | some _ => analyze can empty w task scores out (removeOld fs out)

/-! ### distance.py -/

/-- how a distance function takes the argument `normalized`: not at all, with a default value, or always -/
inductive Takes where
  | never
  | default (b : Bool)
  | always
  deriving DecidableEq

/-- a distance function; `run` has the value of `normalized`, which is not used when it is not taken -/
structure Fun (φ δ : Type) where
  takes : Takes
  run : φ → φ → Bool → Except Err δ

/-- `distance(x, y, normalized=b)` or `distance(x, y)` -/
def Fun.call {φ δ : Type} (f : Fun φ δ) (x y : φ) : Option Bool → Except Err δ
  | some b => match f.takes with
    | .never => .error .typeError
    | _ => f.run x y b
  | none => match f.takes with
    | .never => f.run x y false
    | .default b => f.run x y b
    | .always => .error .typeError

/-- what lines 246-254 of distances.py make of the argument `normalize`, when it is not None -/
def asBool (k : Int) : Bool := if k = 1 then true else if k = 0 then false else true

/-- the loop of distances.py lines 230-269 on the pairs of a block; `normalize` is assigned in the loop (True is 1 and False is 0 for the next pair) -/
def pairLoop {φ δ : Type} (f : Fun φ δ) : (normalize : Option Int) → List (φ × φ) → Except Err (List δ)
  | _, [] => .ok []
  | none, (x, y) :: l => match f.call x y none with
    | .error e => .error e
    | .ok d => match pairLoop f none l with
      | .error e => .error e
      | .ok ds => .ok (d :: ds)
  | some k, (x, y) :: l => match f.call x y (some (asBool k)) with
    | .error e => .error e
    | .ok d => match pairLoop f (some (if asBool k then 1 else 0)) l with
      | .error e => .error e
      | .ok ds => .ok (d :: ds)

/-- `edit_distance`, distance.py lines 49-71, for items that are lists of frames; `eval` is `editdistance.eval`; `none` stands for infinity -/
def editDistance {ψ : Type} (eval : List ψ → List ψ → Nat) (x y : List ψ) : Option Nat :=
  if 0 < x.length ∧ 0 < y.length then some (eval x y)
  else if x.length = y.length then some 0
  else none

/-- `text.split('.')` -/
def splitDots : Text → List Text
  | [] => [[]]
  | c :: t => match splitDots t with
    | [] => [[c]]
    | w :: ws => if c = '.' then [] :: w :: ws else (c :: w) :: ws

/-- `os.path.split` (posix): the last component, and what precedes it without its last slashes -/
def splitPath (p : Text) : Text × Text :=
  let head := (p.reverse.dropWhile (· ≠ '/')).reverse
  let tail := (p.reverse.takeWhile (· ≠ '/')).reverse
  (if head.all (· = '/') then head else (head.reverse.dropWhile (· = '/')).reverse, tail)

/-- the functions of distance.py -/
structure Known (φ δ : Type) where
  default : Fun φ δ
  dtwKl : Fun φ δ
  edit : Fun φ δ

/-- lines 76-89 of `run`: the distance function; `imp path mod name` is the function `name` of the module `mod` found in the directory `path` -/
def resolve {φ δ : Type} (K : Known φ δ) (imp : Text → Text → Text → Except Err (Fun φ δ)) : Option Text → Except Err (Fun φ δ)
  | none => .ok K.default
  | some [] => .ok K.default                                                         -- an empty string is false, line 76
  | some d =>
    if d = "levenshtein".toList then .ok K.edit
    else if d = "dtw_kl".toList then .ok K.dtwKl
    else match splitDots d with
      | m :: f :: _ => imp (splitPath m).1 (splitPath m).2 f
      | _ => .error .indexError                                                       -- line 84

structure DistArgs where
  features : Text
  task : Text
  output : Text
  distance : Option Text
  normalization : Option Int

/-- `run`, lines 73-93, and the files of `compute_distances` (distances.py 299-328): the sizes of the feature file, the pairs of the task file (`plan`), then the output file, which is opened with mode 'a': `w` has its former content -/
def run {κ π φ δ : Type} (can : Text → Bool) (K : Known φ δ) (imp : Text → Text → Text → Except Err (Fun φ δ)) (plan : κ → Except Err π)
    (w : Fun φ δ → Option Int → κ → π → Option κ → κ × Option Err) (a : DistArgs) (fs : Files κ) : Files κ × End :=
  match resolve K imp a.distance with
  | .error e => (fs, .raised e)
  | .ok f => match fs a.features with
    | none => (fs, .raised .ioError)
    | some x => match fs a.task with
      | none => (fs, .raised .ioError)
      | some t => match plan t with
        | .error e => (fs, .raised e)
        | .ok p => create can fs a.output (w f a.normalization x p (fs a.output))

/-- `main` of distance.py, lines 135-146 -/
def distanceMain {κ π φ δ : Type} (can : Text → Bool) (K : Known φ δ) (imp : Text → Text → Text → Except Err (Fun φ δ)) (plan : κ → Except Err π)
    (w : Fun φ δ → Option Int → κ → π → Option κ → κ × Option Err) (a : DistArgs) (fs : Files κ) : Files κ × End :=
  let fs := removeOld fs a.output                                                    -- lines 137-139
  if a.distance = none ∧ a.normalization = none then (fs, .exit)                      -- lines 142-143
  else run can K imp plan w a fs

end ABX.CommandLine
