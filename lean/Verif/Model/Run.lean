import Verif.Model.CommandLine
/-!
Model of bin/ABXrun.py, the program that runs the complete pipeline: `get_arg` 20-24, `test_analyze` 31-72, the names of the arguments 82-133, `main` 138-184.

A dictionary is a list of keys with values.  What is done with a configuration is given by parameters.  A call of a python function is represented by the number of its positional arguments and the names of the others;
python raises a TypeError when they do not fit the parameters of the function.
-/
namespace ABX.Run
open Database (Text)
open CommandLine (Files End create)

/-- the name under which argparse stores an argument: without leading dashes, other dashes become underscores -/
def dest (flag : Text) : Text := (flag.dropWhile (· == '-')).map (fun c => if c = '-' then '_' else c)

/-- the arguments declared, lines 82-133 -/
def flags : List Text :=
  ["itemfile".toList, "featurefile".toList, "config".toList, "--taskfile".toList, "--distancefile".toList, "--analyzefile".toList, "--scorefile".toList, "--distance".toList, "--name".toList]

/-- `vars(parser.parse_args())`, line 135: every argument has a value, `None` for options that are not given -/
def parsed (value : Text → Option Text) : List (Text × Option Text) := flags.map (fun f => (dest f, value f))

/-- `args[key]` -/
def item {β : Type} (args : List (Text × β)) (key : Text) : Except Err β :=
  match args.lookup key with
  | none => .error .keyError
  | some v => .ok v

/-- `get_arg`, lines 20-24 -/
def getArg {β : Type} (key : Text) (args : List (Text × Option β)) : Option β := (args.lookup key).join

/-- the parameters of a function, of which the first `required` have no default value -/
structure Sig where
  params : List Text
  required : Nat

/-- a call with `pos` positional arguments and arguments with names: does it fit -/
def bind (s : Sig) (pos : Nat) (kw : List Text) : Except Err Unit :=
  if s.params.length < pos then .error .typeError
  else if kw.any (fun k => !s.params.contains k || (s.params.take pos).contains k) then .error .typeError
  else if ((s.params.take s.required).drop pos).all (kw.contains ·) then .ok () else .error .typeError

/-- `Task.__init__`, ABXpy/task.py 187-188, without `self` -/
def taskSig : Sig := ⟨["db_name".toList, "on".toList, "across".toList, "by".toList, "filters".toList, "regressors".toList, "verbose".toList], 2⟩

/-- `compute_distances`, ABXpy/distances/distances.py 282-284 -/
def distancesSig : Sig :=
  ⟨["feature_file".toList, "feature_group".toList, "pair_file".toList, "distance_file".toList, "distance".toList, "normalized".toList, "n_cpu".toList, "mem".toList, "feature_file_as_list".toList], 6⟩

/-- `score`, ABXpy/score.py 51 -/
def scoreSig : Sig := ⟨["task_file".toList, "distance_file".toList, "score_file".toList, "score_group".toList], 2⟩

/-- `analyze`, ABXpy/analyze.py 142 -/
def analyzeSig : Sig := ⟨["task_file".toList, "score_file".toList, "result_file".toList], 3⟩

/-- the calls in `test_analyze`: function, number of positional arguments, names of the others; lines 61-63, 67-68, 70 and 72 -/
def calls : List (Sig × Nat × List Text) :=
  [(taskSig, 6, ["features".toList]), (distancesSig, 5, []), (scoreSig, 3, []), (analyzeSig, 3, [])]

/-- calls one after the other, with what they do to the files -/
def stages {κ : Type} : List ((Sig × Nat × List Text) × (Files κ → Files κ × End)) → Files κ → Files κ × End
  | [], fs => (fs, .ok)
  | (c, act) :: rest, fs =>
    match bind c.1 c.2.1 c.2.2 with
    | .error e => (fs, .raised e)
    | .ok () => match act fs with
      | (fs, .ok) => stages rest fs
      | r => r

/-- `test_analyze`, lines 31-72; `generate`, `distances`, `scores` and `results` are the stages, with what they do to the files -/
def testAnalyze {κ : Type} (on : Option Text) (generate distances scores results : Files κ → Files κ × End) (fs : Files κ) : Files κ × End :=
  match on with
  | none => (fs, .raised .assertion)                                              -- lines 35-37
  | some on => if on = [] then (fs, .raised .assertion) else stages (calls.zip [generate, distances, scores, results]) fs

/-- `main`, lines 138-184; `config` is the configuration read, `none` when the file is not in json -/
def main {κ : Type} (value : Text → Option Text) (config : κ → Option (List (Text × Option Text))) (generate distances scores results : Files κ → Files κ × End) (fs : Files κ) : Files κ × End :=
  let path (key : Text) (next : κ → Files κ × End) : Files κ × End :=
    match item (parsed value) key with
    | .error e => (fs, .raised e)
    | .ok none => (fs, .raised .typeError)
    | .ok (some p) => match fs p with
      | none => (fs, .raised .assertion)
      | some c => next c
  path "itemfile".toList (fun _ =>                                                  -- lines 142-143
    path "featurefile".toList (fun _ =>                                             -- lines 145-146
      path "configfile".toList (fun c =>                                            -- lines 148-149
        match config c with
        | none => (fs, .raised .valueError)                                         -- line 152
        | some cfg => testAnalyze (getArg "on".toList cfg) generate distances scores results fs)))

end ABX.Run
