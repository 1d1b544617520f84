import Verif.Model.CommandLine
/-!
Model of the parsing of command lines: the parsers that the programs define (ABXpy/task.py 1254-1336 `parse_arguments`, ABXpy/distance.py 96-133, ABXpy/score.py 123-138, ABXpy/analyze.py 169-185 `parse_args`,
ABXpy/verify.py 60-68, ABXpy/misc/any2h5features.py 85-91, bin/ABXrun.py 75-135) and the part of the library argparse that they use: `ArgumentParser.parse_args`, `_parse_known_args`, `_parse_optional`, `_get_option_tuples`,
`_match_argument`, `_match_arguments_partial`, `_get_nargs_pattern` and `_get_values`, as they are in python 3.11.

Simplifications: the values are the texts of the arguments, the texts that `int` accepts are a parameter; the texts of messages; other features of argparse, which the programs do not use (`*`, choices, exclusive groups, files of arguments,
other prefixes than '-', abbreviations forbidden, options that look like negative numbers).
-/
namespace ABX.Argparse
open Database (Text)

/-- how many arguments: none (`store_true`, or `help`), one, one or none (`?`), one or more (`+`) -/
inductive Nargs where
  | flag
  | help
  | one
  | opt
  | plus
  deriving DecidableEq

/-- an option: its strings, the number of its arguments, the name under which its value is stored, whether it must be given, whether its value is made an integer -/
structure Opt where
  strings : List Text
  nargs : Nargs
  dest : Text
  required : Bool := false
  int : Bool := false
  deriving DecidableEq

/-- a positional argument: one value, or one or none -/
structure Pos where
  dest : Text
  may : Bool := false
  deriving DecidableEq

/-- the options (with `help`) and the positional arguments of a program, in the order in which they are added -/
structure Parser where
  opts : List Opt
  pos : List Pos

/-- how the parsing ends when it does not return: `help` prints the help and exits with 0, `usage` prints an error and exits with 2 -/
inductive Exit where
  | help
  | usage
  deriving DecidableEq

/-- how an argument that looks like an option is understood: the option (none if there is no such option), the text of the option, the sign '=' after it, the argument written after it -/
structure Tok where
  action : Option Opt
  string : Text
  sep : Bool
  explicit : Option Text
  deriving DecidableEq

/-- an argument: `--` (the first one), an option, or another one.  The text of the argument is kept. -/
inductive Item where
  | dash
  | option (t : Tok) (s : Text)
  | arg (s : Text)
  deriving DecidableEq

/-- the text of an argument -/
def Item.text : Item → Text
  | .dash => "--".toList
  | .option _ s => s
  | .arg s => s

def Item.isOption : Item → Bool
  | .option _ _ => true
  | _ => false

def Item.isArg : Item → Bool
  | .arg _ => true
  | _ => false

def Item.isDash : Item → Bool
  | .dash => true
  | _ => false

/-- `_option_string_actions`: all strings of options, in the order in which they are added -/
def Parser.table (P : Parser) : List (Text × Opt) := P.opts.flatMap (fun o => o.strings.map (fun s => (s, o)))

/-- `arg_string.partition('=')` -/
def partition (s : Text) : Text × Option Text := match s.dropWhile (· ≠ '=') with
  | [] => (s, none)
  | _ :: e => (s.takeWhile (· ≠ '='), some e)

/-- `_negative_number_matcher`: `^-\d+$|^-\d*\.\d+$` -/
def isNegative (s : Text) : Bool := match s with
  | '-' :: t => (!t.isEmpty && t.all Char.isDigit) || (match t.dropWhile Char.isDigit with
    | '.' :: u => !u.isEmpty && u.all Char.isDigit
    | _ => false)
  | _ => false

/-- `_get_option_tuples` -/
def optionTuples (P : Parser) (s : Text) : List Tok :=
  if "--".toList.isPrefixOf s then
    (P.table.filter (fun p => (partition s).1.isPrefixOf p.1)).map (fun p => ⟨some p.2, p.1, (partition s).2.isSome, (partition s).2⟩)
  else
    P.table.filterMap (fun p => if p.1 = s.take 2 then some ⟨some p.2, p.1, false, some (s.drop 2)⟩ else if s.isPrefixOf p.1 then some ⟨some p.2, p.1, false, none⟩ else none)

/-- `_parse_optional` -/
def parseOptional (P : Parser) (s : Text) : Except Exit (Option Tok) :=
  match s with
  | [] => .ok none
  | c :: t =>
    if c ≠ '-' then .ok none
    else match P.table.lookup s with
      | some o => .ok (some ⟨some o, s, false, none⟩)
      | none =>
        if t = [] then .ok none
        else match (partition s).2, P.table.lookup (partition s).1 with
          | some e, some o => .ok (some ⟨some o, (partition s).1, true, some e⟩)
          | _, _ => match optionTuples P s with
            | [tok] => .ok (some tok)
            | _ :: _ :: _ => .error .usage
            | [] => if isNegative s then .ok none else if ' ' ∈ s then .ok none else .ok (some ⟨none, s, false, none⟩)

/-- the first loop of `_parse_known_args`: what the arguments are -/
def classify (P : Parser) : List Text → Except Exit (List Item)
  | [] => .ok []
  | s :: rest =>
    if s = "--".toList then .ok (.dash :: rest.map .arg)
    else match parseOptional P s with
      | .error e => .error e
      | .ok tok => match classify P rest with
        | .error e => .error e
        | .ok items => .ok ((match tok with
          | none => .arg s
          | some t => .option t s) :: items)

/-- the numbers of arguments that the pattern of a positional argument matches at the beginning, the preferred one first: `-*A-*` or `-*A?-*` -/
def lengths (p : Pos) (items : List Item) : List Nat :=
  let m := (items.takeWhile Item.isDash).length
  let full := match items.drop m with
    | i :: rest => if i.isArg then (List.range ((rest.takeWhile Item.isDash).length + 1)).reverse.map (fun k => m + 1 + k) else []
    | [] => []
  if p.may then full ++ (List.range (m + 1)).reverse else full

/-- the match of the patterns of several positional arguments (regular expression with backtracking) -/
def matchAll : List Pos → List Item → Option (List Nat)
  | [], _ => some []
  | p :: ps, items => (lengths p items).findSome? (fun n => (matchAll ps (items.drop n)).map (n :: ·))

/-- `_match_arguments_partial`: the most positional arguments that match -/
def matchPartial (ps : List Pos) (items : List Item) : List Nat :=
  ((List.range ps.length).reverse.findSome? (fun i => matchAll (ps.take (i + 1)) items)).getD []

/-- what has been done: the values stored (the last one first), the options and positional arguments seen, the arguments that are left over -/
structure State where
  values : List (Text × List Text) := []
  seenOpt : List Opt := []
  seenPos : List Pos := []
  extras : List Text := []

/-- `take_action` of an option, with `_get_values` -/
def takeOpt (isInt : Text → Bool) (o : Opt) (args : List Text) (s : State) : Except Exit State :=
  if o.nargs = .help then .error .help
  else if o.int && !args.all isInt then .error .usage
  else .ok { s with values := (o.dest, args) :: s.values, seenOpt := o :: s.seenOpt }

/-- `take_action` of a positional argument: the first `--` is removed; nothing is stored if there is none (the default is None) -/
def takePos (p : Pos) (args : List Text) (s : State) : State :=
  let args := args.erase "--".toList
  if args = [] ∧ p.may then { s with seenPos := p :: s.seenPos }
  else { s with values := (p.dest, args) :: s.values, seenPos := p :: s.seenPos }

/-- `consume_positionals`: the positional arguments left, the arguments left, the state -/
def takeAll : List (Pos × Nat) → List Item → State → List Item × State
  | [], items, s => (items, s)
  | (p, n) :: l, items, s => takeAll l (items.drop n) (takePos p ((items.take n).map Item.text) s)

def consumePositionals (ps : List Pos) (items : List Item) (s : State) : List Pos × List Item × State :=
  let counts := matchPartial ps items
  (ps.drop counts.length, takeAll (ps.zip counts) items s)

/-- the loop of `consume_optional` over an argument written after an option: the options taken with their arguments, an argument that is left over, and the option that takes the following arguments -/
def chain (P : Parser) : (o : Opt) → (string : Text) → (sep : Bool) → (acc : List (Opt × List Text)) → (explicit : Text) → Except Exit (List (Opt × List Text) × Option Text × Option Opt)
  | o, _, _, acc, [] => if o.nargs = .flag ∨ o.nargs = .help then .error .usage else .ok (acc ++ [(o, [[]])], none, none)
  | o, string, sep, acc, c :: e =>
    if o.nargs = .flag ∨ o.nargs = .help then
      if "--".toList.isPrefixOf string then .error .usage
      else if sep || c == '-' then .error .usage
      else match P.table.lookup ['-', c] with
        | none => .ok (acc ++ [(o, [])], some ('-' :: c :: e), none)
        | some o' => match e with
          | [] => .ok (acc ++ [(o, [])], none, some o')
          | d :: e' => if d = '=' then chain P o' ['-', c] true (acc ++ [(o, [])]) e' else chain P o' ['-', c] false (acc ++ [(o, [])]) (d :: e')
    else .ok (acc ++ [(o, [c :: e])], none, none)

/-- `_match_argument` of an option: how many of the following arguments it takes -/
def matchArgument (o : Opt) (items : List Item) : Except Exit Nat :=
  match o.nargs with
  | .flag => .ok 0
  | .help => .ok 0
  | .one => match items with
    | i :: _ => if i.isArg then .ok 1 else .error .usage
    | [] => .error .usage
  | .opt => .ok (if (items.head?.map Item.isArg).getD false then 1 else 0)
  | .plus => if (items.takeWhile Item.isArg).length = 0 then .error .usage else .ok (items.takeWhile Item.isArg).length

/-- the options taken, one after the other -/
def takeOpts (isInt : Text → Bool) : List (Opt × List Text) → State → Except Exit State
  | [], s => .ok s
  | (o, args) :: l, s => match takeOpt isInt o args s with
    | .error e => .error e
    | .ok s => takeOpts isInt l s

/-- the following arguments of the option `o`, after the options of `acc` -/
def takeFollowing (isInt : Text → Bool) (o : Opt) (acc : List (Opt × List Text)) (items : List Item) (s : State) : Except Exit (List Item × State) :=
  match matchArgument o items with
  | .error e => .error e
  | .ok n => match takeOpts isInt (acc ++ [(o, (items.take n).map Item.text)]) s with
    | .error e => .error e
    | .ok s => .ok (items.drop n, s)

/-- `consume_optional`: the arguments left and the state -/
def consumeOptional (P : Parser) (isInt : Text → Bool) (t : Tok) (text : Text) (items : List Item) (s : State) : Except Exit (List Item × State) :=
  match t.action with
  | none => .ok (items, { s with extras := s.extras ++ [text] })
  | some o => match t.explicit with
    | none => takeFollowing isInt o [] items s
    | some e => match chain P o t.string t.sep [] e with
      | .error e => .error e
      | .ok (acc, extra, none) =>
        match takeOpts isInt acc { s with extras := s.extras ++ extra.toList } with
        | .error e => .error e
        | .ok s => .ok (items, s)
      | .ok (acc, _, some o') => takeFollowing isInt o' acc items s

/-- the main loop of `_parse_known_args`.  `fuel` is more than the number of arguments; it never ends. -/
def loop (P : Parser) (isInt : Text → Bool) : (fuel : Nat) → List Pos → List Item → State → Except Exit (List Pos × List Item × State)
  | 0, ps, items, s => .ok (ps, items, s)
  | fuel + 1, ps, items, s =>
    if items.any Item.isOption then
      match items with
      | .option t text :: rest => match consumeOptional P isInt t text rest s with
        | .error e => .error e
        | .ok (rest, s) => loop P isInt fuel ps rest s
      | items =>
        let p := consumePositionals ps items s
        if p.2.1.length < items.length then loop P isInt fuel p.1 p.2.1 p.2.2
        else
          let skipped := items.takeWhile (fun i => !i.isOption)
          match items.dropWhile (fun i => !i.isOption) with
          | .option t text :: rest => match consumeOptional P isInt t text rest { p.2.2 with extras := p.2.2.extras ++ skipped.map Item.text } with
            | .error e => .error e
            | .ok (rest, s) => loop P isInt fuel p.1 rest s
          | items => .ok (p.1, items, p.2.2)
    else .ok (ps, items, s)

/-- `_parse_known_args` and the test of `parse_args`: the values stored, the last one first -/
def parse (P : Parser) (isInt : Text → Bool) (argv : List Text) : Except Exit (List (Text × List Text)) :=
  match classify P argv with
  | .error e => .error e
  | .ok items => match loop P isInt (items.length + 1) P.pos items {} with
    | .error e => .error e
    | .ok (ps, items, s) =>
      let p := consumePositionals ps items s
      let s := p.2.2
      if P.pos.any (fun q => !q.may && !s.seenPos.contains q) || P.opts.any (fun o => o.required && !s.seenOpt.contains o) then .error .usage
      else if s.extras ++ p.2.1.map Item.text ≠ [] then .error .usage
      else .ok s.values

/-! ### the parsers of the programs -/

def helpOpt : Opt := ⟨["-h".toList, "--help".toList], .help, "help".toList, false, false⟩

/-- ABXpy/task.py 1254-1336 -/
def taskParser : Parser where
  opts := [helpOpt,
    ⟨["-v".toList, "--verbose".toList], .flag, "verbose".toList, false, false⟩,
    ⟨["--stats-only".toList], .flag, "stats_only".toList, false, false⟩,
    ⟨["--tempdir".toList], .one, "tempdir".toList, false, false⟩,
    ⟨["--seed".toList], .one, "seed".toList, false, true⟩,
    ⟨["-o".toList, "--on".toList], .one, "on".toList, true, false⟩,
    ⟨["-a".toList, "--across".toList], .plus, "across".toList, false, false⟩,
    ⟨["-b".toList, "--by".toList], .plus, "by".toList, false, false⟩,
    ⟨["-f".toList, "--filters".toList], .plus, "filters".toList, false, false⟩,
    ⟨["-r".toList, "--regressors".toList], .plus, "regressors".toList, false, false⟩,
    ⟨["-t".toList, "--threshold".toList], .one, "threshold".toList, false, true⟩]
  pos := [⟨"database".toList, false⟩, ⟨"output".toList, true⟩]

/-- ABXpy/distance.py 96-133 -/
def distanceParser : Parser where
  opts := [helpOpt,
    ⟨["-g".toList, "--group".toList], .one, "group".toList, false, false⟩,
    ⟨["-d".toList, "--distance".toList], .one, "distance".toList, false, false⟩,
    ⟨["-j".toList, "--njobs".toList], .one, "njobs".toList, false, true⟩,
    ⟨["-n".toList, "--normalization".toList], .one, "normalization".toList, false, true⟩]
  pos := [⟨"features".toList, false⟩, ⟨"task".toList, false⟩, ⟨"output".toList, false⟩]

/-- ABXpy/score.py 123-138 -/
def scoreParser : Parser where
  opts := [helpOpt]
  pos := [⟨"task".toList, false⟩, ⟨"distance".toList, false⟩, ⟨"score".toList, true⟩]

/-- ABXpy/analyze.py 169-185 -/
def analyzeParser : Parser where
  opts := [helpOpt]
  pos := [⟨"scorefile".toList, false⟩, ⟨"taskfile".toList, false⟩, ⟨"output".toList, false⟩]

/-- ABXpy/verify.py 60-68 -/
def verifyParser : Parser where
  opts := [helpOpt]
  pos := [⟨"item".toList, false⟩, ⟨"features".toList, false⟩]

/-- ABXpy/misc/any2h5features.py 85-91 -/
def convertParser : Parser where
  opts := [helpOpt]
  pos := [⟨"folder".toList, false⟩, ⟨"h5_filename".toList, false⟩]

/-- bin/ABXrun.py 75-135 -/
def runParser : Parser where
  opts := [helpOpt,
    ⟨["--taskfile".toList], .one, "taskfile".toList, false, false⟩,
    ⟨["--distancefile".toList], .one, "distancefile".toList, false, false⟩,
    ⟨["--analyzefile".toList], .one, "analyzefile".toList, false, false⟩,
    ⟨["--scorefile".toList], .one, "scorefile".toList, false, false⟩,
    ⟨["--distance".toList], .one, "distance".toList, false, false⟩,
    ⟨["--name".toList], .one, "name".toList, false, false⟩]
  pos := [⟨"itemfile".toList, false⟩, ⟨"featurefile".toList, false⟩, ⟨"config".toList, false⟩]

/-! ### what the programs do with the values -/

/-- the value of an argument that has one -/
def single (ns : List (Text × List Text)) (d : String) : Option Text := (ns.lookup d.toList).bind List.head?

/-- the values of an argument with `nargs='+', default=[]` -/
def several (ns : List (Text × List Text)) (d : String) : List Text := (ns.lookup d.toList).getD []

/-- the arguments of `Task` and of `generate_triplets` or `print_stats` in `main`, ABXpy/task.py 1352-1371, and the file that is removed before (1347-1349) -/
structure TaskCall where
  database : Text
  on : Text
  across : List Text
  by_ : List Text
  filters : List Text
  regressors : List Text
  verbose : Bool
  statsOnly : Bool
  output : Option Text
  threshold : Option Int
  tempdir : Option Text
  seed : Option Int
  deriving DecidableEq

/-- ABXpy/task.py 1352-1371; none if an argument that must be given is missing, which does not happen after `parse`; `int` is `int` of texts -/
def taskCall (int : Text → Option Int) (ns : List (Text × List Text)) : Option TaskCall := do
  let database ← single ns "database"
  let on ← single ns "on"
  return { database := database, on := on, across := several ns "across", by_ := several ns "by", filters := several ns "filters", regressors := several ns "regressors",
           verbose := (ns.lookup "verbose".toList).isSome, statsOnly := (ns.lookup "stats_only".toList).isSome, output := single ns "output",
           threshold := (single ns "threshold").bind int, tempdir := single ns "tempdir", seed := (single ns "seed").bind int }

/-- the words of a call of task.py -/
def taskLine (int : Text → Option Int) (argv : List Text) : Except Exit (Option TaskCall) :=
  (parse taskParser (fun t => (int t).isSome) argv).map (taskCall int)

/-- the arguments of `run` in `main`, ABXpy/distance.py 145-146 -/
structure DistanceCall where
  features : Text
  task : Text
  output : Text
  normalized : Option Int
  distance : Option Text
  njobs : Int
  group : Text
  deriving DecidableEq

/-- ABXpy/distance.py 135-146: none as above; the end by `sys.exit` (141-142) is the inner none -/
def distanceCall (int : Text → Option Int) (ns : List (Text × List Text)) : Option (Option DistanceCall) := do
  let features ← single ns "features"
  let task ← single ns "task"
  let output ← single ns "output"
  if single ns "distance" = none ∧ (single ns "normalization").bind int = none then return none
  else return some { features := features, task := task, output := output, normalized := (single ns "normalization").bind int, distance := single ns "distance",
                     njobs := ((single ns "njobs").bind int).getD 1, group := (single ns "group").getD "features".toList }

/-- the words of a call of distance.py -/
def distanceLine (int : Text → Option Int) (argv : List Text) : Except Exit (Option (Option DistanceCall)) :=
  (parse distanceParser (fun t => (int t).isSome) argv).map (distanceCall int)

/-- the arguments of `score` in `main`, ABXpy/score.py 143: the task, the distances, the scores -/
def scoreLine (argv : List Text) : Except Exit (Option (Text × Text × Option Text)) :=
  (parse scoreParser (fun _ => false) argv).map (fun ns => do return (← single ns "task", ← single ns "distance", single ns "score"))

/-- the arguments of `analyze` in `main`, ABXpy/analyze.py 188-207: the task, the scores, the results -/
def analyzeLine (argv : List Text) : Except Exit (Option (Text × Text × Text)) :=
  (parse analyzeParser (fun _ => false) argv).map (fun ns => do return (← single ns "taskfile", ← single ns "scorefile", ← single ns "output"))

/-- the arguments of `check`, ABXpy/verify.py 71-73: the items, the features -/
def verifyLine (argv : List Text) : Except Exit (Option (Text × Text)) :=
  (parse verifyParser (fun _ => false) argv).map (fun ns => do return (← single ns "item", ← single ns "features"))

/-- the arguments of `convert`, ABXpy/misc/any2h5features.py 91: the folder, the file -/
def convertLine (argv : List Text) : Except Exit (Option (Text × Text)) :=
  (parse convertParser (fun _ => false) argv).map (fun ns => do return (← single ns "folder", ← single ns "h5_filename"))

/-- the dictionary `args` of `main`, bin/ABXrun.py 135-141, without the missing values -/
def runLine (argv : List Text) : Except Exit (List (Text × List Text)) := parse runParser (fun _ => false) argv

end ABX.Argparse
