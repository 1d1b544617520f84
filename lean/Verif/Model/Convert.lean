import Verif.Model.Database
/-!
Model of ABXpy/misc/any2h5features.py, `any_to_h5features` (lines 19-59) and `convert` (lines 62-80).

`load` gives, for a path, the arrays of a file by name, or raises.  `h5features.write` is a parameter `w` that maps the state of the output
and a batch to a new state or an error; a batch is a list of (name, times, features).  The result is the state of the output at the end, and
the error that stopped the conversion if there is one.
-/
namespace ABX.Convert
open Database (Text splitext)

/-- name, times, features -/
abbrev Rec (α : Type) := Text × α × α

/-- the arrays of a file by name -/
abbrev Data (α : Type) := String → Option α

/-- state of the output, and the error that ended the program -/
abbrev Res (σ : Type) := σ × Option Err

/-- `os.path.join(path, f)` (posix) -/
def joinPath (path f : Text) : Text :=
  match f.head? with
  | some '/' => f
  | _ => match path.getLast? with
    | none => f
    | some '/' => path ++ f
    | some _ => path ++ '/' :: f

/-- lines 51-54: `data['features']` is read before `data['time']`; a name that is missing raises `KeyError` -/
def read (load : Text → Except Err (Data α)) (path f : Text) : Except Err (Rec α) :=
  match load (joinPath path f) with
  | .error e => .error e
  | .ok d => match d "features" with
    | none => .error .keyError
    | some x => match d "time" with
      | none => .error .keyError
      | some t => .ok ((splitext f).1, t, x)

/-- the loop of lines 44-54 and lines 55-57: counter, buffer and remaining files (`features.append` comes before the failing
`data['time']`, but the buffer is then lost) -/
def loop (w : σ → List (Rec α) → Except Err σ) (load : Text → Except Err (Data α)) (path : Text) (batch : Int) :
    Int → List (Rec α) → σ → List Text → Res σ
  | _, buf, s, [] =>
    if buf = [] then (s, none)                                     -- line 55
    else match w s buf with                                         -- lines 56-57
      | .error e => (s, some e)
      | .ok s' => (s', none)
  | i, buf, s, f :: fs =>
    if i = batch then match w s buf with                             -- lines 45-47
      | .error e => (s, some e)
      | .ok s' => match read load path f with
        | .error e => (s', some e)
        | .ok r => loop w load path batch 1 [r] s' fs                -- lines 48-54
    else match read load path f with
      | .error e => (s, some e)
      | .ok r => loop w load path batch (i + 1) (buf ++ [r]) s fs

/-- `any_to_h5features`, lines 19-59 -/
def anyToH5 (w : σ → List (Rec α) → Except Err σ) (load : Text → Except Err (Data α)) (path : Text) (files : List Text) (batch : Int) (s : σ) : Res σ :=
  loop w load path batch 0 [] s files

/-- a write that records the batches it is given -/
def trace (s : List (List (Rec α))) (b : List (Rec α)) : Except Err (List (List (Rec α))) := .ok (s ++ [b])

/-- `h5features.write` on a file, as far as names are concerned: names that occur twice in the batch or are in the file already raise
`IOError`, otherwise the batch is appended -/
def append [DecidableEq α] (s : List (Rec α)) (b : List (Rec α)) : Except Err (List (Rec α)) :=
  if (b.map (·.1)).Nodup ∧ ∀ r ∈ b, r.1 ∉ s.map (·.1) then .ok (s ++ b) else .error .ioError

end ABX.Convert
