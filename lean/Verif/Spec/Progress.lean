import Verif.Model.Progress
/-! Specification of a progress display: what is shown after a list of calls. -/
namespace ABX.Spec.Progress
open ABX.Progress
open Database (Text)

/-- the name that a call adds -/
def added : Call → Option String
  | .add n _ _ => some n
  | _ => none

/-- the message and the total of the call, if it adds the name -/
def adds (n : String) : Call → Option (String × Int)
  | .add n' m t => if n' = n then some (m, t) else none
  | _ => none

/-- what the call adds to the count of the name -/
def amount (n : String) : Call → Int
  | .update n' k => if n' = n then k else 0
  | _ => 0

/-- the call is a display -/
def shows : Call → Bool
  | .display => true
  | _ => false

/-- the names added, each once, in the order in which they first were -/
def names (cs : List Call) : List String := (cs.filterMap added).reverse.dedup.reverse

/-- the message and the total given last -/
def last (cs : List Call) (n : String) : Option (String × Int) := cs.reverse.findSome? (adds n)

/-- the sum of the updates since then -/
def count (cs : List Call) (n : String) : Int := ((cs.reverse.takeWhile (fun c => added c != some n)).map (amount n)).sum

/-- the lines shown after the calls -/
def lines (cs : List Call) : Text :=
  (names cs).flatMap (fun n => match last cs n with
    | some (m, t) => line m (count cs n) t
    | none => [])

/-- the text of a display after the calls: on a terminal all but the first begin with an escape sequence -/
def shown (tty : Bool) (cs : List Call) : Text := (if tty && cs.any shows then escape (names cs).length else []) ++ lines cs

/-- the texts of all displays -/
def texts (tty : Bool) (cs : List Call) : List Text :=
  (List.range cs.length).filterMap (fun i => if (cs[i]?).any shows then some (shown tty (cs.take i)) else none)

/-- updates are for names that were added -/
def Known (cs : List Call) : Prop := ∀ i n k, cs[i]? = some (.update n k) → n ∈ names (cs.take i)

/-- the control sequence that moves the cursor of a terminal up by n lines (ECMA-48, 8.3.22: ESC [ n A) -/
def cursorUp (n : Nat) : Text := Char.ofNat 27 :: '[' :: Names.decimal n ++ ['A']

end ABX.Spec.Progress
