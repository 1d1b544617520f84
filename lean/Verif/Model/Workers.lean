import Verif.Model.Distances
/-!
Model of the concurrent execution of the jobs: ABXpy/distances/distances.py, `run_distance_job` lines 150-275, `compute_distances` lines 282-328 and the
creation of the output file, lines 63-66.

Every job is a sequential process whose atomic steps are: loading the features, acquiring the lock, reading a block, releasing, computing, acquiring,
writing, releasing.  A step of the system is a step of one process, or the death of one process at any point (an error of the operating system, a
signal), or a step of the calling process.  `multiprocessing.Pool` gives the jobs to `n_cpu` processes, one of which may run several jobs: its executions
are among those modelled.  The lock (`multiprocessing.Manager().Lock()`) is not released when a process raises an exception: there is no `with` or
`try/finally`.  A process that dies while it writes may leave any part of the block written.  Damage to the structure of the HDF5 file is not modelled.
-/
namespace ABX.Distances
open ExtSort Task Pairs
variable {ρ φ δ : Type}

/-- what a process knows of the block being treated, lines 204-212: items, first row, base, pairs -/
abbrev Loaded (ρ : Type) := List ρ × Nat × Nat × List Int

/-- where a process is in `run_distance_job` -/
inductive Phase (ρ δ : Type) where
  | start                                       -- lines 153-171
  | ready                                       -- before the first acquire of the next block, line 203
  | reading                                     -- lines 204-212
  | read (r : Loaded ρ)                         -- before release, line 214
  | loaded (r : Loaded ρ)                       -- lines 216-269
  | computed (r : Loaded ρ) (dis : List δ)      -- before the second acquire, line 271
  | writing (r : Loaded ρ) (dis : List δ)       -- lines 272-273
  | written                                     -- before release, line 275
  | failed (e : Err)                            -- an exception was raised
  | dead                                        -- killed

structure Worker (ρ δ : Type) where
  todo : List Block                             -- the current block is the first one
  phase : Phase ρ δ

/-- the calling process, lines 307-328 -/
inductive Main where
  | running | marking | returned | raised (e : Err)
  deriving DecidableEq

structure State (ρ δ : Type) where
  lock : Option Nat                             -- the process that holds the lock
  ws : List (Worker ρ δ)
  rows : List δ                                 -- distances/data
  done : Bool                                   -- attribute of the distance file
  main : Main

/-- is the process between an acquire and the following release? -/
def Phase.critical : Phase ρ δ → Bool
  | .reading => true
  | .read _ => true
  | .writing _ _ => true
  | .written => true
  | _ => false

/-- `acquire`, when there is a lock: only when it is free -/
def acquire (sync : Bool) (i : Nat) (lock : Option Nat) : Option (Option Nat) :=
  if sync then (if lock = none then some (some i) else none) else some lock

/-- `release` -/
def release (sync : Bool) (lock : Option Nat) : Option Nat := if sync then none else lock

/-- a step of process number `i`: new lock, process and rows; `none` when it has to wait or has ended.  `load` is the reading of the feature files. -/
def stepWorker (I : Inputs ρ φ δ) (load : Except Err Unit) (sync : Bool) (i : Nat) (lock : Option Nat) (w : Worker ρ δ) (rows : List δ) :
    Option (Option Nat × Worker ρ δ × List δ) :=
  match w.phase, w.todo with
  | .start, bs => match load with
    | .error e => some (lock, ⟨bs, .failed e⟩, rows)
    | .ok _ => some (lock, ⟨bs, .ready⟩, rows)
  | .ready, b :: bs => match acquire sync i lock with
    | none => none
    | some lock => some (lock, ⟨b :: bs, .reading⟩, rows)
  | .reading, b :: bs => match readBlock I b with
    | .error e => some (lock, ⟨b :: bs, .failed e⟩, rows)
    | .ok r => some (lock, ⟨b :: bs, .read r⟩, rows)
  | .read r, bs => some (release sync lock, ⟨bs, .loaded r⟩, rows)
  | .loaded r, bs => match computeBlock I r.1 r.2.2.1 r.2.2.2 with
    | .error e => some (lock, ⟨bs, .failed e⟩, rows)
    | .ok dis => some (lock, ⟨bs, .computed r dis⟩, rows)
  | .computed r dis, bs => match acquire sync i lock with
    | none => none
    | some lock => some (lock, ⟨bs, .writing r dis⟩, rows)
  | .writing r dis, b :: bs => match h5Assign rows (r.2.1 + b.start) (r.2.1 + b.stop) dis with
    | .error e => some (lock, ⟨b :: bs, .failed e⟩, rows)
    | .ok rows => some (lock, ⟨b :: bs, .written⟩, rows)
  | .written, _ :: bs => some (release sync lock, ⟨bs, .ready⟩, rows)
  | _, _ => none

/-- has the job ended, normally or with an exception?  (A pool waits forever for the job of a process that was killed.) -/
def Worker.ended (w : Worker ρ δ) : Bool :=
  match w.phase, w.todo with
  | .ready, [] => true
  | .failed _, _ => true
  | _, _ => false

/-- the exception raised by a job -/
def Worker.exception (w : Worker ρ δ) : Option Err :=
  match w.phase with
  | .failed e => some e
  | _ => none

/-- a step of process number `i` -/
def advance (I : Inputs ρ φ δ) (load : Except Err Unit) (sync : Bool) (i : Nat) (s : State ρ δ) : Option (State ρ δ) :=
  match s.ws[i]? with
  | none => none
  | some w => match stepWorker I load sync i s.lock w s.rows with
    | none => none
    | some (lock, w, rows) => some { s with lock := lock, ws := s.ws.set i w, rows := rows }

/-- what a process killed while writing may leave in the file: some of the rows of its block are written -/
def Torn (w : Worker ρ δ) (rows rows' : List δ) : Prop :=
  match w.phase, w.todo with
  | .writing r dis, b :: _ => ∃ new, h5Assign rows (r.2.1 + b.start) (r.2.1 + b.stop) dis = .ok new ∧ rows'.length = rows.length ∧
      ∀ k : Nat, rows'[k]? = rows[k]? ∨ rows'[k]? = new[k]?
  | _, _ => rows' = rows

/-- the calling process, lines 308-328: with a pool, it returns once the jobs have ended, with an exception when one has failed (`sync`); without, it
goes on with the attribute `done` -/
def stepMain (sync : Bool) (s : State ρ δ) : Option (State ρ δ) :=
  match s.main with
  | .running =>
    if s.ws.all Worker.ended then
      match s.ws.findSome? Worker.exception with
      | some e => some { s with main := .raised e }
      | none => some { s with main := if sync then .returned else .marking }
    else none
  | .marking => some { s with done := true, main := .returned }              -- lines 327-328
  | _ => none

/-- the steps of the system -/
inductive Step (I : Inputs ρ φ δ) (load : Except Err Unit) (sync : Bool) : State ρ δ → State ρ δ → Prop
  | work {s s'} (i : Nat) (h : advance I load sync i s = some s') : Step I load sync s s'
  | kill {s : State ρ δ} (i : Nat) (w : Worker ρ δ) (rows' : List δ) (hw : s.ws[i]? = some w) (h : Torn w s.rows rows') :
      Step I load sync s { s with ws := s.ws.set i ⟨w.todo, .dead⟩, rows := rows' }
  | main {s s'} (h : stepMain sync s = some s') : Step I load sync s s'

/-- the executions: any sequence of steps -/
inductive Steps (I : Inputs ρ φ δ) (load : Except Err Unit) (sync : Bool) : State ρ δ → State ρ δ → Prop
  | refl {s} : Steps I load sync s s
  | step {s s' s''} (h : Steps I load sync s s') (h' : Step I load sync s' s'') : Steps I load sync s s''

/-- the state when the jobs start: `zero` is the fill value of the dataset -/
def begin (zero : δ) (n : Nat) (jobs : List (List Block)) : State ρ δ :=
  { lock := none, ws := jobs.map (fun j => ⟨j, .start⟩), rows := List.replicate n zero, done := false, main := .running }

/-- lines 63-66 on a distance file: attribute `done` and rows, if any; the group can not be created twice (`ValueError` of h5py).  The file after the
call, and the exception if any. -/
def createOutput (zero : δ) (n : Nat) : Option (Bool × List δ) → (Bool × List δ) × Except Err Unit
  | none => ((false, List.replicate n zero), .ok ())
  | some (_, rows) => ((false, rows), .error .valueError)

end ABX.Distances
