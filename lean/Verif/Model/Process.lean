import Verif.Model.Main

/- The command as a process, step by step: /repo/cmd/oapi/main.go:16-84 with its signal handling (21-23, 46-50) and the context passed to
`packages.Load` (/repo/oapi.go:133-141).  `Model/Main` gives what a whole run does; here the process can be stopped between any two steps, signals
arrive at any time and the output is written byte by byte.  Log messages are left out. -/
namespace Oapi.Process
open Main
open Cli (Flags Dest dest)

/-- The goroutine of main.go:46-50: not started, waiting for a signal, or past it. -/
inductive Watcher where
  | absent
  | waiting
  | done
  deriving DecidableEq, Repr

/-- Where `main` is. -/
inductive Pc where
  /-- before `signal.Notify`, main.go:18-21 -/
  | boot
  /-- reading flags and configuration, main.go:24-44 -/
  | config
  /-- in `packages.Load`, oapi.go:133-141 -/
  | loading
  /-- in the rest of `Scan`, and in `Format`; `failed`: `packages.Load` returned an error because of the context -/
  | scanning (failed : Bool)
  /-- before `os.Remove`, main.go:70 -/
  | remove (p data : Str)
  /-- before `os.OpenFile`, main.go:74 -/
  | opening (p data : Str)
  /-- in `io.Copy`, main.go:80, after `n` bytes -/
  | copying (p data : Str) (n : Nat)
  /-- before the deferred `signal.Stop`, main.go:23 -/
  | leaving
  /-- after it: signals are no longer caught -/
  | stopped
  | ended (e : Exit)
  /-- ended by a signal that is not caught -/
  | killed
  deriving DecidableEq, Repr

structure State where
  pc : Pc
  /-- `signal.Notify` is in force -/
  notified : Bool
  /-- a signal is in `sigChan`, which holds one (main.go:21) -/
  pending : Bool
  watcher : Watcher
  cancelled : Bool
  stdout : Str
  stderr : Str
  files : Str → Option Str

variable {L : Type}

/-- The process at its start. -/
def start (m : Machine L) : State :=
  { pc := .boot, notified := false, pending := false, watcher := .absent, cancelled := false, stdout := [], stderr := [], files := m.files }

/-- What `Scan` returns (oapi.go:133-141 if loading failed). -/
def outcome (m : Machine L) (ff : Flags) (nolog failed : Bool) : Scan.Outcome :=
  if failed then .ret none (some .loadErr)
  else m.scan (build m.void (cmdOptions (if nolog then m.void else m.logger) (fullConfig m.wd m.load ff).1))

/-- What is to be written, main.go:57-60: none if `Scan` or `Format` crashes. -/
def dataFor (m : Machine L) (ff : Flags) (nolog failed : Bool) : Option Str :=
  match outcome m ff nolog failed with
  | .panic => none
  | .ret doc _ =>
    match Format.format (m.yaml (doc.getD .null)) (m.json (doc.getD .null)) (m.pretty (doc.getD .null)) (fullConfig m.wd m.load ff).1.base.format with
    | .panic => none
    | r => some (dataOf r)

/-- `files` with another content at `p`. -/
def setFile (files : Str → Option Str) (p : Str) (c : Option Str) : Str → Option Str := fun q => if q = p then c else files q

/-- A byte written at offset `n`. -/
def overwrite (c : Str) (n : Nat) (b : UInt8) : Str := c.take n ++ b :: c.drop (n + 1)

/-- The next step of `main`.  `fail` says whether `packages.Load` returns an error if its context is cancelled before it returns (it may still
succeed); without cancellation it does what it always does. -/
def mainStep (m : Machine L) (ff : Flags) (nolog fail : Bool) (s : State) : Option State :=
  match s.pc with
  | .boot => some { s with pc := .config, notified := true }
  | .config => some { s with pc := .loading, watcher := .waiting }
  | .loading => some { s with pc := .scanning (s.cancelled && fail) }
  | .scanning failed =>
    match dataFor m ff nolog failed with
    | none => some { s with pc := .ended .panics }
    | some data =>
      match dest (fullConfig m.wd m.load ff).1.base.output with
      | .stdout => some { s with pc := .leaving, stdout := data }
      | .stderr => some { s with pc := .leaving, stderr := data }
      | .file p => some { s with pc := .remove p data }
  | .remove p data => some { s with pc := .opening p data, files := if m.faults.removes then setFile s.files p none else s.files }
  | .opening p data =>
    if m.faults.opens then some { s with pc := .copying p data 0, files := setFile s.files p (some ((s.files p).getD [])) }
    else some { s with pc := .leaving }
  | .copying p data n =>
    match data[n]? with
    | none => some { s with pc := .leaving }
    | some b =>
      if n < m.faults.written then
        some { s with pc := .copying p data (n + 1), files := setFile s.files p (some (overwrite ((s.files p).getD []) n b)) }
      else some { s with pc := .leaving }
  | .leaving => some { s with pc := .stopped, notified := false }
  | .stopped => some { s with pc := .ended .returns }
  | .ended _ => none
  | .killed => none

/-- Who acts. -/
inductive Act where
  /-- `main` -/
  | main
  /-- the goroutine, main.go:46-50 -/
  | watcher
  /-- a SIGTERM or an interrupt arrives -/
  | signal
  /-- the machine stops, or a signal that cannot be caught arrives -/
  | kill
  deriving DecidableEq, Repr

/-- The process is over. -/
def over : Pc → Bool
  | .ended _ => true
  | .killed => true
  | _ => false

/-- One step of the process.  A signal is put into `sigChan` if `signal.Notify` is in force (and dropped if the channel is full), else it ends
the process. -/
inductive Step (m : Machine L) (ff : Flags) (nolog : Bool) : Act → State → State → Prop where
  | main {s s' : State} (fail : Bool) : mainStep m ff nolog fail s = some s' → Step m ff nolog .main s s'
  | watcher {s : State} : over s.pc = false → s.watcher = .waiting → s.pending = true →
      Step m ff nolog .watcher s { s with pending := false, watcher := .done, cancelled := true }
  | caught {s : State} : over s.pc = false → s.notified = true → Step m ff nolog .signal s { s with pending := true }
  | uncaught {s : State} : over s.pc = false → s.notified = false → Step m ff nolog .signal s { s with pc := .killed }
  | kill {s : State} : over s.pc = false → Step m ff nolog .kill s { s with pc := .killed }

/-- Any number of steps, with who acted. -/
inductive Steps (m : Machine L) (ff : Flags) (nolog : Bool) : State → List Act → State → Prop where
  | refl {s : State} : Steps m ff nolog s [] s
  | step {s s' s'' : State} {acts : List Act} {a : Act} : Steps m ff nolog s acts s' → Step m ff nolog a s' s'' → Steps m ff nolog s (acts ++ [a]) s''

end Oapi.Process
