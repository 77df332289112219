import Verif.Model.Process

/- Several processes of the command that write the same output file at the same time: the end of `main` (/repo/cmd/oapi/main.go:62-83), over a file
system that keeps a file that was removed for the processes that have it open.  A process is known by the bytes it is going to write; it may stop at any
point.  Simplifications: `os.Remove` fails only if there is nothing, `os.OpenFile` does not fail, and a write that fails is a process that stops; bytes are
written one at a time, which allows all ways in which larger writes can fall between each other. -/
namespace Oapi.Writers
open Process (overwrite)

/-- Where a process is. -/
inductive Pc where
  /-- before `os.Remove`, main.go:70 -/
  | ready
  /-- before `os.OpenFile`, main.go:74 -/
  | removed
  /-- in `io.Copy`, main.go:80: it has written `n` bytes to the file numbered `k` -/
  | copying (k n : Nat)
  /-- after it -/
  | done (k : Nat)
  deriving DecidableEq, Repr

structure State where
  /-- the file that has the output's name -/
  name : Option Nat
  /-- all files that had it, also removed ones -/
  store : List Str
  pc : Nat → Pc
  alive : Nat → Bool

/-- What a reader finds. -/
def State.content (s : State) : Option Str := s.name.bind fun k => s.store[k]?

/-- `f` with another value at `i`. -/
def update {α : Type} (f : Nat → α) (i : Nat) (a : α) : Nat → α := fun j => if j = i then a else f j

/-- No process has begun; `old` is what is there. -/
def start (old : Option Str) : State :=
  { name := old.map fun _ => 0, store := old.toList, pc := fun _ => .ready, alive := fun _ => true }

/-- `os.OpenFile` with `O_RDWR|O_CREATE`: the file of that name, or a new one. -/
def openFile (s : State) : State × Nat :=
  match s.name with
  | some k => (s, k)
  | none => ({ s with name := some s.store.length, store := s.store ++ [[]] }, s.store.length)

/-- A step of process `i`, which writes `text i`. -/
inductive Step (text : Nat → Str) : Nat → State → State → Prop where
  | remove {i s} : s.alive i = true → s.pc i = .ready → Step text i s { s with name := none, pc := update s.pc i .removed }
  | opens {i s} : s.alive i = true → s.pc i = .removed →
      Step text i s { (openFile s).1 with pc := update s.pc i (.copying (openFile s).2 0) }
  | write {i s k n c b} : s.alive i = true → s.pc i = .copying k n → s.store[k]? = some c → (text i)[n]? = some b →
      Step text i s { s with store := s.store.set k (overwrite c n b), pc := update s.pc i (.copying k (n + 1)) }
  | finish {i s k n} : s.alive i = true → s.pc i = .copying k n → (text i).length ≤ n → Step text i s { s with pc := update s.pc i (.done k) }
  | stop {i s} : Step text i s { s with alive := update s.alive i false }

/-- Any number of steps of any processes in any order. -/
inductive Steps (text : Nat → Str) : State → State → Prop where
  | refl {s} : Steps text s s
  | step {s s' s'' i} : Steps text s s' → Step text i s' s'' → Steps text s s''

end Oapi.Writers
