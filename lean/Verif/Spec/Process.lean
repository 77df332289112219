import Verif.Model.Process
import Verif.Spec.System

/-! Vocabulary for signals and kills (C103, C104). -/
namespace Oapi.Spec
open Main Process

variable {F L : Type}

/-- The machine whose packages cannot be loaded. -/
def interrupted (m : Machine L) : Machine L := { m with scan := fun _ => .ret none (some .loadErr) }

/-- A process that ended with `e` did what the whole run `r` does. -/
def DidAs (e : Exit) (s : State) (r : Run) : Prop := e = r.exit ∧ s.stdout = r.stdout ∧ s.stderr = r.stderr ∧ s.files = r.files

/-- The disks that runs of the command, complete ones and ones killed anywhere, can leave. -/
inductive Leaves (w : System.World F L) (ff : Cli.Flags) (nolog : Bool) (disk : System.Disk) : System.Disk → Prop where
  | first : Leaves w ff nolog disk disk
  | run {d : System.Disk} {ch : System.Chance} {acts : List Act} {s : State} : Leaves w ff nolog disk d →
      Steps (System.machine w d ch) ff nolog (start (System.machine w d ch)) acts s → Leaves w ff nolog disk s.files

end Oapi.Spec
