import Verif.Model.System
import Verif.Spec.Prepare
import Verif.Spec.Read

/-! Vocabulary for repeated runs of the command (C100, C101). -/
namespace Oapi.Spec
open Scan (Input Orders Prepared prepare)
open System

variable {F L : Type}

/-- An input that meets the conditions of C65: one document comes out of every scan. -/
structure Settled (inp : Input F) (o : Orders) (pre : Prepared) : Prop where
  input : InputOK inp
  schemas : SchemasOK inp
  orders : OrdersOK inp o
  prepared : prepare inp o = .ok pre
  resolvable : Resolvable inp o pre
  shortest : OneShortest inp.prog.env pre.points
  defaults : DefaultsOK inp pre.doc

/-- The settings of a run over a disk. -/
def settings (w : World F L) (disk : Disk) (ff : Cli.Flags) : Main.Config × Bool :=
  Main.fullConfig w.wd (Load.readFile w.spec (readDoc (fsOf w disk))) ff

/-- The options it passes to the library. -/
def options (w : World F L) (disk : Disk) (ff : Cli.Flags) (nolog : Bool) : Main.Options L :=
  Main.build w.void (Main.cmdOptions (if nolog then w.void else w.logger) (settings w disk ff).1)

/-- What its scan works on. -/
def scanInput (w : World F L) (disk : Disk) (ff : Cli.Flags) (nolog : Bool) : Input F := inputOf w disk (options w disk ff nolog)

/-- Where its output goes, and in which format. -/
def outputOf (w : World F L) (disk : Disk) (ff : Cli.Flags) : Str := (settings w disk ff).1.base.output
def formatOf (w : World F L) (disk : Disk) (ff : Cli.Flags) : Str := (settings w disk ff).1.base.format

/-- The disk with another content of a file (or without it). -/
def put (disk : Disk) (p : Str) (t : Option Str) : Disk := fun q => if q = p then t else disk q

/-- The files a run reads its settings from: the one given, and the one that one extends. -/
inductive ConfigFile (w : World F L) (disk : Disk) (ff : Cli.Flags) : Str → Prop where
  | given : ff.config ≠ [] → ConfigFile w disk ff (Cli.toAbsPath ff.config w.wd)
  | base {f m p} : ff.config ≠ [] → Read.readFile (fsOf w disk) (Cli.toAbsPath ff.config w.wd) = .ok f → f.doc = .obj m →
      Obj.lookup b!"extends" m = some (.str p) →
      ConfigFile w disk ff (if Cli.isAbs p then p else Cli.join2 (Cli.dirOf (Cli.toAbsPath ff.config w.wd)) p)

/-- The directory of package number `p` of the scan. -/
def PackageDir (w : World F L) (disk : Disk) (ff : Cli.Flags) (nolog : Bool) (p : Nat) (dir : Str) : Prop :=
  PkgDirIs w.gopath (missing w disk) (Scan.pathOf (scanInput w disk ff nolog).heap p)
    (w.mods disk ((options w disk ff nolog).path w.wd) p) dir ∧ NoPattern dir

/-- The output is a file, which is neither a file the settings are read from nor one that matters to the Go toolchain (nor a scanned directory). -/
structure SeparateOutput (w : World F L) (disk : Disk) (ff : Cli.Flags) (nolog : Bool) : Prop where
  file : outputOf w disk ff ≠ [] ∧ outputOf w disk ff ≠ b!"stdout" ∧ outputOf w disk ff ≠ b!"stderr"
  config : ¬ ConfigFile w disk ff (outputOf w disk ff)
  packages : ∀ t dir, w.packages (put disk (outputOf w disk ff) t) dir = w.packages disk dir ∧
    ∀ p, w.mods (put disk (outputOf w disk ff) t) dir p = w.mods disk dir p
  dirs : ∀ p, Visited (scanInput w disk ff nolog) p → ∃ dir, PackageDir w disk ff nolog p dir ∧ dir ≠ outputOf w disk ff

/-- The output is no specification file of a scanned package. -/
def NotASpec (w : World F L) (disk : Disk) (ff : Cli.Flags) (nolog : Bool) : Prop :=
  ∀ p dir, Visited (scanInput w disk ff nolog) p → PackageDir w disk ff nolog p dir → ∀ n ∈ specNames, dir ++ b!"/" ++ n ≠ outputOf w disk ff

/-- The output is the file `oapi.json` of scanned package `p` (and of no other one), which is not there at first. -/
structure OwnSpec (w : World F L) (disk : Disk) (ff : Cli.Flags) (nolog : Bool) (p : Nat) (dir : Str) : Prop where
  visited : Visited (scanInput w disk ff nolog) p
  place : PackageDir w disk ff nolog p dir
  output : outputOf w disk ff = dir ++ b!"/" ++ b!"oapi.json"
  absent : disk (outputOf w disk ff) = none ∧ w.dirs (outputOf w disk ff) = false
  only : ∀ q, Visited (scanInput w disk ff nolog) q → PackageDir w disk ff nolog q dir → q = p

end Oapi.Spec
