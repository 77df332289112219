import Verif.Model.Main
import Verif.Model.Load
import Verif.Model.Read
import Verif.Model.JsonText

/- The command and the disk it works on: /repo/cmd/oapi/main.go with /repo/oapi.go Scan, reading its configuration
(internal/oapi/config/config.go) and specifications (internal/oapi/scan/specs/scan.go, internal/container/container.go) from the files that
it also writes.  Nothing new is modelled here: the models of the parts are put together, so that the files one run leaves are those the next one finds. -/
namespace Oapi.System
open Main

/-- The files on disk, with their contents. -/
abbrev Disk := Str → Option Str

/-- What does not change between runs: the working directory, directories, the decoders, the Go toolchain (`packages` gives the packages loaded from a
directory with their sources, `mods` their modules; both may look at the disk) and loggers.  Of `packages` everything but the spec files and what the
options set is used.  The order in which Go iterates the mappings of a YAML file is fixed here (it does not matter unless two keys print alike, C82). -/
structure World (F L : Type) where
  wd : Str
  dirs : Str → Bool
  names : Disk → Str → List Str
  globMeta : Disk → Str → Res (List Str)
  matchOther : Str → Str → Bool
  yaml : Str → Option (List (Str × Read.Yaml))
  sprintOther : Nat → Str
  text : JsonText.Env
  spec : SpecJson.Env
  gopath : Str
  packages : Disk → Str → Scan.Input F
  mods : Disk → Str → Nat → Option Read.Module
  void : L
  logger : L

/-- What differs between runs: the orders in which Go iterates its maps, the depth of recursion that is available, which of their possible
texts the encoders make of a document, and what fails when the output is written. -/
structure Chance where
  orders : Scan.Orders
  depth : Nat
  yaml : Json → Res Str
  json : Json → Res Str
  pretty : Json → Res Str
  faults : Cli.Faults

variable {F L : Type}

/-- The file system. -/
def fsOf (w : World F L) (disk : Disk) : Read.FS where
  lstat p := w.dirs p || (disk p).isSome
  names := w.names disk
  content := disk
  globMeta := w.globMeta disk
  matchOther := w.matchOther
  json := JsonText.unmarshalMap w.text.numOf
  yaml := w.yaml
  sprintOther := w.sprintOther

/-- `os.Stat` fails because there is nothing (internal/pkgutil/info.go:24). -/
def missing (w : World F L) (disk : Disk) (p : Str) : Bool := !(fsOf w disk).lstat p

/-- The document of `container.ReadFile`. -/
def readDoc (fs : Read.FS) (p : Str) : Res Json :=
  match Read.readFile fs p with
  | .ok f => .ok f.doc
  | .err e => .err e
  | .panic => .panic

/-- What `Scan` (oapi.go:116-205) works on with these options: the packages loaded from the directory (133-141), their spec files
(specs/scan.go:26-35; numbers that are no package have none) and the options (119-128). -/
def inputOf (w : World F L) (disk : Disk) (x : Options L) : Scan.Input F :=
  let dir := x.path w.wd
  let inp := w.packages disk dir
  { inp with
    files := fun p => match inp.heap[p]? with
      | some pkg => Read.pkgFiles (fsOf w disk) w.gopath (missing w disk) pkg.path (w.mods disk dir p)
      | none => .ok []
    override := x.override
    defops := x.defops
    root := x.root }

/-- The machine of a run. -/
def machine (w : World F L) (disk : Disk) (ch : Chance) : Machine L where
  wd := w.wd
  load := Load.readFile w.spec (readDoc (fsOf w disk))
  scan := fun x => Scan.scan (inputOf w disk x) ch.orders ch.depth
  yaml := ch.yaml
  json := ch.json
  pretty := ch.pretty
  void := w.void
  logger := w.logger
  faults := ch.faults
  files := disk

/-- A run of the command. -/
def run (w : World F L) (ff : Cli.Flags) (nolog : Bool) (disk : Disk) (ch : Chance) : Run := main (machine w disk ch) ff nolog

/-- The disk after any number of runs. -/
def runs (w : World F L) (ff : Cli.Flags) (nolog : Bool) (disk : Disk) (chs : List Chance) : Disk :=
  chs.foldl (fun d ch => (run w ff nolog d ch).files) disk

end Oapi.System
