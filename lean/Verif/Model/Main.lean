import Verif.Model.Cli
import Verif.Model.Format
import Verif.Model.Scan

/- Model of the options of /repo/oapi.go (41-115), of /repo/cmd/oapi/scan.go and of the whole of /repo/cmd/oapi/main.go. -/
namespace Oapi.Main
open Cli

/-! ### Options -/

/-- The type `Options`, oapi.go:45-51.  Schemas, operations and the root document are JSON, a nil map is the empty one; `L` is the
type of loggers and `none` the nil logger. -/
structure Options (L : Type) where
  dir : Option Str := none
  log : Option L := none
  override : List (Str × Json) := []
  defops : List (Str × Json) := []
  root : Json := .obj []

/-- The options, oapi.go:66-112. -/
inductive Opt (L : Type) where
  | withDir (dir : Str)
  | withLog (l : Option L)
  | withOverride (o : List (Str × Json))
  | withDefOps (d : List (Str × Json))
  | withRootSchema (r : Json)

section
variable {L : Type}

/-- Applying an option, oapi.go:69-112; none of them fails.  `WithLog` (77-85) first sets the void logger if `l` is nil and then
overwrites it with `l` in any case. -/
def apply (void : L) (r : Options L) : Opt L → Options L
  | .withDir d => { r with dir := some d }
  | .withLog l =>
    let r := if l.isNone then { r with log := some void } else r
    { r with log := l }
  | .withOverride o => { r with override := o }
  | .withDefOps d => { r with defops := d }
  | .withRootSchema x => { r with root := x }

/-- The loop at the beginning of Scan, oapi.go:117-126. -/
def build (void : L) (os : List (Opt L)) : Options L := os.foldl (apply void) {}

/-- `Options.path`, oapi.go:53-64, with the working directory. -/
def Options.path (o : Options L) (wd : Str) : Str := o.dir.getD wd
end

/-! ### /repo/cmd/oapi/scan.go -/

/-- The type `config.Config`, config.go:11-71; the parts that are copied as they are are JSON. -/
structure Config where
  base : Cfg := {}
  extends_ : Str := []
  version : Str := []
  openapi : Str := []
  exclude : List Str := []
  info : Option Json := none
  servers : Option Json := none
  security : Option Json := none
  tags : Option Json := none
  externalDocs : Option Json := none
  components : Option Json := none
  overrides : List (Str × Json) := []
  operations : List (Str × Json) := []

/-- The document of the `spec.OpenAPI` built in scan.go:31-38 (openapi.go:4-43: all members have the option `omitempty`); `openapi` and
`paths` are not set. -/
def rootOf (c : Config) : Json :=
  .obj (Scan.present [(b!"components", c.components), (b!"externalDocs", c.externalDocs), (b!"info", c.info),
    (b!"security", c.security), (b!"servers", c.servers), (b!"tags", c.tags)])

/-- The options `scan` passes, scan.go:12-39. -/
def cmdOptions {L : Type} (log : L) (c : Config) : List (Opt L) :=
  [.withLog (some log)]
  ++ (if c.base.dir.length > 0 then [.withDir c.base.dir] else [])
  ++ (if c.overrides.length > 0 then [.withOverride c.overrides] else [])
  ++ (if c.operations.length > 0 then [.withDefOps c.operations] else [])
  ++ [.withRootSchema (rootOf c)]

/-! ### /repo/cmd/oapi/main.go -/

/-- `Config.full`, cmd/oapi/config.go:64-119, with all settings: `Cli.full` for the ones it changes. -/
def fullConfig (wd : Str) (load : Str → Config × Bool) (ff : Flags) : Config × Bool :=
  let r : Config × Bool := if ff.config ≠ [] then load (toAbsPath ff.config wd) else ({}, true)
  ({ r.1 with base := (full wd (fun p => ((load p).1.base, (load p).2)) ff).1 }, r.2)

/-- How a process ends: by returning from `main` (status 0) or by a panic (status 2). -/
inductive Exit where
  | returns
  | panics
  deriving DecidableEq, Repr

/-- What the process meets: the file system, the configuration files, the library. -/
structure Machine (L : Type) where
  wd : Str
  load : Str → Config × Bool
  scan : Options L → Scan.Outcome
  yaml : Json → Res Str
  json : Json → Res Str
  pretty : Json → Res Str
  void : L
  logger : L
  faults : Faults
  files : Str → Option Str

/-- What the process leaves: how it ends, what it wrote to stdout and stderr (besides log messages), the levels of the messages
it logged, and the files. -/
structure Run where
  exit : Exit
  stdout : Str := []
  stderr : Str := []
  logs : List Level
  files : Str → Option Str

/-- The data after `Format`, main.go:57-60: nil if it failed. -/
def dataOf : Res Str → Str
  | .ok s => s
  | _ => []

/-- main.go:64-83: the destination and the copy; `logs` are the messages so far.  A failing `os.Remove` (also because there is
no old file), `os.OpenFile` or `io.Copy` is logged. -/
def output (faults : Faults) (files : Str → Option Str) (dest : Dest) (data : Str) (logs : List Level) : Run :=
  match dest with
  | .stdout => { exit := .returns, stdout := data, logs := logs, files := files }
  | .stderr => { exit := .returns, stderr := data, logs := logs, files := files }
  | .file p =>
    { exit := .returns
      logs := logs ++ (if faults.removes ∧ (files p).isSome then [] else [Level.fatal]) ++ (if faults.opens then [] else [Level.fatal])
        ++ (if faults.opens ∧ data.length ≤ faults.written then [] else if data = [] then [] else [Level.fatal])
      files := fun q => if q = p then writeFile faults data (files p) else files q }

/-- `main`, main.go:16-84, after the flags; `nolog` is the flag `--loglevel nolog`, which is the default.  `logging.Fatal`
(logging.go:92-94) only logs.  A scan that fails leaves the zero OAPI, whose document is nil. -/
def main {L : Type} (m : Machine L) (ff : Flags) (nolog : Bool) : Run :=
  let log := if nolog then m.void else m.logger
  let c := fullConfig m.wd m.load ff
  let l₁ := if c.2 then [] else [Level.fatal]
  match m.scan (build m.void (cmdOptions log c.1)) with
  | .panic => { exit := .panics, logs := l₁, files := m.files }
  | .ret doc err =>
    let l₂ := l₁ ++ (if err.isSome then [Level.fatal] else [])
    let d := doc.getD .null
    match Format.format (m.yaml d) (m.json d) (m.pretty d) c.1.base.format with
    | .panic => { exit := .panics, logs := l₂, files := m.files }
    | .ok s => output m.faults m.files (dest c.1.base.output) s l₂
    | .err _ => output m.faults m.files (dest c.1.base.output) [] (l₂ ++ [Level.fatal])

end Oapi.Main
