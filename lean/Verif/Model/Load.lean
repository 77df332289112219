import Verif.Model.Main
import Verif.Model.SpecJson

/- Model of /repo/internal/oapi/config/config.go ReadFile (105-114) with the decoding of the document into `config.Config` (11-71), and of
the root document /repo/cmd/oapi/scan.go (31-38) builds from it. -/
namespace Oapi.Load
open SpecJson Main Cli

/-- A string field. -/
def textOf : Val → Str
  | .text s => s
  | _ => []

/-- A field whose value is used as JSON; none if it is empty (the fields of `spec.OpenAPI` have `omitempty`).  A value that cannot be
encoded is taken for an empty one; in the code this fails later, in `MergeWithRoot` (internal/oapi/oapi.go:104-107), see `root`. -/
def part (env : Env) (v : Val) : Option Json :=
  if isEmpty v then none
  else match encode env v with
    | .ok j => some j
    | _ => none

/-- A map whose values are used as JSON.  An entry that cannot be encoded is left out; in the code this fails when the entry is used. -/
def table (env : Env) (v : Val) : List (Str × Json) :=
  (entries v).filterMap fun e => match encode env e.2 with
    | .ok j => some (e.1, j)
    | _ => none

/-- The configuration with the fields `g` of a `config.Config`, config.go:11-71. -/
def toConfig (env : Env) (g : Str → Val) (filePath : Str) : Config where
  base := { filePath := filePath, dir := textOf (g b!"dir"), format := textOf (g b!"format"), output := textOf (g b!"output") }
  extends_ := textOf (g b!"extends")
  version := textOf (g b!"version")
  openapi := textOf (g b!"openapi")
  exclude := (elems (g b!"exclude")).map textOf
  info := part env (g b!"info")
  servers := part env (g b!"servers")
  security := part env (g b!"security")
  tags := part env (g b!"tags")
  externalDocs := part env (g b!"externalDocs")
  components := part env (g b!"components")
  overrides := table env (g b!"overrides")
  operations := table env (g b!"operations")

/-- The fields of the configuration and how decoding went, config.go:114: `json.Unmarshal` into a new `Config`. -/
def unmarshal (env : Env) (doc : Json) : (Str → Val) × St :=
  let r := decode env (.struct .config) (zero (.struct .config)) doc
  (fieldsOf r.1, r.2)

/-- `ReadFile`, config.go:105-120: the configuration and whether there was no error; after an error the fields that were decoded are kept and
`FilePath` is not set.  (`read` is `container.ReadFile`; `Cli.readDoc` panics only if `read` does.) -/
def readFile (env : Env) (read : Str → Res Json) (file : Str) : Config × Bool :=
  match readDoc read file with
  | .ok doc =>
    let r := unmarshal env doc
    if r.2 = .ok then (toConfig env r.1 file, true) else (toConfig env r.1 [], false)
  | _ => (toConfig env (newStruct .config) [], false)

/-- The members of the root document, cmd/oapi/scan.go:31-38. -/
def rootMembers : List Str := [b!"info", b!"servers", b!"components", b!"security", b!"tags", b!"externalDocs"]

/-- The root document as `MergeWithRoot` makes it (`container.Make(root)`), from the fields of the configuration. -/
def root (env : Env) (g : Str → Val) : Res Json :=
  encode env (.struct .openapi fun m => if m ∈ rootMembers then g m else newStruct .openapi m)

end Oapi.Load
