import Verif.Model.OAPI
import Verif.Model.Specs
import Verif.Model.Cmds
import Verif.Model.Pkgs
import Verif.Model.Types
import Verif.Model.Route

/- Model of /repo/oapi.go, Scan (116-205) and newOAPI (34-39): the composition of all stages, and of `container.Make` for
schemas. -/
namespace Oapi.Scan
open Container Types

variable {F : Type}

/-! ### Schemas as documents -/

/-- How numbers are written to JSON and read back: `json.Marshal` fails for the floats that are not `finite`. -/
structure Enc (F : Type) where
  num : F → Json
  int : Int → Json
  finite : F → Bool

/-- A member with the option `omitempty`: a flag. -/
def flag (b : Bool) : Option Json := if b then some (.bool true) else none
/-- A member with the option `omitempty`: a text. -/
def text (s : Str) : Option Json := if s = [] then none else some (.str s)
/-- A member with the option `omitempty`: a list of texts. -/
def texts (l : List Str) : Option Json := if l = [] then none else some (.arr (l.map .str))

/-- The members of `spec.Schema` that the scanner sets, schema.go:8-122 and refable.go:10-14, in the order of their names. -/
def schemaFields (enc : Enc F) (ref : Option Pointer) (a : Attrs F) (items additional oneOf properties : Option Json) : List (Str × Option Json) :=
  [(b!"$ref", ref.map fun p => .str p.toStr),
   (b!"additionalProperties", additional),
   (b!"deprecated", flag a.deprecated),
   (b!"exclusiveMaximum", flag a.exclusiveMaximum),
   (b!"exclusiveMinimum", flag a.exclusiveMinimum),
   (b!"format", text a.format),
   (b!"items", items),
   (b!"maxItems", a.maxItems.map enc.int),
   (b!"maxLength", a.maxLength.map enc.int),
   (b!"maxProperties", a.maxProperties.map enc.int),
   (b!"maximum", a.maximum.map enc.num),
   (b!"minItems", a.minItems.map enc.int),
   (b!"minLength", a.minLength.map enc.int),
   (b!"minProperties", a.minProperties.map enc.int),
   (b!"minimum", a.minimum.map enc.num),
   (b!"multipleOf", a.multipleOf.map enc.num),
   (b!"nullable", flag a.nullable),
   (b!"oneOf", oneOf),
   (b!"pattern", text a.pattern),
   (b!"properties", properties),
   (b!"readOnly", flag a.readOnly),
   (b!"required", texts a.required),
   (b!"type", text a.type),
   (b!"uniqueItems", flag a.uniqueItems),
   (b!"writeOnly", flag a.writeOnly)]

/-- The members that are not omitted. -/
def present : List (Str × Option Json) → Obj
  | [] => []
  | (_, none) :: t => present t
  | (k, some v) :: t => (k, v) :: present t

mutual
/-- What `container.Make` makes of a schema (container.go:38-44, utils.go:50-61): it is written as JSON and read back.
Texts are taken to be valid UTF-8 and pointers printable (see DESIGN.md). -/
def schemaJson (enc : Enc F) (s : Schema F) : Json :=
  match s with
  | .mk ref a items additional oneOf properties =>
    .obj (present (schemaFields enc ref a (schemaOpt enc items) (schemaOpt enc additional)
      (match oneOf with
        | [] => none
        | s :: l => some (.arr (schemaList enc (s :: l))))
      (match properties with
        | [] => none
        | e :: l => some (.obj (schemaProps enc (e :: l))))))
termination_by structural s
def schemaOpt (enc : Enc F) (s : Option (Schema F)) : Option Json :=
  match s with
  | none => none
  | some s => some (schemaJson enc s)
termination_by structural s
def schemaList (enc : Enc F) (l : List (Schema F)) : List Json :=
  match l with
  | [] => []
  | s :: l => schemaJson enc s :: schemaList enc l
termination_by structural l
def schemaProps (enc : Enc F) (l : List (Str × Schema F)) : Obj :=
  match l with
  | [] => []
  | (k, s) :: l => Obj.insert k (schemaJson enc s) (schemaProps enc l)
termination_by structural l
end

def attrFloats (a : Attrs F) : List F := a.multipleOf.toList ++ a.maximum.toList ++ a.minimum.toList

mutual
/-- The floats written in a schema. -/
def floats (s : Schema F) : List F :=
  match s with
  | .mk _ a items additional oneOf properties => attrFloats a ++ floatsO items ++ floatsO additional ++ floatsL oneOf ++ floatsP properties
termination_by structural s
def floatsO (s : Option (Schema F)) : List F :=
  match s with
  | none => []
  | some s => floats s
termination_by structural s
def floatsL (l : List (Schema F)) : List F :=
  match l with
  | [] => []
  | s :: l => floats s ++ floatsL l
termination_by structural l
def floatsP (l : List (Str × Schema F)) : List F :=
  match l with
  | [] => []
  | (_, s) :: l => floats s ++ floatsP l
termination_by structural l
end

/-- `container.Make` of a schema: an error if a number cannot be written. -/
def make (enc : Enc F) (s : Schema F) : Res Json :=
  if (floats s).all enc.finite then .ok (schemaJson enc s) else .err .decode

/-! ### Input -/

/-- What a scan reads: the loaded packages (indices into `heap`, see Model/Pkgs.lean) with their comments, spec files and types, and
the options (Options, oapi.go:45-51) with schemas and operations as JSON. -/
structure Input (F : Type) where
  /-- The import graph; `load` is `packages.Load` (oapi.go:133-141). -/
  heap : Pkgs.Heap
  load : Res (List Nat)
  stdpkg : Str → Bool
  /-- The comment groups of a package. -/
  comments : Nat → List (List Str)
  /-- `pkgutil.GetPkgPath` and `container.ReadDir` for a package (specs/scan.go:26-34). -/
  files : Nat → Res (List File)
  prog : Prog
  tagOf : Str → Res (TagP.Tag F)
  std : Str → Option (Schema F)
  zero : F
  enc : Enc F
  override : List (Str × Json)
  defops : List (Str × Json)
  root : Json
  /-- `route.Match`. -/
  matches_ : Str → Str → Str → Res Bool
  /-- Texts of errors, which are not modelled. -/
  msg : Err → Str

/-- All orders in which Go maps are iterated and all freedom of `sort.Sort`. -/
structure Orders where
  /-- The imports of packages, for each of the three walks (pkgutil/util.go:46-50). -/
  heap₁ : Pkgs.Heap
  heap₂ : Pkgs.Heap
  heap₃ : Pkgs.Heap
  /-- The commands in ExportedComponents (cmds/scan.go:52) and in Pointers (cmds/cmds.go:100-106). -/
  exports : List (Str × List Cmds.Cmd) → List (Str × List Cmds.Cmd)
  commands : List (Str × List Cmds.Cmd) → List (Str × List Cmds.Cmd)
  /-- The references of the `i`-th file of a package (specs/scan.go:48). -/
  refs : Nat → Nat → List (Str × Json) → List (Str × Json)
  /-- `Containers.Sort`, container.go:251-256. -/
  sort : List File → List File
  /-- The pointers, when package `p` is scanned (types/scan.go:44). -/
  pointers : Nat → Pointers → Pointers
  /-- The collected types and the sorting in `pick`, when a pointer of that text is resolved (types/point.go:158-172). -/
  types : Str → PMap → PMap
  pick : Str → Nat → List Pointer → List Pointer
  /-- The references, in the `n`-th call of `iterator` (resolver.go:67). -/
  resolver : Nat → List (Str × Json) → List (Str × Json)
  /-- The operations and the defaults in SetPathsDefaults (oapi/oapi.go:37-97). -/
  ops : List OAPI.Op → List OAPI.Op
  defops : List (Str × Json) → List (Str × Json)

/-! ### The scanners -/

/-- The import path of a package. -/
def pathOf (heap : Pkgs.Heap) (p : Nat) : Str := (heap[p]?.map Pkgs.Package.path).getD []

/-- Assignment to a key of a Go map. -/
def putKey {α : Type} (k : Str) (v : α) : List (Str × α) → List (Str × α)
  | [] => [(k, v)]
  | (k', v') :: t => if k = k' then (k, v) :: t else (k', v') :: putKey k v t

/-- cmds.Scanner (cmds/scan.go:27-46) over all packages. -/
def cmdsScanner (inp : Input F) : Pkgs.Scanner (List (Str × List Cmds.Cmd)) where
  scan st p := match Cmds.scan (pathOf inp.heap p) (inp.comments p) with
    | .ok l => (putKey (pathOf inp.heap p) l st, none)
    | .err e => (st, some (inp.msg e))
    | .panic => (st, none)

/-- specs/scan.go:38-76: one file. -/
def scanFile (ord : List (Str × Json) → List (Str × Json)) (pkg : Str) (f : File) (ps : Pointers) : Res (Option File × Pointers) :=
  if existsP f.doc b!"openapi" = false then .ok (none, ps)
  else match extractKey f.doc b!"$ref" with
    | .err e => .err e
    | .panic => .panic
    | .ok refs => match Specs.scanRefs pkg (ord refs) f.doc ps with
      | .ok (c, ps) => .ok (some { f with doc := c }, ps)
      | .err e => .err e
      | .panic => .panic

/-- specs/scan.go:36-79: the files of a package, from number `i` on. -/
def scanFiles (ord : Nat → List (Str × Json) → List (Str × Json)) (pkg : Str) : Nat → List File → Pointers → Res (List File × Pointers)
  | _, [], ps => .ok ([], ps)
  | i, f :: t, ps => match scanFile (ord i) pkg f ps with
    | .err e => .err e
    | .panic => .panic
    | .ok (f', ps) => match scanFiles ord pkg (i + 1) t ps with
      | .err e => .err e
      | .panic => .panic
      | .ok (l, ps) => .ok (f'.toList ++ l, ps)

/-- specs.Scanner (specs/scan.go:26-79) over all packages: a panic is kept as the state.  After an error the pointers of the failed
package do not matter, since the scan stops. -/
def specsScanner (inp : Input F) (o : Orders) : Pkgs.Scanner (Res (List File × Pointers)) where
  scan st p := match st with
    | .ok (cc, ps) => match inp.files p with
      | .err e => (.ok (cc, ps), some (inp.msg e))
      | .panic => (.panic, none)
      | .ok ff => match scanFiles (o.refs p) (pathOf inp.heap p) 0 ff ps with
        | .ok (l, ps) => (.ok (cc ++ l, ps), none)
        | .err e => (.ok (cc, ps), some (inp.msg e))
        | .panic => (.panic, none)
    | st => (st, none)

/-- types.Scanner (types/scan.go:41-67) over all packages: a panic is kept as the state. -/
def typesScanner (inp : Input F) (o : Orders) (pp : Pointers) : Pkgs.Scanner (Res PMap) where
  scan st p := match st with
    | .ok m => match scanPkg inp.prog (pathOf inp.heap p) ((o.pointers p pp).map Prod.snd) m with
      | .ok m => (.ok m, none)
      | .err e => (.ok m, some (inp.msg e))
      | .panic => (.panic, none)
    | st => (st, none)

/-- Whether the state of a scanner says that it has panicked. -/
class Crashing (σ : Type) where
  crashed : σ → Bool

instance {α : Type} : Crashing (Res α) where
  crashed r := match r with
    | .panic => true
    | _ => false

/-- The scanner of commands never panics. -/
instance {α : Type} : Crashing (List α) where
  crashed _ := false

/-- A call of `pkgutil.Scan` that is followed by a check of its error.  The state of a scanner that has panicked is returned whatever errors
there were: in Go the panic leaves the walk at once, and the errors collected so far (or later, here) are lost. -/
def walk {σ : Type} [Crashing σ] (inp : Input F) (heap : Pkgs.Heap) (roots : List Nat) (fn : Pkgs.Scanner σ) (s : σ) : Res σ :=
  match Pkgs.scan inp.stdpkg heap fn s roots with
  | .ok (st, e) =>
    if Crashing.crashed st.scn then .ok st.scn
    else match e with
      | none => .ok st.scn
      | some _ => .err .loadErr
  | .err e => .err e
  | .panic => .panic

/-- The state is itself a result: a panic inside of the scanner. -/
def flat {α : Type} : Res (Res α) → Res α
  | .ok r => r
  | .err e => .err e
  | .panic => .panic

/-! ### The stages -/

/-- What the stages before the resolution give. -/
structure Prepared where
  exports : List Resolver.Export
  doc : Json
  points : PMap

/-- oapi.go:133-181, up to and including MergeWithRoot. -/
def prepare (inp : Input F) (o : Orders) : Res Prepared := do
  let roots ← inp.load
  let cmds ← walk inp o.heap₁ roots (cmdsScanner inp) []
  let exports ← Cmds.exportedComponents (o.exports cmds)
  let (files, ps) ← flat (walk inp o.heap₂ roots (specsScanner inp o) (.ok ([], [])))
  let c ← mergeAll mergeStrict ((o.sort files).map File.doc)
  let pp := Pointers.merge (Pointers.merge [] (Cmds.mapPointers (o.commands cmds) [])) ps
  let m ← flat (walk inp o.heap₃ roots (typesScanner inp o pp) (.ok []))
  let c ← OAPI.mergeWithRoot inp.root c
  return { exports := exports, doc := c, points := m }

/-- The conversion of a pointer of text `x`. -/
def ctx (inp : Input F) (o : Orders) (m : PMap) (x : Str) : Ctx F where
  env := inp.prog.env
  m := o.types x m
  tagOf := inp.tagOf
  std := inp.std
  zero := inp.zero
  srt := o.pick x

/-- The function that resolves a pointer, oapi.go:183-194, with the `container.Make` after it, resolver.go:33-39. -/
def resolveFn (inp : Input F) (o : Orders) (m : PMap) (p : Pointer) : Res Json :=
  match inp.override.lookup p.toStr with
  | some d => .ok d
  | none =>
    if p.url.scheme = b!"go" then
      match Types.resolve (ctx inp o m p.toStr) p with
      | .ok s => make inp.enc s
      | .err e => .err e
      | .panic => .panic
    else .err .unsupported

/-- The configuration of the resolver. -/
def cfg (inp : Input F) (o : Orders) (pre : Prepared) : Resolver.Cfg where
  exp := pre.exports
  res := resolveFn inp o pre.points
  ord := o.resolver

/-- oapi.go:183-205: resolution and default operations. -/
def finish (inp : Input F) (o : Orders) (fuel : Nat) (pre : Prepared) : Res Json :=
  match Resolver.resolve (cfg inp o pre) fuel pre.doc with
  | .err e => .err e
  | .panic => .panic
  | .ok c => match OAPI.paths c with
    | .err e => .err e
    | .panic => .panic
    | .ok ops => OAPI.runDefaults inp.matches_ c (o.ops ops) (o.defops inp.defops)

/-- What a call of Scan does: it panics, or it returns a document (or none) and an error (or none). -/
inductive Outcome where
  | panic
  | ret (doc : Option Json) (err : Option Err)
  deriving DecidableEq

/-- Decoding a document into a Go string: null leaves it as it is, only a string can be stored. -/
def decodeString : Json → Option Err
  | .str _ => none
  | .null => none
  | _ => some .decode

/-- `newOAPI`, oapi.go:38-42: the whole document is decoded into the field `OpenAPI`, a string. -/
def newOAPI (c : Json) : Outcome := .ret (some c) (decodeString c)

/-- `Scan`, oapi.go:116-205, after the options; `fuel` bounds the recursion of the resolver. -/
def scan (inp : Input F) (o : Orders) (fuel : Nat) : Outcome :=
  match prepare inp o with
  | .panic => .panic
  | .err e => .ret none (some e)
  | .ok pre => match finish inp o fuel pre with
    | .panic => .panic
    | .err e => .ret none (some e)
    | .ok c => newOAPI c

end Oapi.Scan
