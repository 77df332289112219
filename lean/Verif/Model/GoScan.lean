import Verif.Model.Scan
import Verif.Model.GoMerge
import Verif.Model.GoDefaults
import Verif.Model.GoResolver

/- /repo/oapi.go, Scan (116-205), and /repo/internal/oapi/scan/specs/scan.go in memory: all stages work on the same containers, in place. -/
namespace Oapi.GoHeap
open Container (File)
open Scan (Input Orders Prepared Outcome)

variable {F : Type}

/-- A `container.Container` with the path of its file, container.go:18-21. -/
structure HFile where
  path : Str
  cont : Nat
  deriving DecidableEq

/-- The orders in which maps are visited and the freedom of `sort.Sort`, for containers. -/
structure MOrders where
  /-- `Containers.Sort`, container.go:251-256. -/
  sort : List HFile → List HFile
  /-- The maps of the `n`-th file when the files are merged (specs/scan.go:83). -/
  merge : Nat → Json → Json
  /-- The maps in MergeWithRoot (oapi/oapi.go:103-152). -/
  root : Str → Nat → Json → Json
  /-- The operations in SetPathsDefaults (oapi/oapi.go:37-61). -/
  ops : List HOp → List HOp

/-- A computation that changes memory. -/
def M (α : Type) : Type := Heap → Heap × Res α

/-- What does not touch memory. -/
def M.lift {α : Type} (r : Res α) : M α := fun h => (h, r)

/-- One after the other; an error or a panic ends it. -/
def M.bind {α β : Type} (x : M α) (f : α → M β) : M β := fun h =>
  match x h with
  | (h', .ok a) => f a h'
  | (h', .err e) => (h', .err e)
  | (h', .panic) => (h', .panic)

instance : Monad M where
  pure a := M.lift (.ok a)
  bind := M.bind

/-! ### Spec files -/

/-- `ReadDir`, container.go:203-242, for the documents of the files: a container for each. -/
def readAll : List File → Heap → Heap × List HFile
  | [], h => (h, [])
  | f :: t, h => let r := make f.doc h; let r' := readAll t r.1; (r'.1, ⟨f.path, r.2⟩ :: r'.2)

/-- `Container.ExistsP`, container.go:125-127. -/
def existsC (p : Str) (c : Nat) (h : Heap) : Bool := (search (Gabs.dotPathToSlice p) (data h (some c)) h.mem).2.isSome

/-- specs/scan.go:48-72: the references are rewritten in place. -/
def scanRefs (room : Nat) (pkg : Str) (c : Nat) : List (Str × Json) → Pointers → Heap → Heap × Res Pointers
  | [], ps, h => (h, .ok ps)
  | (key, v) :: t, ps, h =>
    match v with
    | .str x => match Specs.rewriteRef pkg x with
      | .err e => (h, .err e)
      | .panic => (h, .panic)
      | .ok p => match setP room key (.str p.toStr) c h with
        | .err e => (h, .err e)
        | .panic => (h, .panic)
        | .ok h' => scanRefs room pkg c t (Pointers.put p.toStr p ps) h'
    | _ => scanRefs room pkg c t ps h

/-- specs/scan.go:38-76: one file. -/
def scanFile (room : Nat) (ord : List (Str × Json) → List (Str × Json)) (pkg : Str) (f : HFile) (ps : Pointers) (h : Heap) : Heap × Res (Option HFile × Pointers) :=
  if existsC b!"openapi" f.cont h = false then (h, .ok (none, ps))
  else match extract f.cont b!"$ref" h with
    | .err e => (h, .err e)
    | .panic => (h, .panic)
    | .ok refs => match scanRefs room pkg f.cont (ord refs) ps h with
      | (h', .ok ps') => (h', .ok (some f, ps'))
      | (h', .err e) => (h', .err e)
      | (h', .panic) => (h', .panic)

/-- specs/scan.go:36-79: the files of a package, from number `i` on. -/
def scanFiles (room : Nat) (ord : Nat → List (Str × Json) → List (Str × Json)) (pkg : Str) : Nat → List HFile → Pointers → Heap → Heap × Res (List HFile × Pointers)
  | _, [], ps, h => (h, .ok ([], ps))
  | i, f :: t, ps, h => match scanFile room (ord i) pkg f ps h with
    | (h', .err e) => (h', .err e)
    | (h', .panic) => (h', .panic)
    | (h', .ok (f', ps')) => match scanFiles room ord pkg (i + 1) t ps' h' with
      | (h'', .err e) => (h'', .err e)
      | (h'', .panic) => (h'', .panic)
      | (h'', .ok (l, ps'')) => (h'', .ok (f'.toList ++ l, ps''))

/-- specs.Scanner (specs/scan.go:26-79) over all packages; memory is part of the state. -/
def specsScanner (room : Nat) (inp : Input F) (o : Orders) : Pkgs.Scanner (Heap × Res (List HFile × Pointers)) where
  scan st p := match st with
    | (h, .ok (cc, ps)) => match inp.files p with
      | .err e => ((h, .ok (cc, ps)), some (inp.msg e))
      | .panic => ((h, .panic), none)
      | .ok ff => match scanFiles room (o.refs p) (Scan.pathOf inp.heap p) 0 (readAll ff h).2 ps (readAll ff h).1 with
        | (h', .ok (l, ps')) => ((h', .ok (cc ++ l, ps')), none)
        | (h', .err e) => ((h', .ok (cc, ps)), some (inp.msg e))
        | (h', .panic) => ((h', .panic), none)
    | st => (st, none)

instance {α : Type} : Scan.Crashing (Heap × Res α) where
  crashed r := match r.2 with
    | .panic => true
    | _ => false

/-- oapi.go:155-160: the call of `pkgutil.Scan` with the scanner of spec files.  (Memory after an error of the walk is not looked at.) -/
def scanSpecs (room : Nat) (inp : Input F) (o : Orders) (roots : List Nat) : M (List HFile × Pointers) := fun h =>
  match Scan.walk inp o.heap₂ roots (specsScanner room inp o) (h, .ok ([], [])) with
  | .ok r => r
  | .err e => (h, .err e)
  | .panic => (h, .panic)

/-! ### The stages -/

/-- What the stages before the resolution give: a container instead of a document. -/
structure HPrepared where
  exports : List Resolver.Export
  cont : Nat
  points : Types.PMap

/-- oapi.go:133-181, up to and including MergeWithRoot. -/
def prepare (room : Nat) (inp : Input F) (o : Orders) (mo : MOrders) : M HPrepared := do
  let roots ← M.lift inp.load
  let cmds ← M.lift (Scan.walk inp o.heap₁ roots (Scan.cmdsScanner inp) [])
  let exports ← M.lift (Cmds.exportedComponents (o.exports cmds))
  let (files, ps) ← scanSpecs room inp o roots
  let c ← mergeAll room .strict mo.merge ((mo.sort files).map HFile.cont)
  let pp := Pointers.merge (Pointers.merge [] (Cmds.mapPointers (o.commands cmds) [])) ps
  let m ← M.lift (Scan.flat (Scan.walk inp o.heap₃ roots (Scan.typesScanner inp o pp) (.ok [])))
  mergeWithRoot room mo.root inp.root c
  return { exports := exports, cont := c, points := m }

/-- `SetPathsDefaults`, oapi/oapi.go:66-100, for given orders. -/
def setDefaults (room : Nat) (mt : Str → Str → Str → Res Bool) (ord : List HOp → List HOp) (defops : List (Str × Json)) (c : Nat) : M Unit := fun h =>
  match paths c h with
  | .err e => (h, .err e)
  | .panic => (h, .panic)
  | .ok (h', ops) => match applyDefaults room c mt (ord ops) defops h' with
    | .ok h2 => (h2, .ok ())
    | .err e => (h', .err e)
    | .panic => (h', .panic)

/-- oapi.go:183-205: resolution and default operations; the result is the container that the resolver returned. -/
def finish (room : Nat) (inp : Input F) (o : Orders) (mo : MOrders) (fuel : Nat) (pre : HPrepared) : M Nat := do
  let c ← resolve room (Scan.cfg inp o { exports := pre.exports, doc := .null, points := pre.points }) fuel pre.cont
  setDefaults room inp.matches_ mo.ops (o.defops inp.defops) c
  return c

/-- What the caller of `Scan` gets, with the container of the result read (oapi.go:31-42). -/
def outcome (r : Heap × Res Nat) : Outcome :=
  match r with
  | (_, .panic) => .panic
  | (_, .err e) => .ret none (some e)
  | (h, .ok c) => match doc h.mem (data h (some c)) with
    | some j => Scan.newOAPI j
    | none => .ret none (some .decode)

/-- `Scan`, oapi.go:116-205, after the options, in memory. -/
def scan (room : Nat) (inp : Input F) (o : Orders) (mo : MOrders) (fuel : Nat) : Outcome :=
  outcome ((prepare room inp o mo >>= finish room inp o mo fuel) ⟨[], []⟩)

end Oapi.GoHeap
