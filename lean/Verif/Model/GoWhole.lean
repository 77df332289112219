import Verif.Model.GoScan
import Verif.Model.GoTypes

/- /repo/oapi.go, Scan (116-205), with all its memory: the containers (Model/GoScan.lean) and one type scanner (Model/GoTypes.lean), which is filled
while the packages are walked and then asked, and changed, by the resolver. -/
namespace Oapi.GoWhole
open GoHeap (RSt MOrders M HFile)
open Scan (Input Orders Outcome)

variable {F : Type}

/-! ### The resolver -/

section
variable {τ : Type}

/-- The body of the loop, resolver.go:67-102, where the resolver function `res` (resolver.go:33-39) has a state. -/
def visit (room : Nat) (cfg : Resolver.Cfg) (res : Pointer → τ → τ × Res Json) (con : Nat) (call : Slice → Nat → RSt × τ → (RSt × τ) × Res Unit) (pp : Slice) (cx : Nat)
    (key : Str) (v : Json) (s : RSt × τ) : (RSt × τ) × Res Unit :=
  match v with
  | .str t => match Pointer.parse t with
    | .err e => (s, .err e)
    | .panic => (s, .panic)
    | .ok p =>
      if p.isExternal = false then (s, .ok ())
      else if p.toStr ∈ Slice.view s.1.arrs pp then
        let r := GoHeap.setRecursive room cfg cx p key s.1
        ((r.1, s.2), r.2)
      else match res p s.2 with
        | (t', .err e) => ((s.1, t'), .err e)
        | (t', .panic) => ((s.1, t'), .panic)
        | (t', .ok nc) =>
          let m := GoHeap.make nc s.1.heap
          let a := Slice.append s.1.arrs pp [p.toStr] room
          match call a.2 m.2 (⟨m.1, a.1, s.1.clock⟩, t') with
          | (s', .ok _) =>
            let r := GoHeap.setRef room cfg con cx p key m.2 s'.1
            ((r.1, s'.2), r.2)
          | r => r
  | _ => (s, .ok ())

/-- The loop, resolver.go:67-103. -/
def loop (room : Nat) (cfg : Resolver.Cfg) (res : Pointer → τ → τ × Res Json) (con : Nat) (call : Slice → Nat → RSt × τ → (RSt × τ) × Res Unit) (pp : Slice) (cx : Nat) :
    List (Str × Json) → RSt × τ → (RSt × τ) × Res Unit
  | [], s => (s, .ok ())
  | (key, v) :: t, s => match visit room cfg res con call pp cx key v s with
    | (s', .ok _) => loop room cfg res con call pp cx t s'
    | r => r

/-- `iterator`, resolver.go:61-104, with a bound on the recursion depth. -/
def iter (room : Nat) (cfg : Resolver.Cfg) (res : Pointer → τ → τ × Res Json) (con : Nat) : Nat → Slice → Nat → RSt × τ → (RSt × τ) × Res Unit
  | 0, _, _, s => (s, .err .fuel)
  | n + 1, pp, cx, s => match GoHeap.extract cx b!"$ref" s.1.heap with
    | .err e => (s, .err e)
    | .panic => (s, .panic)
    | .ok refs => loop room cfg res con (iter room cfg res con n) pp cx (cfg.ord s.1.clock refs) ({ s.1 with clock := s.1.clock + 1 }, s.2)

/-- `Resolve`, resolver.go:42-59, with a resolver function that starts in state `t`.  (Its state at the end is not looked at any more.) -/
def resolve (room : Nat) (cfg : Resolver.Cfg) (res : Pointer → τ → τ × Res Json) (t : τ) (fuel : Nat) (c : Nat) : M Nat := fun h =>
  let r := GoHeap.cloneC (some c) h
  match iter room cfg res r.2 fuel ⟨0, 0⟩ r.2 (⟨r.1, [[]], 0⟩, t) with
  | (s, .ok _) => (s.1.heap, .ok r.2)
  | (s, .err e) => (s.1.heap, .err e)
  | (s, .panic) => (s.1.heap, .panic)

end

/-! ### The type scanner -/

/-- What is left to the runtime where types are scanned: the room that `append` leaves, what the `i`-th call of `sort.Sort` makes of its slice, and the
order in which the collected types are iterated when the `n`-th pointer is resolved (types/point.go:130-156). -/
structure Rt where
  pathRoom : Nat → Nat
  pointRoom : Nat → Nat
  srt : Nat → List Pointer → List Pointer
  it : Nat → GoTypes.HMap → GoTypes.HMap

/-- The type scanner of a scan, oapi.go:172. -/
def conf (inp : Input F) (rt : Rt) : GoTypes.Conf F where
  env := inp.prog.env
  tagOf := inp.tagOf
  std := inp.std
  zero := inp.zero
  pathRoom := rt.pathRoom
  pointRoom := rt.pointRoom
  srt := rt.srt

/-- types.Scanner (types/scan.go:41-67) over all packages; what an error leaves in memory stays there. -/
def typesScanner (inp : Input F) (o : Orders) (rt : Rt) (pp : Pointers) : Pkgs.Scanner (GoTypes.TSt × Res Unit) where
  scan st p := match st with
    | (st, .ok _) => match GoTypes.scanPkg (conf inp rt) inp.prog.scope (Scan.pathOf inp.heap p) ((o.pointers p pp).map Prod.snd) st with
      | (st', .ok _) => ((st', .ok ()), none)
      | (st', .err e) => ((st', .ok ()), some (inp.msg e))
      | (st', .panic) => ((st', .panic), none)
    | st => (st, none)

instance {α : Type} : Scan.Crashing (GoTypes.TSt × Res α) where
  crashed r := match r.2 with
    | .panic => true
    | _ => false

/-- oapi.go:172-175: the call of `pkgutil.Scan` with a new type scanner, which is what is kept. -/
def scanTypes (inp : Input F) (o : Orders) (rt : Rt) (pp : Pointers) (roots : List Nat) : Res GoTypes.TSt :=
  match Scan.walk inp o.heap₃ roots (typesScanner inp o rt pp) ({}, .ok ()) with
  | .ok (st, .ok _) => .ok st
  | .ok (_, .err e) => .err e
  | .ok (_, .panic) => .panic
  | .err e => .err e
  | .panic => .panic

/-- The function that resolves a pointer, oapi.go:183-194, with the `container.Make` after it, resolver.go:33-39.  Its state is the type scanner and the
number of pointers it has resolved. -/
def resolveFn (inp : Input F) (rt : Rt) (p : Pointer) (t : GoTypes.TSt × Nat) : (GoTypes.TSt × Nat) × Res Json :=
  match inp.override.lookup p.toStr with
  | some d => (t, .ok d)
  | none =>
    if p.url.scheme = b!"go" then
      match GoTypes.resolve (conf inp rt) (rt.it t.2) p t.1 with
      | (st, .ok s) => ((st, t.2 + 1), Scan.make inp.enc s)
      | (st, .err e) => ((st, t.2 + 1), .err e)
      | (st, .panic) => ((st, t.2 + 1), .panic)
    else (t, .err .unsupported)

/-! ### The stages -/

/-- What the stages before the resolution give. -/
structure TPrepared where
  exports : List Resolver.Export
  cont : Nat
  types : GoTypes.TSt

/-- oapi.go:133-181, up to and including MergeWithRoot. -/
def prepare (room : Nat) (inp : Input F) (o : Orders) (mo : MOrders) (rt : Rt) : M TPrepared := do
  let roots ← M.lift inp.load
  let cmds ← M.lift (Scan.walk inp o.heap₁ roots (Scan.cmdsScanner inp) [])
  let exports ← M.lift (Cmds.exportedComponents (o.exports cmds))
  let (files, ps) ← GoHeap.scanSpecs room inp o roots
  let c ← GoHeap.mergeAll room .strict mo.merge ((mo.sort files).map HFile.cont)
  let pp := Pointers.merge (Pointers.merge [] (Cmds.mapPointers (o.commands cmds) [])) ps
  let st ← M.lift (scanTypes inp o rt pp roots)
  GoHeap.mergeWithRoot room mo.root inp.root c
  return { exports := exports, cont := c, types := st }

/-- oapi.go:183-205: resolution and default operations. -/
def finish (room : Nat) (inp : Input F) (o : Orders) (mo : MOrders) (rt : Rt) (fuel : Nat) (pre : TPrepared) : M Nat := do
  let c ← resolve room { exp := pre.exports, res := fun _ => .panic, ord := o.resolver } (resolveFn inp rt) (pre.types, 0) fuel pre.cont
  GoHeap.setDefaults room inp.matches_ mo.ops (o.defops inp.defops) c
  return c

/-- `Scan`, oapi.go:116-205, after the options, in memory. -/
def scan (room : Nat) (inp : Input F) (o : Orders) (mo : MOrders) (rt : Rt) (fuel : Nat) : Outcome :=
  GoHeap.outcome ((prepare room inp o mo rt >>= finish room inp o mo rt fuel) ⟨[], []⟩)

end Oapi.GoWhole
