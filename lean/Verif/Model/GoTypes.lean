import Verif.Model.Types
import Verif.Model.SliceHeap

/- /repo/internal/oapi/scan/types in memory: paths of types are Go slices whose backing arrays are shared between nested calls, and the points of
a type are a slice in a `typeutil.Map`, which `pick` sorts in place.  (Points are values: see C67 for their fragments.) -/
namespace Oapi.GoTypes
open Types

/-! ### Slices -/

/-- Backing arrays; the length of an array is its capacity. -/
abbrev Arrs (α : Type) := List (List α)

section
variable {α : Type}

/-- What is read through a slice. -/
def view (h : Arrs α) (s : Slice) : List α := (h.getD s.arr []).take s.len

/-- Go's `append(s, x)`: in place if there is room, else into a new array.  `room n` is the room the runtime leaves in array number `n`.
(What is in free places is never looked at; here it is `x`.) -/
def append1 (room : Nat → Nat) (h : Arrs α) (s : Slice) (x : α) : Arrs α × Slice :=
  if s.len < (h.getD s.arr []).length then (h.set s.arr ((h.getD s.arr []).set s.len x), ⟨s.arr, s.len + 1⟩)
  else (h ++ [view h s ++ x :: List.replicate (room h.length) x], ⟨h.length, s.len + 1⟩)

/-- `path{}`: no element and no room. -/
def newSlice (h : Arrs α) : Arrs α × Slice := (h ++ [[]], ⟨h.length, 0⟩)

end

/-! ### point.go -/

/-- `pointmap`, point.go:94-96: slices of points by type. -/
abbrev HMap := List (GoType × Slice)

/-- `tp.m.At(t)`, if it is there. -/
def HMap.at (t : GoType) : HMap → Option Slice
  | [] => none
  | (k, s) :: rest => if k = t then some s else HMap.at t rest

/-- `tp.m.Set(t, pp)`, for a type that is there. -/
def HMap.put (t : GoType) (s : Slice) : HMap → HMap
  | [] => []
  | (k, s') :: rest => if k = t then (k, s) :: rest else (k, s') :: HMap.put t s rest

/-- Memory: the arrays of paths, the arrays of points, the map, and how often `sort.Sort` was called. -/
structure TSt where
  paths : Arrs GoType := []
  points : Arrs Pointer := []
  map : HMap := []
  clock : Nat := 0

/-- What is not memory: the defined types, tag parsing, the table of overrides and the number zero as in `Types.Ctx`; how much room `append`
leaves; and what the `i`-th call of `sort.Sort` makes of its slice. -/
structure Conf (F : Type) where
  env : Env
  tagOf : Str → Res (TagP.Tag F)
  std : Str → Option (Schema F)
  zero : F
  pathRoom : Nat → Nat
  pointRoom : Nat → Nat
  srt : Nat → List Pointer → List Pointer

/-- `pointmap.append`, point.go:102-110, with `points.has`, point.go:82-84. -/
def addPoint (room : Nat → Nat) (t : GoType) (p : Pointer) (st : TSt) : TSt :=
  match st.map.at t with
  | none => { st with points := st.points ++ [p :: List.replicate (room st.points.length) p], map := st.map ++ [(t, ⟨st.points.length, 1⟩)] }
  | some s =>
    if (view st.points s).any (fun q => p.toStr == q.toStr) then st
    else
      let r := append1 room st.points s p
      { st with points := r.1, map := st.map.put t r.2 }

/-- `pointmap.pick`, point.go:158-165: the slice in the map is sorted. -/
def pick (srt : Nat → List Pointer → List Pointer) (t : GoType) (st : TSt) : TSt × Option Pointer :=
  match st.map.at t with
  | none => (st, none)
  | some s =>
    if s.len = 0 then (st, none)
    else
      let l := srt st.clock (view st.points s)
      ({ st with points := st.points.set s.arr (l ++ (st.points.getD s.arr []).drop s.len), clock := st.clock + 1 }, l.head?)

/-- `pointmap.findType`, point.go:167-172, with `find` and `each`, point.go:130-156, for the map in the order it is iterated. -/
def findType (points : Arrs Pointer) (m : HMap) (p : Pointer) : Option GoType :=
  (m.find? fun e => (view points e.2).any fun q => p.toStr == q.toStr).map Prod.fst

/-! ### walk -/

/-- The second call for a child of a defined type, types.go:87-91. -/
def walkNamed (env : Env) (call : Pointer → GoType → TSt → TSt × Res Unit) (t : GoType) (st : TSt) : TSt × Res Unit :=
  match t with
  | .named n => match env[n]? with
    | none => (st, .panic)
    | some d => match newPoint d.pkg d.name with
      | .ok np => call np t st
      | .err e => (st, .err e)
      | .panic => (st, .panic)
  | _ => (st, .ok ())

/-- The loop over the children, types.go:82-95. -/
def walkAll (env : Env) (call : Pointer → GoType → TSt → TSt × Res Unit) : List (Pointer × GoType) → TSt → TSt × Res Unit
  | [], st => (st, .ok ())
  | (r, t) :: rest, st => match call r t st with
    | (st, .ok _) => match walkNamed env call t st with
      | (st, .ok _) => walkAll env call rest st
      | x => x
    | x => x

/-- `walk`, types.go:38-98, with `path.visit`, types.go:112-130; the children get the same slice. -/
def walk {F : Type} (cf : Conf F) : Nat → Pointer → GoType → Slice → TSt → TSt × Res Unit
  | 0, _, _, _, st => (st, .err .fuel)
  | n + 1, r, t, p, st =>
    let u := under cf.env t
    let st := addPoint cf.pointRoom u r st
    if u ∈ view st.paths p then (st, .ok ())
    else
      let a := append1 cf.pathRoom st.paths p u
      match next r u with
      | .ok nx => walkAll cf.env (fun r t st => walk cf n r t a.2 st) nx { st with paths := a.1 }
      | .err e => ({ st with paths := a.1 }, .err e)
      | .panic => ({ st with paths := a.1 }, .panic)

/-- `collectTypes`, types.go:15-17. -/
def collectTypes {F : Type} (cf : Conf F) (pkg name : Str) (t : GoType) (st : TSt) : TSt × Res Unit :=
  match newPoint (some pkg) name with
  | .ok r => let p := newSlice st.paths; walk cf (depth cf.env t) r t p.2 { st with paths := p.1 }
  | .err e => (st, .err e)
  | .panic => (st, .panic)

/-- The body of the loop of `Scanner.Scan`, scan.go:44-64. -/
def scanPtr {F : Type} (cf : Conf F) (scope : Str → Str → Option GoType) (pkg : Str) (ptr : Pointer) (st : TSt) : TSt × Res Unit :=
  if ptr.url.scheme ≠ b!"go" then (st, .ok ())
  else if pkg ≠ ptr.pkgPath then (st, .ok ())
  else match ptr.fragment.head? with
    | none => (st, .ok ())
    | some h => match scope pkg h with
      | none => (st, .ok ())
      | some t => collectTypes cf pkg h t st

/-- `Scanner.Scan`, scan.go:41-67. -/
def scanPkg {F : Type} (cf : Conf F) (scope : Str → Str → Option GoType) (pkg : Str) : List Pointer → TSt → TSt × Res Unit
  | [], st => (st, .ok ())
  | ptr :: t, st => match scanPtr cf scope pkg ptr st with
    | (st, .ok _) => scanPkg cf scope pkg t st
    | x => x

/-- Packages one after the other. -/
def scanPkgs {F : Type} (cf : Conf F) (scope : Str → Str → Option GoType) : List (Str × List Pointer) → TSt → TSt × Res Unit
  | [], st => (st, .ok ())
  | (pkg, ptrs) :: t, st => match scanPkg cf scope pkg ptrs st with
    | (st, .ok _) => scanPkgs cf scope t st
    | x => x

/-! ### Schemas -/

section
variable {F : Type}

/-- `reference2schema`, types.go:348-359. -/
def reference2schema (cf : Conf F) (t : GoType) (st : TSt) : TSt × Res (Schema F) :=
  match pick cf.srt t st with
  | (st, none) => (st, .err .notFound)
  | (st, some ptr) => match cf.std ptr.toStr with
    | some s => (st, .ok s)
    | none => (st, .ok (.mk (some ptr) {} none none [] []))

/-- The loop of `collectStructFields`, types.go:520-544. -/
def collectLoop (env : Env) (tagOf : Str → Res (TagP.Tag F)) (call : List (FieldInfo × GoType) → Arrs GoType → Arrs GoType × Res (List (StructField F))) :
    List (FieldInfo × GoType) → Arrs GoType → Arrs GoType × Res (List (StructField F))
  | [], h => (h, .ok [])
  | (f, t) :: rest, h => match tagOf f.tag with
    | .err e => (h, .err e)
    | .panic => (h, .panic)
    | .ok tx =>
      if tx.ignore ∨ f.exported = false then collectLoop env tagOf call rest h
      else match (match castInlineStruct env f t tx with
          | some st => call st h
          | none => (h, .ok [⟨f, t, tx⟩])) with
        | (h, .err e) => (h, .err e)
        | (h, .panic) => (h, .panic)
        | (h, .ok z) => match collectLoop env tagOf call rest h with
          | (h, .ok l) => (h, .ok (z ++ l))
          | x => x

/-- `collectStructFields`, types.go:514-546. -/
def collectFields (cf : Conf F) : Nat → List (FieldInfo × GoType) → Slice → Arrs GoType → Arrs GoType × Res (List (StructField F))
  | 0, _, _, h => (h, .err .fuel)
  | n + 1, fs, p, h =>
    if GoType.struct fs ∈ view h p then (h, .ok [])
    else
      let a := append1 cf.pathRoom h p (.struct fs)
      collectLoop cf.env cf.tagOf (fun st h => collectFields cf n st a.2 h) fs a.1

/-- The schema of a field, types.go:196-207. -/
def fieldSchema (cf : Conf F) (call : GoType → TagP.Tag F → TSt → TSt × Res (Schema F)) (x : StructField F) (st : TSt) : TSt × Res (Schema F) :=
  if x.tag.type ≠ [] then (st, basicString2schema cf.zero x.tag.type x.tag)
  else match under cf.env x.typ with
    | .struct fs => reference2schema cf (.struct fs) st
    | z => call z x.tag st

/-- The loop of `struct2schema`, types.go:193-236. -/
def structLoop (cf : Conf F) (call : GoType → TagP.Tag F → TSt → TSt × Res (Schema F)) :
    List (StructField F) → List (Str × Schema F) → List Str → TSt → TSt × Res (List (Str × Schema F) × List Str)
  | [], props, req, st => (st, .ok (props, req))
  | x :: rest, props, req, st => match fieldSchema cf call x st with
    | (st, .err e) => (st, .err e)
    | (st, .panic) => (st, .panic)
    | (st, .ok s) =>
      if s.ref.isSome then structLoop cf call rest (putProp x.key s props) req st
      else structLoop cf call rest (putProp x.key (s.withAttrs (dress x.tag)) props) (if x.tag.required then req ++ [x.key] else req) st

/-- `struct2schema`, types.go:183-239: the fields are collected with a new path. -/
def struct2schema (cf : Conf F) (call : GoType → TagP.Tag F → TSt → TSt × Res (Schema F)) (fs : List (FieldInfo × GoType)) (st : TSt) : TSt × Res (Schema F) :=
  let p := newSlice st.paths
  match collectFields cf (depth cf.env (.struct fs)) fs p.2 p.1 with
  | (h, .err e) => ({ st with paths := h }, .err e)
  | (h, .panic) => ({ st with paths := h }, .panic)
  | (h, .ok fields) => match structLoop cf call fields [] [] { st with paths := h } with
    | (st, .err e) => (st, .err e)
    | (st, .panic) => (st, .panic)
    | (st, .ok (props, req)) => (st, .ok (.mk none { type := b!"object", required := req } none none [] props))

/-- `typeElement2schema`, types.go:173-181, and the continuation `k` of its caller. -/
def element (t e : GoType) (call : GoType → TSt → TSt × Res (Schema F)) (k : Schema F → Schema F) (st : TSt) : TSt × Res (Schema F) :=
  if t = e then (st, .err .unsupported)
  else match call e st with
    | (st, .ok s) => (st, .ok (k s))
    | x => x

/-- `type2schema`, types.go:133-171. -/
def type2schema (cf : Conf F) : Nat → GoType → Slice → TagP.Tag F → TSt → TSt × Res (Schema F)
  | 0, _, _, _, st => (st, .err .fuel)
  | n + 1, t, tp, tg, st =>
    let u := under cf.env t
    if u ∈ view st.paths tp then reference2schema cf u st
    else
      let a := append1 cf.pathRoom st.paths tp u
      let st : TSt := { st with paths := a.1 }
      match u with
      | .struct fs =>
        if a.2.len = 1 then struct2schema cf (fun t tg st => type2schema cf n t a.2 tg st) fs st
        else reference2schema cf (.struct fs) st
      | .array len e => element (.array len e) e (fun e st => type2schema cf n e a.2 tg st) (arraySchema len tg) st
      | .basic k => (st, basic2schema cf.zero k tg)
      | .map k e => element (.map k e) e (fun e st => type2schema cf n e a.2 tg st) (mapSchema tg) st
      | .slice e => element (.slice e) e (fun e st => type2schema cf n e a.2 tg st) (sliceSchema tg) st
      | .pointer e => element (.pointer e) e (fun e st => type2schema cf n e a.2 tg st) (pointerSchema tg) st
      | _ => (st, .err .unsupported)

/-- `Scanner.Resolve`, scan.go:26-34; `it` is the order in which the map is iterated this time. -/
def resolve (cf : Conf F) (it : HMap → HMap) (ptr : Pointer) (st : TSt) : TSt × Res (Schema F) :=
  match findType st.points (it st.map) ptr with
  | none => (st, .panic)
  | some t => let p := newSlice st.paths; type2schema cf (depth cf.env t) t p.2 {} { st with paths := p.1 }

end
end Oapi.GoTypes
