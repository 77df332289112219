import Verif.Model.Pointer
import Verif.Model.Tag

/- Model of /repo/internal/oapi/scan/types (types.go, point.go, scan.go).
The package go/types is represented by a datatype of types whose equality is `types.Identical`; struct tags enter through a
parameter `tagOf` (see Model/Tag.lean), floating point numbers are an arbitrary type. -/
namespace Oapi.Types

/-- `types.BasicKind`: the kinds the code names; all others (uintptr, complex, unsafe.Pointer, untyped, invalid) are `other`. -/
inductive Kind where
  | bool | int | int8 | int16 | int32 | int64 | uint | uint8 | uint16 | uint32 | uint64 | float32 | float64 | string
  | other (n : Nat)
  deriving DecidableEq, Repr

/-- What a struct says about a field besides its type.  `hiddenIn` is the package of an unexported field and `none` for an
exported one: `types.Identical` compares the packages of unexported fields only. -/
structure FieldInfo where
  name : Str
  hiddenIn : Option Str := none
  embedded : Bool := false
  tag : Str := []
  deriving DecidableEq, Repr

def FieldInfo.exported (f : FieldInfo) : Bool := f.hiddenIn.isNone

/-- `types.Type`.  Named types are numbers into an environment; interfaces, functions and tuples are `other`, numbered up to
identity.  Two types are identical exactly if they are equal as values of this datatype. -/
inductive GoType where
  | basic (k : Kind)
  | named (n : Nat)
  | struct (fs : List (FieldInfo × GoType))
  | pointer (e : GoType)
  | slice (e : GoType)
  | array (len : Int) (e : GoType)
  | map (k e : GoType)
  | chan (dir : Nat) (e : GoType)
  | other (n : Nat)

namespace GoType
mutual
/-- Structural equality test. -/
def beq (a b : GoType) : Bool :=
  match a, b with
  | .basic a, .basic b => a == b
  | .named a, .named b => a == b
  | .struct a, .struct b => beqF a b
  | .pointer a, .pointer b => beq a b
  | .slice a, .slice b => beq a b
  | .array n a, .array l b => n == l && beq a b
  | .map k a, .map l b => beq k l && beq a b
  | .chan k a, .chan l b => k == l && beq a b
  | .other a, .other b => a == b
  | _, _ => false
termination_by structural a
def beqF (a b : List (FieldInfo × GoType)) : Bool :=
  match a, b with
  | [], [] => true
  | (f, x) :: a, (g, y) :: b => f == g && beq x y && beqF a b
  | _, _ => false
termination_by structural a
end

mutual
theorem beq_iff (a b : GoType) : beq a b = true ↔ a = b := by
  match a with
  | .basic a => cases b <;> simp [beq]
  | .named a => cases b <;> simp [beq]
  | .struct a => cases b with
    | struct b => simp [beq, beqF_iff a b]
    | _ => simp [beq]
  | .pointer a => cases b with
    | pointer b => simp [beq, beq_iff a b]
    | _ => simp [beq]
  | .slice a => cases b with
    | slice b => simp [beq, beq_iff a b]
    | _ => simp [beq]
  | .array n a => cases b with
    | array l b => simp [beq, beq_iff a b]
    | _ => simp [beq]
  | .map k a => cases b with
    | map l b => simp [beq, beq_iff a b, beq_iff k l]
    | _ => simp [beq]
  | .chan k a => cases b with
    | chan l b => simp [beq, beq_iff a b]
    | _ => simp [beq]
  | .other a => cases b <;> simp [beq]
termination_by structural a
theorem beqF_iff (a b : List (FieldInfo × GoType)) : beqF a b = true ↔ a = b := by
  match a with
  | [] => cases b <;> simp [beqF]
  | (f, x) :: a => cases b with
    | nil => simp [beqF]
    | cons y b => obtain ⟨g, y⟩ := y; simp [beqF, beq_iff x y, beqF_iff a b, and_assoc]
termination_by structural a
end

instance : DecidableEq GoType := fun a b => decidable_of_iff _ (beq_iff a b)

end GoType

/-- A defined type: the package of its type name (`none` for the predeclared `error`), its name and its underlying type. -/
structure NamedDef where
  pkg : Option Str
  name : Str
  under : GoType

abbrev Env := List NamedDef

/-- `t.Underlying()`. -/
def under (env : Env) (t : GoType) : GoType :=
  match t with
  | .named n => match env[n]? with
    | some d => d.under
    | none => .basic (.other 0)
  | t => t

/-! ### point.go -/

/-- `newPoint`, point.go:17-21: the error of `NewGoPointer` is dropped; `Pkg()` of a predeclared type is nil. -/
def newPoint (pkg : Option Str) (name : Str) : Res Pointer :=
  match pkg with
  | none => .panic
  | some p => .ok (Pointer.newGoLoose p name)

/-- `withDescendant`, `withArray`, `withPtr`, point.go:23-42. -/
def withToken (r : Pointer) (tok : Str) : Res Pointer :=
  match r.clone with
  | .ok x => match x.fragment.descendant tok with
    | .ok f => .ok { x with fragment := f }
    | _ => .ok x
  | .err e => .err e
  | .panic => .panic

/-- `pointmap`, point.go:94-96: a `typeutil.Map` from types (up to identity) to lists of points. -/
abbrev PMap := List (GoType × List Pointer)

/-- `pointmap.at`, point.go:112-121. -/
def PMap.at (m : PMap) (t : GoType) : List Pointer :=
  match m with
  | [] => []
  | (k, ps) :: rest => if k = t then ps else PMap.at rest t

/-- `pointmap.append`, point.go:102-110, with `points.has`, point.go:82-84: points are compared as strings. -/
def PMap.append (m : PMap) (t : GoType) (p : Pointer) : PMap :=
  match m with
  | [] => [(t, [p])]
  | (k, ps) :: rest =>
    if k = t then (k, if ps.any (fun q => p.toStr == q.toStr) then ps else ps ++ [p]) :: rest
    else (k, ps) :: PMap.append rest t p

/-- `pointmap.findType`, point.go:167-172, for a map listed in the order in which it is iterated: the first type with a point
of the same text. -/
def PMap.findType (m : PMap) (p : Pointer) : Option GoType :=
  (m.find? fun e => e.2.any fun q => p.toStr == q.toStr).map Prod.fst

/-! ### walk -/

/-- The children of a type with their points, types.go:54-80. -/
def fieldNext (r : Pointer) : List (FieldInfo × GoType) → Res (List (Pointer × GoType))
  | [] => .ok []
  | (f, t) :: rest =>
    if f.exported then
      match withToken r f.name with
      | .ok p => match fieldNext r rest with
        | .ok l => .ok ((p, t) :: l)
        | .err e => .err e
        | .panic => .panic
      | .err e => .err e
      | .panic => .panic
    else fieldNext r rest

def next (r : Pointer) (u : GoType) : Res (List (Pointer × GoType)) :=
  match u with
  | .struct fs => fieldNext r fs
  | .pointer e => match withToken r b!"*" with
    | .ok p => .ok [(p, e)]
    | .err e => .err e
    | .panic => .panic
  | .slice e | .array _ e | .map _ e | .chan _ e => match withToken r b!"[]" with
    | .ok p => .ok [(p, e)]
    | .err e => .err e
    | .panic => .panic
  | _ => .ok []

/-- The second call for a child of a defined type, types.go:87-91. -/
def walkNamed (env : Env) (call : Pointer → GoType → PMap → Res PMap) (t : GoType) (m : PMap) : Res PMap :=
  match t with
  | .named n => match env[n]? with
    | none => .panic
    | some d => match newPoint d.pkg d.name with
      | .ok np => call np t m
      | .err e => .err e
      | .panic => .panic
  | _ => .ok m

/-- The loop over the children, types.go:82-95. -/
def walkAll (env : Env) (call : Pointer → GoType → PMap → Res PMap) : List (Pointer × GoType) → PMap → Res PMap
  | [], m => .ok m
  | (r, t) :: rest, m => match call r t m with
    | .ok m => match walkNamed env call t m with
      | .ok m => walkAll env call rest m
      | .err e => .err e
      | .panic => .panic
    | .err e => .err e
    | .panic => .panic

/-- `walk`, types.go:38-98, with a bound on the depth of the recursion.  `path.visit`, types.go:125-130, is the test `∈`. -/
def walk (env : Env) : Nat → Pointer → GoType → List GoType → PMap → Res PMap
  | 0, _, _, _, _ => .err .fuel
  | n + 1, r, t, p, m =>
    let u := under env t
    let m := m.append u r
    if u ∈ p then .ok m
    else match next r u with
      | .ok nx => walkAll env (fun r t m => walk env n r t (p ++ [u]) m) nx m
      | .err e => .err e
      | .panic => .panic

mutual
/-- A type and all types written inside it. -/
def parts (t : GoType) : List GoType :=
  match t with
  | .struct fs => .struct fs :: partsF fs
  | .pointer e => .pointer e :: parts e
  | .slice e => .slice e :: parts e
  | .array n e => .array n e :: parts e
  | .map k e => .map k e :: (parts k ++ parts e)
  | .chan d e => .chan d e :: parts e
  | t => [t]
termination_by structural t
def partsF (fs : List (FieldInfo × GoType)) : List GoType :=
  match fs with
  | [] => []
  | (_, t) :: rest => parts t ++ partsF rest
termination_by structural fs
end

/-- All types that can turn up when walking from `t`. -/
def world (env : Env) (t : GoType) : List GoType := .basic (.other 0) :: (parts t ++ env.flatMap fun d => parts d.under)

/-- A recursion depth that is never reached (theorem `C36_terminates`). -/
def depth (env : Env) (t : GoType) : Nat := (world env t).length + 1

/-- `collectTypes`, types.go:15-17, for the object `name` of package `pkg` with type `t`. -/
def collectTypes (env : Env) (pkg name : Str) (t : GoType) (m : PMap) : Res PMap :=
  match newPoint (some pkg) name with
  | .ok r => walk env (depth env t) r t [] m
  | .err e => .err e
  | .panic => .panic

/-! ### scan.go -/

/-- What the type checker knows: the defined types and, for every package, its package-level objects with their types
(`pkg.Types.Scope().Lookup`). -/
structure Prog where
  env : Env
  scope : Str → Str → Option GoType

/-- The body of the loop of `Scanner.Scan`, scan.go:44-64, for one pointer; an error is wrapped. -/
def scanPtr (pr : Prog) (pkg : Str) (ptr : Pointer) (m : PMap) : Res PMap :=
  if ptr.url.scheme ≠ b!"go" then .ok m
  else if pkg ≠ ptr.pkgPath then .ok m
  else match ptr.fragment.head? with
    | none => .ok m
    | some h => match pr.scope pkg h with
      | none => .ok m
      | some t => collectTypes pr.env pkg h t m

/-- `Scanner.Scan`, scan.go:41-67; `ptrs` lists the map `r.Pointers` in the order in which it is iterated. -/
def scanPkg (pr : Prog) (pkg : Str) : List Pointer → PMap → Res PMap
  | [], m => .ok m
  | ptr :: t, m => match scanPtr pr pkg ptr m with
    | .ok m => scanPkg pr pkg t m
    | .err e => .err e
    | .panic => .panic

/-- Scanning packages one after the other, each with its own iteration order of the pointers. -/
def scanPkgs (pr : Prog) : List (Str × List Pointer) → PMap → Res PMap
  | [], m => .ok m
  | (pkg, ptrs) :: t, m => match scanPkg pr pkg ptrs m with
    | .ok m => scanPkgs pr t m
    | .err e => .err e
    | .panic => .panic

/-! ### Schemas -/

/-- The scalar members of `spec.Schema`, schema.go:8-122, that the scanner sets, over a type `F` of floats. -/
structure Attrs (F : Type) where
  nullable : Bool := false
  readOnly : Bool := false
  writeOnly : Bool := false
  deprecated : Bool := false
  type : Str := []
  format : Str := []
  pattern : Str := []
  multipleOf : Option F := none
  maximum : Option F := none
  exclusiveMaximum : Bool := false
  minimum : Option F := none
  exclusiveMinimum : Bool := false
  maxLength : Option Int := none
  minLength : Option Int := none
  maxItems : Option Int := none
  minItems : Option Int := none
  uniqueItems : Bool := false
  maxProperties : Option Int := none
  minProperties : Option Int := none
  required : List Str := []
  deriving DecidableEq

/-- `spec.Schema`, schema.go:8-122, with the members the scanner uses. -/
inductive Schema (F : Type) where
  | mk (ref : Option Pointer) (a : Attrs F) (items additional : Option (Schema F)) (oneOf : List (Schema F))
      (properties : List (Str × Schema F))

namespace Schema
variable {F : Type}
def ref : Schema F → Option Pointer | .mk r _ _ _ _ _ => r
def attrs : Schema F → Attrs F | .mk _ a _ _ _ _ => a
def items : Schema F → Option (Schema F) | .mk _ _ i _ _ _ => i
def additional : Schema F → Option (Schema F) | .mk _ _ _ d _ _ => d
def oneOf : Schema F → List (Schema F) | .mk _ _ _ _ o _ => o
def properties : Schema F → List (Str × Schema F) | .mk _ _ _ _ _ p => p
/-- The schema with other scalar members. -/
def withAttrs (s : Schema F) (f : Attrs F → Attrs F) : Schema F :=
  match s with
  | .mk r a i d o p => .mk r (f a) i d o p
/-- A schema with scalar members only. -/
def plain (a : Attrs F) : Schema F := .mk none a none none [] []
end Schema

/-- Assignment to a member of the map `Properties`. -/
def putProp {F : Type} (k : Str) (v : Schema F) : List (Str × Schema F) → List (Str × Schema F)
  | [] => [(k, v)]
  | (k', v') :: t => if k = k' then (k, v) :: t else (k', v') :: putProp k v t

/-- What the conversion depends on: the defined types, the collected points, tag parsing (`tag.Parse`), the table
`refStdMapping` (types.go:337-346) by pointer text, the number zero, and the sorting inside `pick` (point.go:158-165): `srt i` is
what `sort.Sort` makes of the points when it is called for the `i`-th struct field (it sorts the stored slice in place, so that
its result can differ between calls, but always is a permutation in order of the fragment length). -/
structure Ctx (F : Type) where
  env : Env
  m : PMap
  tagOf : Str → Res (TagP.Tag F)
  std : Str → Option (Schema F)
  zero : F
  srt : Nat → List Pointer → List Pointer

section
variable {F : Type}

/-- The switch on the kind in `basic2schema`, types.go:373-404. -/
def kindAttrs (zero : F) : Kind → Option (Attrs F)
  | .float32 => some { type := b!"number", format := b!"float" }
  | .float64 => some { type := b!"number", format := b!"double" }
  | .uint | .uint32 => some { type := b!"integer", format := b!"int32", minimum := some zero }
  | .uint8 => some { type := b!"integer", format := b!"int32", minimum := some zero }
  | .uint16 => some { type := b!"integer", format := b!"int32", minimum := some zero }
  | .uint64 => some { type := b!"integer", format := b!"int64", minimum := some zero }
  | .int | .int32 => some { type := b!"integer", format := b!"int32" }
  | .int8 => some { type := b!"integer", format := b!"int32" }
  | .int16 => some { type := b!"integer", format := b!"int32" }
  | .int64 => some { type := b!"integer", format := b!"int64" }
  | .bool => some { type := b!"boolean" }
  | .string => some { type := b!"string" }
  | .other _ => none

/-- `x` unless it is nil, else `y`: `if x != nil { y = x }`. -/
def orElse {α : Type} (x y : Option α) : Option α :=
  match x with
  | some v => some v
  | none => y

/-- The switch on the type in `basic2schema`, types.go:406-433. -/
def constrain (a : Attrs F) (tg : TagP.Tag F) : Attrs F :=
  if a.type = b!"number" ∨ a.type = b!"integer" then
    let a := { a with minimum := orElse tg.min a.minimum }
    let a := { a with maximum := orElse tg.max a.maximum }
    let a := if tg.emin.isSome then { a with minimum := tg.emin, exclusiveMinimum := true } else a
    let a := if tg.emax.isSome then { a with maximum := tg.emax, exclusiveMaximum := true } else a
    { a with multipleOf := orElse tg.mulOf a.multipleOf }
  else if a.type = b!"string" then
    let a := { a with maxLength := orElse tg.maxLen a.maxLength }
    let a := { a with minLength := orElse tg.minLen a.minLength }
    { a with pattern := tg.pattern }
  else a

/-- `basic2schema`, types.go:371-436. -/
def basic2schema (zero : F) (k : Kind) (tg : TagP.Tag F) : Res (Schema F) :=
  match kindAttrs zero k with
  | none => .err .unsupported
  | some a => .ok (.plain (constrain a tg))

/-- `strings.Trim(t, " ")`. -/
def trimSpaces (s : Str) : Str := ((s.dropWhile (· == 32)).reverse.dropWhile (· == 32)).reverse

/-- `basicString2schema`, types.go:438-490. -/
def basicString2schema (zero : F) (t : Str) (tg : TagP.Tag F) : Res (Schema F) :=
  let y := trimSpaces t
  let str (format : Str) : Res (Schema F) :=
    match basic2schema zero .string tg with
    | .ok s => .ok (s.withAttrs fun a => { a with format := format })
    | .err e => .err e
    | .panic => .panic
  if y = b!"string" then basic2schema zero .string tg
  else if y = b!"float32" ∨ y = b!"float" then basic2schema zero .float32 tg
  else if y = b!"float64" ∨ y = b!"double" then basic2schema zero .float64 tg
  else if y = b!"uint" then basic2schema zero .uint tg
  else if y = b!"uint8" then basic2schema zero .uint8 tg
  else if y = b!"uint16" then basic2schema zero .uint16 tg
  else if y = b!"uint32" then basic2schema zero .uint32 tg
  else if y = b!"uint64" then basic2schema zero .uint64 tg
  else if y = b!"int" then basic2schema zero .int tg
  else if y = b!"int8" then basic2schema zero .int8 tg
  else if y = b!"int16" then basic2schema zero .int16 tg
  else if y = b!"int32" ∨ y = b!"integer" then basic2schema zero .int32 tg
  else if y = b!"int64" then basic2schema zero .int64 tg
  else if y = b!"bool" then basic2schema zero .bool tg
  else if y = b!"base64" then str b!"binary"
  else if y = b!"uuid" then str b!"uuid"
  else if y = b!"password" then str b!"password"
  else if y = b!"number" then .ok (.plain { type := b!"number" })
  else if y = b!"object" then .ok (.plain { type := b!"object" })
  else .err .unsupported

/-- `pointmap.pick`, point.go:158-165, at the `i`-th field. -/
def pick (cx : Ctx F) (i : Nat) (t : GoType) : Option Pointer := (cx.srt i (cx.m.at t)).head?

/-- `reference2schema`, types.go:348-359. -/
def reference2schema (cx : Ctx F) (i : Nat) (t : GoType) : Res (Schema F) :=
  match pick cx i t with
  | none => .err .notFound
  | some ptr => match cx.std ptr.toStr with
    | some s => .ok s
    | none => .ok (.mk (some ptr) {} none none [] [])

/-- `castInlineStruct`, types.go:492-507. -/
def castInlineStruct (env : Env) (f : FieldInfo) (t : GoType) (tg : TagP.Tag F) : Option (List (FieldInfo × GoType)) :=
  let tx := match under env t with
    | .pointer e => under env e
    | u => u
  match tx with
  | .struct fs => if tg.inline.getD f.embedded then some fs else none
  | _ => none

/-- `structField`, types.go:509-512. -/
structure StructField (F : Type) where
  field : FieldInfo
  typ : GoType
  tag : TagP.Tag F

/-- The loop of `collectStructFields`, types.go:520-544; `call` is the recursive call on an inlined struct. -/
def collectLoop (env : Env) (tagOf : Str → Res (TagP.Tag F)) (call : List (FieldInfo × GoType) → Res (List (StructField F))) :
    List (FieldInfo × GoType) → Res (List (StructField F))
  | [] => .ok []
  | (f, t) :: rest => match tagOf f.tag with
    | .err e => .err e
    | .panic => .panic
    | .ok tx =>
      if tx.ignore ∨ f.exported = false then collectLoop env tagOf call rest
      else match (match castInlineStruct env f t tx with
          | some st => call st
          | none => .ok [⟨f, t, tx⟩]) with
        | .err e => .err e
        | .panic => .panic
        | .ok z => match collectLoop env tagOf call rest with
          | .ok l => .ok (z ++ l)
          | .err e => .err e
          | .panic => .panic

/-- `collectStructFields`, types.go:514-546, with a bound on the depth of the recursion. -/
def collectFields (env : Env) (tagOf : Str → Res (TagP.Tag F)) : Nat → List (FieldInfo × GoType) → List GoType → Res (List (StructField F))
  | 0, _, _ => .err .fuel
  | n + 1, fs, p =>
    if GoType.struct fs ∈ p then .ok []
    else collectLoop env tagOf (fun st => collectFields env tagOf n st (p ++ [.struct fs])) fs

/-- `name`, types.go:213-216. -/
def StructField.key (x : StructField F) : Str := if x.tag.name ≠ [] then x.tag.name else x.field.name

/-- What `struct2schema` writes into the schema of a field that is not a reference, types.go:224-231. -/
def dress (tg : TagP.Tag F) (a : Attrs F) : Attrs F :=
  { a with
    deprecated := tg.deprecated
    readOnly := tg.readOnly
    writeOnly := tg.writeOnly
    format := tg.format
    nullable := tg.nullable.getD a.nullable }

/-- The schema of a field before `dress`, types.go:196-207; `call` is `type2schema` with the path of the struct. -/
def fieldSchema (cx : Ctx F) (call : Nat → GoType → TagP.Tag F → Res (Schema F)) (i : Nat) (x : StructField F) : Res (Schema F) :=
  if x.tag.type ≠ [] then basicString2schema cx.zero x.tag.type x.tag
  else match under cx.env x.typ with
    | .struct fs => reference2schema cx i (.struct fs)
    | z => call i z x.tag

/-- The loop of `struct2schema`, types.go:193-236: properties and required names so far. -/
def structLoop (cx : Ctx F) (call : Nat → GoType → TagP.Tag F → Res (Schema F)) :
    Nat → List (StructField F) → List (Str × Schema F) → List Str → Res (List (Str × Schema F) × List Str)
  | _, [], props, req => .ok (props, req)
  | i, x :: rest, props, req => match fieldSchema cx call i x with
    | .err e => .err e
    | .panic => .panic
    | .ok s =>
      if s.ref.isSome then structLoop cx call (i + 1) rest (putProp x.key s props) req
      else structLoop cx call (i + 1) rest (putProp x.key (s.withAttrs (dress x.tag)) props)
        (if x.tag.required then req ++ [x.key] else req)

/-- `struct2schema`, types.go:183-239.  `collectFields` gets a depth that is never reached (theorem `C39_terminates`). -/
def struct2schema (cx : Ctx F) (call : Nat → GoType → TagP.Tag F → Res (Schema F)) (fs : List (FieldInfo × GoType)) : Res (Schema F) :=
  match collectFields cx.env cx.tagOf (depth cx.env (.struct fs)) fs [] with
  | .err e => .err e
  | .panic => .panic
  | .ok fields => match structLoop cx call 0 fields [] [] with
    | .err e => .err e
    | .panic => .panic
    | .ok (props, req) => .ok (.mk none { type := b!"object", required := req } none none [] props)

/-- `map2schema`, types.go:241-259, after the element. -/
def mapSchema (tg : TagP.Tag F) (s : Schema F) : Schema F :=
  .mk none { type := b!"object", nullable := tg.nullable.getD true, minProperties := tg.minProps, maxProperties := tg.maxProps }
    none (some s) [] []

/-- `slice2schema`, types.go:261-280, after the element. -/
def sliceSchema (tg : TagP.Tag F) (s : Schema F) : Schema F :=
  .mk none { type := b!"array", nullable := tg.nullable.getD true, minItems := tg.minItems, maxItems := tg.maxItems,
             uniqueItems := tg.uniqItems } (some s) none [] []

/-- `array2schema`, types.go:282-306, after the element. -/
def arraySchema (len : Int) (tg : TagP.Tag F) (s : Schema F) : Schema F :=
  .mk none { type := b!"array", nullable := tg.nullable.getD false, minItems := tg.minItems,
             maxItems := if len > 0 then some len else tg.maxItems, uniqueItems := tg.uniqItems } (some s) none [] []

/-- `pointer2schema`, types.go:308-335, after the element. -/
def pointerSchema (tg : TagP.Tag F) (s : Schema F) : Schema F :=
  let s := s.withAttrs fun a => { a with nullable := tg.nullable.getD true }
  if s.ref = none then s
  else if s.attrs.nullable = false then s
  else
    let s := s.withAttrs fun a => { a with nullable := false }
    .mk none {} none none [s, .plain { type := b!"object", nullable := true }] []

/-- `typeElement2schema`, types.go:173-181, and the continuation `k` of its caller. -/
def element (t e : GoType) (call : GoType → Res (Schema F)) (k : Schema F → Schema F) : Res (Schema F) :=
  if t = e then .err .unsupported
  else match call e with
    | .ok s => .ok (k s)
    | .err e => .err e
    | .panic => .panic

/-- `type2schema`, types.go:133-171, with a bound on the depth of the recursion; `i` is the number of the struct field the
conversion is for. -/
def type2schema (cx : Ctx F) : Nat → Nat → GoType → List GoType → TagP.Tag F → Res (Schema F)
  | 0, _, _, _, _ => .err .fuel
  | n + 1, i, t, tp, tg =>
    let u := under cx.env t
    if u ∈ tp then reference2schema cx i u
    else
      let tp' := tp ++ [u]
      match u with
      | .struct fs =>
        if tp'.length = 1 then struct2schema cx (fun i t tg => type2schema cx n i t tp' tg) fs
        else reference2schema cx i (.struct fs)
      | .array len e => element (.array len e) e (fun e => type2schema cx n i e tp' tg) (arraySchema len tg)
      | .basic k => basic2schema cx.zero k tg
      | .map k e => element (.map k e) e (fun e => type2schema cx n i e tp' tg) (mapSchema tg)
      | .slice e => element (.slice e) e (fun e => type2schema cx n i e tp' tg) (sliceSchema tg)
      | .pointer e => element (.pointer e) e (fun e => type2schema cx n i e tp' tg) (pointerSchema tg)
      | _ => .err .unsupported

/-- `Scanner.Resolve`, scan.go:26-34: that no type was found is not looked at, and `Underlying` is then called on a nil type. -/
def resolve (cx : Ctx F) (ptr : Pointer) : Res (Schema F) :=
  match cx.m.findType ptr with
  | none => .panic
  | some t => type2schema cx (depth cx.env t) 0 t [] {}

end
end Oapi.Types
