import Verif.Model.Container
import Verif.Model.Pointer

/- Model of /repo/internal/oapi/resolver/resolver.go and utils.go, and of /repo/internal/oapi/spec/entity.go. -/
namespace Oapi.Resolver

/-- `type Entity uint`, spec/entity.go:10-40. -/
inductive Kind where
  | invalid | reference | schema | response | parameter | example | requestBody | header
  | securityScheme | link | callback | pathItem
  deriving DecidableEq, Repr

/-- `Entity.Key`, spec/entity.go:42-66: there is no case for headers. -/
def Kind.key : Kind → Str
  | .schema => b!"schemas"
  | .response => b!"responses"
  | .parameter => b!"parameters"
  | .example => b!"examples"
  | .requestBody => b!"requestBodies"
  | .securityScheme => b!"securitySchemes"
  | .link => b!"links"
  | .callback => b!"callbacks"
  | .pathItem => b!"paths"
  | .reference => b!"*"
  | .invalid => b!"invalid"
  | .header => b!"invalid"

/-- `resolver.Pointer`, resolver.go:12-15, with its embedded `Entity`, utils.go:14-17. -/
structure Export where
  kind : Kind
  name : Str
  ptr : Pointer
  deriving DecidableEq, Repr

/-- `Entity.Path`, utils.go:20-22 with spec/entity.go:69-71. -/
def Export.path (e : Export) : Str := b!"components." ++ e.kind.key ++ 46 :: e.name

/-- The value of a fragment call whose error is dropped. -/
def orEmpty : Res Fragment → Fragment
  | .ok f => f
  | _ => []

/-- `Entity.Fragment`, utils.go:25-28 with spec/entity.go:74-77. -/
def Export.fragment (e : Export) : Fragment :=
  let base := orEmpty (Fragment.new (b!"/components/" ++ e.kind.key))
  match base.descendant e.name with
  | .ok f => f
  | _ => base

/-- `IsScheme`, utils.go:31-33. -/
def Export.isScheme (e : Export) : Bool := e.kind = .schema

/-- `Exports.Get`, resolver.go:21-28: pointers are compared as strings. -/
def get (exp : List Export) (p : Pointer) : Option Export := exp.find? fun x => x.ptr.toStr = p.toStr

/-- `isref`, utils.go:83-93 (`strings.Split` never returns an empty slice here). -/
def isref (s : Str) : Option Str :=
  let ss := Str.split 46 s
  if ss.getLast? = some b!"$ref" then some (Str.join 46 ss.dropLast) else none

/-- What the iteration runs on: the exports, the resolver function (its result as marshalled by `container.Make`,
resolver.go:33-39), and the order in which the `n`-th call of `iterator` visits the extracted references. -/
structure Cfg where
  exp : List Export
  res : Pointer → Res Json
  ord : Nat → List (Str × Json) → List (Str × Json)

/-- `resolver.con` and the number of iterator calls made so far. -/
structure St where
  con : Json
  clock : Nat

/-- The container a call works on: `none` is `r.con` itself (the first call, resolver.go:58), so that writes to the one are
seen in the other; nested calls work on a container of their own. -/
abbrev Cur := Option Json

def readCur (cx : Cur) (st : St) : Json := cx.getD st.con

/-- `cx.SetP(key, v)`. -/
def setCur (cx : Cur) (st : St) (key : Str) (v : Json) : Res (Cur × St) :=
  match Container.setP (readCur cx st) key v with
  | .err e => .err e
  | .panic => .panic
  | .ok j => match cx with
    | none => .ok (none, { st with con := j })
    | some _ => .ok (some j, st)

/-- `ReplacePtr`, utils.go:49-56. -/
def replacePtr (cx : Cur) (st : St) (key : Str) (v : Json) : Res (Cur × St) :=
  match isref key with
  | none => .err .syntaxErr
  | some path => setCur cx st path v

/-- `UpdatePtrToLocal` and `UpdatePtr`, utils.go:65-81. -/
def updateLocal (cx : Cur) (st : St) (key : Str) (f : Fragment) : Res (Cur × St) :=
  match isref key with
  | none => .err .syntaxErr
  | some _ => setCur cx st key (.str (Pointer.toStr { fragment := f }))

/-- `set`, resolver.go:108-122. -/
def set (cfg : Cfg) (cx : Cur) (st : St) (p : Pointer) (key : Str) (v : Json) : Res (Cur × St) :=
  match get cfg.exp p with
  | none => replacePtr cx st key v
  | some e => match Container.setP st.con e.path v with
    | .err e => .err e
    | .panic => .panic
    | .ok con => updateLocal cx { st with con := con } key e.fragment

/-- `setRecursive`, resolver.go:124-130. -/
def setRecursive (cfg : Cfg) (cx : Cur) (st : St) (p : Pointer) (key : Str) : Res (Cur × St) :=
  match get cfg.exp p with
  | some e => if e.isScheme then updateLocal cx st key e.fragment else replacePtr cx st key (.obj [])
  | none => replacePtr cx st key (.obj [])

/-- The body of the loop, resolver.go:67-102.  `call` is the recursive call on a new container.  The path is kept as the list
of the pointers' strings, which is all `path.has` looks at (resolver.go:134-142). -/
def visit (cfg : Cfg) (call : List Str → Json → St → Res (Cur × St)) (pp : List Str) (cx : Cur) (st : St)
    (key : Str) (v : Json) : Res (Cur × St) :=
  match v with
  | .str s => match Pointer.parse s with
    | .err e => .err e
    | .panic => .panic
    | .ok p =>
      if p.isExternal = false then .ok (cx, st)
      else if p.toStr ∈ pp then setRecursive cfg cx st p key
      else match cfg.res p with
        | .err e => .err e
        | .panic => .panic
        | .ok nc => match call (pp ++ [p.toStr]) nc st with
          | .err e => .err e
          | .panic => .panic
          | .ok (nc', st') => set cfg cx st' p key (readCur nc' st')
  | _ => .ok (cx, st)

/-- The loop, resolver.go:67-103. -/
def loop (cfg : Cfg) (call : List Str → Json → St → Res (Cur × St)) (pp : List Str) : List (Str × Json) → Cur → St → Res (Cur × St)
  | [], cx, st => .ok (cx, st)
  | (key, v) :: t, cx, st => match visit cfg call pp cx st key v with
    | .err e => .err e
    | .panic => .panic
    | .ok (cx, st) => loop cfg call pp t cx st

/-- `iterator`, resolver.go:61-104, with a bound on the recursion depth. -/
def iter (cfg : Cfg) : Nat → List Str → Cur → St → Res (Cur × St)
  | 0, _, _, _ => .err .fuel
  | n + 1, pp, cx, st => match Container.extractKey (readCur cx st) b!"$ref" with
    | .err e => .err e
    | .panic => .panic
    | .ok refs => loop cfg (fun pp j st => iter cfg n pp (some j) st) pp (cfg.ord st.clock refs) cx
        { st with clock := st.clock + 1 }

/-- `Resolve`, resolver.go:42-59, within a recursion depth of `fuel`. -/
def resolve (cfg : Cfg) (fuel : Nat) (c : Json) : Res Json :=
  match iter cfg fuel [] none ⟨c, 0⟩ with
  | .err e => .err e
  | .panic => .panic
  | .ok (_, st) => .ok st.con

end Oapi.Resolver
