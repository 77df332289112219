import Verif.Model.Pkgs
import Verif.Model.Url
import Verif.Model.SliceHeap
import Verif.Base.Json

/-! Model of the small builders of /repo/internal/oapi/spec. -/
namespace Oapi.SpecUtil
open Pkgs (sortStrs)

/-! ### /repo/internal/oapi/spec/server_util.go -/

/-- The loop of `removeDuplicates`, server_util.go:74-78; `prev` is `a[i-1]`. -/
def dropRepeats (prev : Str) : List Str → List Str
  | [] => []
  | x :: t => if prev ≠ x then x :: dropRepeats x t else dropRepeats x t

/-- `removeDuplicates`, server_util.go:68-80, as a function of the values; that it sorts its argument in place is modelled by
`callerAfter`. -/
def removeDuplicates (a : List Str) : List Str :=
  if a.length ≤ 1 then a
  else match sortStrs a with
    | [] => []
    | h :: t => h :: dropRepeats h t

/-- `ServerVariable`, server_variable.go:4-17, without the description. -/
structure ServerVariable where
  enum : List Str
  default : Str
  deriving DecidableEq, Repr

/-- `Server`, server.go:4-19, without the description. -/
structure Server where
  url : Str
  variables : List (Str × ServerVariable) := []
  deriving DecidableEq, Repr

/-- net/url `URL.Port`: what follows the last colon of the host if that is a valid port. -/
def port (u : Url.URL) : Str :=
  match Url.fromLastColon u.host with
  | some p => if Url.validOptionalPort p then p.drop 1 else []
  | none => []

/-- hosts, paths and ports of NewServers. -/
structure Parts where
  hosts : List Str
  paths : List Str
  ports : List Str
  deriving DecidableEq, Repr

/-- One round of the loop over the URIs, server_util.go:23-40; a failing `url.Parse` is an error. -/
def addParts (ps : Parts) (v : Str) : Res Parts :=
  match Url.Parse v with
  | none => .err .syntaxErr
  | some u => .ok
    ⟨if Url.hostname u ≠ [] then ps.hosts ++ [Url.hostname u] else ps.hosts,
     if u.path ≠ [] then ps.paths ++ [u.path] else ps.paths,
     if port u ≠ [] then ps.ports ++ [b!":" ++ port u] else ps.ports⟩

/-- The loop, server_util.go:23-40. -/
def allParts : List Str → Parts → Res Parts
  | [], ps => .ok ps
  | v :: t, ps => match addParts ps v with
    | .ok ps' => allParts t ps'
    | .err e => .err e
    | .panic => .panic

/-- `&ServerVariable{Enum: l, Default: l[0]}`; indexing an empty slice panics. -/
def mkVar (l : List Str) : Res ServerVariable :=
  match l with
  | [] => .panic
  | h :: _ => .ok ⟨l, h⟩

/-- `NewServers`, server_util.go:9-66. -/
def newServers (uris : List Str) : Res (List Server) := do
  let uris := removeDuplicates (uris ++ [b!"/"])
  let ss : List Server := uris.map fun v => { url := v }
  let ps ← allParts uris ⟨[b!"localhost"], [b!"/"], [[]]⟩
  let scheme ← mkVar [b!"http://", b!"https://"]
  let host ← mkVar (removeDuplicates ps.hosts)
  let port ← mkVar (removeDuplicates ps.ports)
  let path ← mkVar (removeDuplicates ps.paths)
  return ss ++ [{ url := b!"{scheme}{host}{port}{path}",
                  variables := [(b!"scheme", scheme), (b!"host", host), (b!"port", port), (b!"path", path)] }]

/-- What the slice passed as `uris...` reads as after `append(uris, "/")` and the sort inside `removeDuplicates`
(server_util.go:10-11, 72): with spare capacity the append writes behind the slice in its own array, and the sort reorders
that array; without, both work on a fresh array.  `cap` is the capacity of the slice. -/
def callerAfter (uris : List Str) (cap : Nat) : List Str :=
  if uris.length + 1 ≤ cap ∧ 1 < uris.length + 1 then (sortStrs (uris ++ [b!"/"])).take uris.length else uris

/-! ### /repo/internal/oapi/spec/response_util.go -/

/-- A Go map from strings to pointers: nil or a finite map. Values are non-nil pointers `V`, or nil. -/
abbrev GMap (V : Type) := Option (Str → Option (Option V))

/-- `m[k]` and whether it is there. -/
def GMap.get {V : Type} (m : GMap V) (k : Str) : Option (Option V) := m.bind (· k)

/-- `m[k] = v`: panics on a nil map. -/
def GMap.set {V : Type} (m : GMap V) (k : Str) (v : Option V) : Res (GMap V) :=
  match m with
  | none => .panic
  | some f => .ok (some fun x => if x = k then some v else f x)

/-- `delete(m, k)`: does nothing on a nil map. -/
def GMap.del {V : Type} (m : GMap V) (k : Str) : GMap V := m.map fun f x => if x = k then none else f x

/-- `if m == nil { m = map[string]*V{} }`. -/
def GMap.ensure {V : Type} (m : GMap V) : GMap V :=
  match m with
  | none => some fun _ => none
  | some f => some f

/-- `Response`, response.go:4-26; headers, media types and links are opaque pointers. -/
structure Response (H M L : Type) where
  description : Str
  headers : GMap H
  content : GMap M
  links : GMap L

section
variable {H M L : Type}

/-- `NewResponse`, response_util.go:34-42: a single content entry. -/
def newResponse (typ : Str) (m : M) : Response H M L :=
  ⟨[], none, some fun k => if k = typ then some (some m) else none, none⟩

/-- `RemoveHeader`, response_util.go:63-66. -/
def removeHeader (r : Response H M L) (name : Str) : Response H M L := { r with headers := r.headers.del name }
/-- `RemoveContent`, response_util.go:81-84. -/
def removeContent (r : Response H M L) (name : Str) : Response H M L := { r with content := r.content.del name }
/-- `RemoveLink`, response_util.go:99-102. -/
def removeLink (r : Response H M L) (name : Str) : Response H M L := { r with links := r.links.del name }

/-- `AddHeader`, response_util.go:51-60. -/
def addHeader (r : Response H M L) (name : Str) (h : Option H) : Res (Response H M L) :=
  match h with
  | none => .ok (removeHeader r name)
  | some h => match (r.headers.ensure).set name (some h) with
    | .ok m => .ok { r with headers := m }
    | .err e => .err e
    | .panic => .panic

/-- `AddContent`, response_util.go:69-78: a nil content calls `RemoveHeader`. -/
def addContent (r : Response H M L) (name : Str) (c : Option M) : Res (Response H M L) :=
  match c with
  | none => .ok (removeHeader r name)
  | some c => match (r.content.ensure).set name (some c) with
    | .ok m => .ok { r with content := m }
    | .err e => .err e
    | .panic => .panic

/-- `AddLink`, response_util.go:87-96: a nil link calls `RemoveHeader`. -/
def addLink (r : Response H M L) (name : Str) (l : Option L) : Res (Response H M L) :=
  match l with
  | none => .ok (removeHeader r name)
  | some l => match (r.links.ensure).set name (some l) with
    | .ok m => .ok { r with links := m }
    | .err e => .err e
    | .panic => .panic
end

/-! ### /repo/internal/oapi/spec/paths.go -/

/-- `PathItem`, paths.go:12-54: its operations. -/
structure PathItem (Op : Type) where
  get : Option Op := none
  put : Option Op := none
  post : Option Op := none
  delete : Option Op := none
  options : Option Op := none
  head : Option Op := none
  patch : Option Op := none
  trace : Option Op := none

/-- The body of the loop, paths.go:60-65. -/
def pushOp {Op : Type} (oo : List Op) : Option Op → List Op
  | none => oo
  | some o => oo ++ [o]

/-- `PathItem.Operations`, paths.go:57-67. -/
def operations {Op : Type} (s : PathItem Op) : List Op :=
  let ops := [] ++ [s.get, s.put, s.post, s.delete, s.options, s.head, s.patch, s.trace]
  ops.foldl pushOp []

/-! ### /repo/internal/oapi/spec/any_or_expressions.go, any.go -/

/-- `AnyOrExpressions`, any_or_expressions.go:9-12.  `Any` holds encoded JSON; the model keeps the value it encodes, and
`none` for a nil slice.  An `Any` holding bytes that are not JSON is not modelled. -/
structure AnyOrExpr where
  expressions : Str := []
  any : Option Json := none

/-- `AnyOrExpressions.MarshalJSON`, any_or_expressions.go:15-20, and `Any.MarshalJSON`, any.go:20-25: the value encoded. -/
def AnyOrExpr.encode (m : AnyOrExpr) : Json :=
  if m.expressions ≠ [] then .str m.expressions
  else match m.any with
    | none => .null
    | some j => j

/-- `AnyOrExpressions.UnmarshalJSON`, any_or_expressions.go:23-34, and `Any.UnmarshalJSON`, any.go:28-34, of an encoding of `j`
into `*m`: a string is decoded into `Expressions`, anything else into `Any`; the other field keeps what it had. -/
def AnyOrExpr.decodeInto (m : AnyOrExpr) (j : Json) : AnyOrExpr :=
  match j with
  | .str s => { m with expressions := s }
  | j => { m with any := some j }

/-! ### /repo/internal/oapi/spec/security_scheme_util.go -/

/-- `OAuthFlow`, oauth_flow.go:4-27: the two URLs set by the constructors. -/
structure OAuthFlow where
  authorizationURL : Str := []
  tokenURL : Str := []
  deriving DecidableEq, Repr

/-- `OAuthFlows`, oauth_flows.go:4-19: four pointers, nil in `&OAuthFlows{}`. -/
structure OAuthFlows where
  implicit : Option OAuthFlow := none
  password : Option OAuthFlow := none
  clientCredentials : Option OAuthFlow := none
  authorizationCode : Option OAuthFlow := none
  deriving DecidableEq, Repr

/-- `SecurityScheme`, security_scheme.go: the fields set by the constructors. -/
structure SecurityScheme where
  type : Str := []
  name : Str := []
  in_ : Str := []
  scheme : Str := []
  bearerFormat : Str := []
  flows : Option OAuthFlows := none
  deriving DecidableEq, Repr

/-- Assignment to a field of `*p`: panics if `p` is nil. -/
def assign {α : Type} (p : Option α) (f : α → α) : Res (Option α) :=
  match p with
  | none => .panic
  | some x => .ok (some (f x))

/-- `BasicAuth`, security_scheme_util.go:11-16. -/
def basicAuth : Res SecurityScheme := .ok { type := b!"http", scheme := b!"basic" }
/-- `BearerAuth`, security_scheme_util.go:19-25. -/
def bearerAuth (format : Str) : Res SecurityScheme := .ok { type := b!"http", scheme := b!"bearer", bearerFormat := format }
/-- `APIKeyAuth`, security_scheme_util.go:28-34. -/
def apiKeyAuth (fieldName valueSource : Str) : Res SecurityScheme := .ok { type := b!"apiKey", name := fieldName, in_ := valueSource }

/-- `OAuth2Implicit`, security_scheme_util.go:37-43. -/
def oauth2Implicit (authorizationURL : Str) : Res SecurityScheme := do
  let fl : OAuthFlows := {}
  let p ← assign fl.implicit fun f => { f with authorizationURL := authorizationURL }
  return { type := b!"oauth2", flows := some { fl with implicit := p } }

/-- `OAuth2Password`, security_scheme_util.go:46-52. -/
def oauth2Password (tokenURL : Str) : Res SecurityScheme := do
  let fl : OAuthFlows := {}
  let p ← assign fl.password fun f => { f with tokenURL := tokenURL }
  return { type := b!"oauth2", flows := some { fl with password := p } }

/-- `OAuth2AuthorizationCode`, security_scheme_util.go:55-61. -/
def oauth2AuthorizationCode (tokenURL : Str) : Res SecurityScheme := do
  let fl : OAuthFlows := {}
  let p ← assign fl.authorizationCode fun f => { f with tokenURL := tokenURL }
  return { type := b!"oauth2", flows := some { fl with authorizationCode := p } }

/-- `OAuth2ClientCredentials`, security_scheme_util.go:64-71. -/
def oauth2ClientCredentials (authorizationURL tokenURL : Str) : Res SecurityScheme := do
  let fl : OAuthFlows := {}
  let p ← assign fl.clientCredentials fun f => { f with authorizationURL := authorizationURL }
  let p ← assign p fun f => { f with tokenURL := tokenURL }
  return { type := b!"oauth2", flows := some { fl with clientCredentials := p } }

end Oapi.SpecUtil
