import Verif.Base.Json
import Verif.Model.Pointer
import Verif.Spec.PtrJson

/- Specification of C89: what reading a section of an OpenAPI document into the tool's data types and writing it again keeps. -/
namespace Oapi.Spec.SpecJson

/-- The sections of an OpenAPI document. -/
inductive Section where
  | openapi | info | contact | license | server | serverVariable | tag | externalDocs | components | schema | discriminator | xml
  | response | parameter | example | requestBody | header | securityScheme | oauthFlows | oauthFlow | link | pathItem | operation
  | mediaType | encoding
  deriving DecidableEq, Repr

/-- What a member holds. -/
inductive Kind where
  | text | flag | number | integer
  /-- Any value. -/
  | free
  | reference
  /-- A runtime expression or any value. -/
  | expression
  | callback
  | list (k : Kind)
  | dict (k : Kind)
  | sec (s : Section)
  deriving DecidableEq, Repr

def all (k : Kind) (names : List Str) : List (Str × Kind) := names.map fun n => (n, k)

def aReference : List (Str × Kind) := [(b!"$ref", .reference)]

/-- The members the tool knows. -/
def members : Section → List (Str × Kind)
  | .openapi => all .text [b!"openapi"] ++ all (.sec .info) [b!"info"] ++ all (.list (.sec .server)) [b!"servers"]
      ++ all (.dict (.sec .pathItem)) [b!"paths"] ++ all (.sec .components) [b!"components"]
      ++ all (.list (.dict (.list .text))) [b!"security"] ++ all (.list (.sec .tag)) [b!"tags"] ++ all (.sec .externalDocs) [b!"externalDocs"]
  | .info => all .text [b!"title", b!"description", b!"termsOfService", b!"version"] ++ all (.sec .contact) [b!"contact"]
      ++ all (.sec .license) [b!"license"]
  | .contact => all .text [b!"name", b!"url", b!"email"]
  | .license => all .text [b!"name", b!"url"]
  | .server => all .text [b!"url", b!"description"] ++ all (.dict (.sec .serverVariable)) [b!"variables"]
  | .serverVariable => all .text [b!"default", b!"description"] ++ all (.list .text) [b!"enum"]
  | .tag => all .text [b!"name", b!"description"] ++ all (.sec .externalDocs) [b!"externalDocs"]
  | .externalDocs => all .text [b!"description", b!"url"]
  | .components => all (.dict (.sec .schema)) [b!"schemas"] ++ all (.dict (.sec .response)) [b!"responses"]
      ++ all (.dict (.sec .parameter)) [b!"parameters"] ++ all (.dict (.sec .example)) [b!"examples"]
      ++ all (.dict (.sec .requestBody)) [b!"requestBodies"] ++ all (.dict (.sec .header)) [b!"headers"]
      ++ all (.dict (.sec .securityScheme)) [b!"securitySchemes"] ++ all (.dict (.sec .link)) [b!"links"]
      ++ all (.dict .callback) [b!"callbacks"]
  | .schema => aReference
      ++ all .text [b!"title", b!"description", b!"type", b!"format", b!"pattern"]
      ++ all .flag [b!"nullable", b!"readOnly", b!"writeOnly", b!"deprecated", b!"exclusiveMaximum", b!"exclusiveMinimum", b!"uniqueItems"]
      ++ all .number [b!"multipleOf", b!"maximum", b!"minimum"]
      ++ all .integer [b!"maxLength", b!"minLength", b!"maxItems", b!"minItems", b!"maxProperties", b!"minProperties"]
      ++ all .free [b!"example", b!"default"] ++ all (.list .free) [b!"enum"] ++ all (.list .text) [b!"required"]
      ++ all (.list (.sec .schema)) [b!"allOf", b!"oneOf", b!"anyOf"]
      ++ all (.sec .schema) [b!"not", b!"items", b!"additionalProperties"] ++ all (.dict (.sec .schema)) [b!"properties"]
      ++ all (.sec .discriminator) [b!"discriminator"] ++ all (.sec .xml) [b!"xml"] ++ all (.sec .externalDocs) [b!"externalDocs"]
  | .discriminator => all .text [b!"propertyName"] ++ all (.dict .text) [b!"mapping"]
  | .xml => all .text [b!"name", b!"namespace", b!"prefix"] ++ all .flag [b!"attribute", b!"wrapped"]
  | .response => aReference ++ all .text [b!"description"] ++ all (.dict (.sec .header)) [b!"headers"]
      ++ all (.dict (.sec .mediaType)) [b!"content"] ++ all (.dict (.sec .link)) [b!"links"]
  | .parameter => aReference ++ all .text [b!"name", b!"in", b!"description", b!"style"]
      ++ all .flag [b!"required", b!"deprecated", b!"allowEmptyValue", b!"explode", b!"allowReserved"]
      ++ all (.sec .schema) [b!"schema"] ++ all .free [b!"example"] ++ all (.dict (.sec .example)) [b!"examples"]
      ++ all (.dict (.sec .mediaType)) [b!"content"]
  | .example => aReference ++ all .text [b!"summary", b!"description", b!"externalValue"] ++ all .free [b!"value"]
  | .requestBody => aReference ++ all .text [b!"description"] ++ all .flag [b!"required"] ++ all (.dict (.sec .mediaType)) [b!"content"]
  | .header => aReference ++ all .text [b!"description", b!"style"]
      ++ all .flag [b!"required", b!"deprecated", b!"allowEmptyValue", b!"explode", b!"allowReserved"]
      ++ all (.sec .schema) [b!"schema"] ++ all .free [b!"example"] ++ all (.dict (.sec .example)) [b!"examples"]
      ++ all (.dict (.sec .mediaType)) [b!"content"]
  | .securityScheme => aReference
      ++ all .text [b!"type", b!"description", b!"name", b!"in", b!"scheme", b!"bearerFormat", b!"openIdConnectUrl"]
      ++ all (.sec .oauthFlows) [b!"flows"]
  | .oauthFlows => all (.sec .oauthFlow) [b!"implicit", b!"password", b!"clientCredentials", b!"authorizationCode"]
  | .oauthFlow => all .text [b!"authorizationUrl", b!"tokenUrl", b!"refreshUrl"]
      -- OpenAPI calls this member `scopes`
      ++ all (.dict .text) [b!"acopes"]
  | .link => aReference ++ all .text [b!"operationRef", b!"operationId", b!"description"] ++ all (.dict .expression) [b!"parameters"]
      ++ all .expression [b!"requestBody"] ++ all (.sec .server) [b!"server"]
  | .pathItem => all .text [b!"summary", b!"description"]
      ++ all (.sec .operation) [b!"get", b!"put", b!"post", b!"delete", b!"options", b!"head", b!"patch", b!"trace"]
      ++ all (.list (.sec .server)) [b!"servers"] ++ all (.list (.sec .parameter)) [b!"parameters"]
  | .operation => all .text [b!"summary", b!"description", b!"operationId"] ++ all (.list .text) [b!"tags"]
      ++ all .flag [b!"deprecated"] ++ all (.sec .externalDocs) [b!"externalDocs"] ++ all (.list (.sec .parameter)) [b!"parameters"]
      ++ all (.sec .requestBody) [b!"requestBody"] ++ all (.dict (.sec .response)) [b!"responses"]
      ++ all (.dict .callback) [b!"callbacks"] ++ all (.list (.dict (.list .text))) [b!"security"]
      ++ all (.list (.sec .server)) [b!"servers"]
  | .mediaType => all (.sec .schema) [b!"schema"] ++ all .free [b!"example"] ++ all (.dict (.sec .example)) [b!"examples"]
      ++ all (.dict (.sec .encoding)) [b!"encoding"]
  | .encoding => all .text [b!"contentType", b!"style"] ++ all .flag [b!"explode", b!"allowReserved"]
      ++ all (.dict (.sec .header)) [b!"headers"]

/-- The members that are always written, also if they were not given. -/
def written : Section → List Str
  | .info => [b!"title", b!"version"]
  | .contact => [b!"name"]
  | .license => [b!"name"]
  | .server => [b!"url"]
  | .serverVariable => [b!"default"]
  | .tag => [b!"name"]
  | .externalDocs => [b!"description"]
  | .discriminator => [b!"propertyName"]
  | .xml => [b!"name"]
  | .response => [b!"content"]
  | .parameter => [b!"name", b!"in", b!"explode"]
  | .example => [b!"value"]
  | .requestBody => [b!"content"]
  | .header => [b!"explode"]
  | .securityScheme => [b!"type"]
  | .encoding => [b!"contentType"]
  | _ => []

/-- A name in small letters; the long s (U+017F) counts as s, the Kelvin sign (U+212A) as k. -/
def lowerName : Str → Str
  | 0xC5 :: 0xBF :: t => 115 :: lowerName t
  | 0xE2 :: 0x84 :: 0xAA :: t => 107 :: lowerName t
  | c :: t => (if 65 ≤ c ∧ c ≤ 90 then c + 32 else c) :: lowerName t
  | [] => []

/-- The value given for a member; letter case does not matter. -/
def given (o : Obj) (m : Str) : Option Json := (o.find? fun kv => lowerName kv.1 = lowerName m).map (·.2)

/-- No member in `ms` is given twice, with different letter case. -/
def NoTwins (ms : List (Str × Kind)) (o : Obj) : Prop :=
  ∀ m k, (m, k) ∈ ms → ∀ a ∈ Obj.keys o, ∀ b ∈ Obj.keys o, lowerName a = lowerName m → lowerName b = lowerName m → a = b

/-- The kind of a member the section knows. -/
def kindOf (s : Section) (m : Str) : Option Kind := ((members s).find? fun e => e.1 = m).map (·.2)

/-- What is written for a value that was not given. -/
def zeroOf : Kind → Json
  | .text => .str []
  | .flag => .bool false
  | _ => .null

/-- Values that are as good as not given. -/
def blank : Kind → Json → Bool
  | .free, _ => false
  | _, .null => true
  | .text, .str s => s.isEmpty
  | .flag, .bool b => !b
  | .list _, .arr xs => xs.isEmpty
  | .dict _, .obj o => o.isEmpty
  | _, _ => false

/-- What a section says about member `m` after it was read and written, if `g` tells what becomes of the values. -/
def expected (s : Section) (o : Obj) (g : Str → Json) (m : Str) : Option Json :=
  match kindOf s m with
  | none => none
  | some k => match given o m with
    | none => if m ∈ written s then some (zeroOf k) else none
    | some x => if m ∉ written s ∧ blank k x = true then none else some (g m)

/-- The surroundings: the characters Go can print, the numbers that are integers of 64 bits, the JSON text of values. -/
structure Around where
  printable : Nat → Bool
  integer : Int → Bool
  jsonText : Json → Str

/-- `Passes e k x y`: `x` is a proper value of kind `k`, and `y` is what is written after it was read. -/
inductive Passes (e : Around) : Kind → Json → Json → Prop where
  | null (k : Kind) : Passes e k .null (zeroOf k)
  | text (s : Str) : Passes e .text (.str s) (.str s)
  | flag (b : Bool) : Passes e .flag (.bool b) (.bool b)
  | number (n : Int) : Passes e .number (.num n) (.num n)
  | integer (n : Int) (h : e.integer n = true) : Passes e .integer (.num n) (.num n)
  | free (j : Json) : Passes e .free j j
  | reference (s : Str) (p : Pointer) (h : Pointer.parse s = .ok p) (hq : PtrJson.Quotable e.printable p.toStr) :
      Passes e .reference (.str s) (.str p.toStr)
  /-- Values that are no texts are accepted as references, see C88. -/
  | oddReference (j : Json) (p : Pointer) (hn : j ≠ .null) (hs : ∀ s, j ≠ .str s) (h : Pointer.parse (e.jsonText j) = .ok p)
      (hq : PtrJson.Quotable e.printable p.toStr) : Passes e .reference j (.str p.toStr)
  | expression (s : Str) (h : s ≠ []) : Passes e .expression (.str s) (.str s)
  | noExpression : Passes e .expression (.str []) .null
  | value (j : Json) (hn : j ≠ .null) (hs : ∀ s, j ≠ .str s) : Passes e .expression j j
  | list (k : Kind) (xs ys : List Json) (hl : xs.length = ys.length)
      (h : ∀ (i : Nat) x y, xs[i]? = some x → ys[i]? = some y → Passes e k x y) : Passes e (.list k) (.arr xs) (.arr ys)
  | dict (k : Kind) (o o' : Obj) (hk : Obj.keys o = Obj.keys o')
      (h : ∀ m x y, Obj.lookup m o = some x → Obj.lookup m o' = some y → Passes e k x y) : Passes e (.dict k) (.obj o) (.obj o')
  | callbackReference (o : Obj) (x y : Json) (hg : given o b!"$ref" = some x) (ht : NoTwins aReference o) (hn : x ≠ .null)
      (h : Passes e .reference x y) : Passes e .callback (.obj o) (.obj [(b!"$ref", y)])
  | callback (o : Obj) (y : Json) (hg : given o b!"$ref" = none ∨ given o b!"$ref" = some .null) (ht : NoTwins aReference o)
      (h : Passes e (.dict (.sec .pathItem)) (.obj o) y) : Passes e .callback (.obj o) y
  | sec (s : Section) (o o' : Obj) (g : Str → Json) (ht : NoTwins (members s) o)
      (h : ∀ m k x, kindOf s m = some k → given o m = some x → Passes e k x (g m))
      (hs : Obj.Sorted o') (ho : ∀ m, Obj.lookup m o' = expected s o g m) : Passes e (.sec s) (.obj o) (.obj o')

mutual
/-- No member of a section, anywhere in a value of kind `k`, is given twice. -/
def Clear (k : Kind) (j : Json) : Prop :=
  match j with
  | .arr xs => match k with
    | .list k => ClearList k xs
    | _ => True
  | .obj o => match k with
    | .sec s => NoTwins (members s) o ∧ ClearMembers s o
    | .dict k => ClearDict k o
    | .callback => NoTwins aReference o ∧ ClearDict (.sec .pathItem) o
    | _ => True
  | _ => True
termination_by structural j
def ClearList (k : Kind) (xs : List Json) : Prop :=
  match xs with
  | [] => True
  | x :: xs => Clear k x ∧ ClearList k xs
termination_by structural xs
def ClearDict (k : Kind) (o : List (Str × Json)) : Prop :=
  match o with
  | [] => True
  | (_, x) :: o => Clear k x ∧ ClearDict k o
termination_by structural o
def ClearMembers (s : Section) (o : List (Str × Json)) : Prop :=
  match o with
  | [] => True
  | (m, x) :: o => (∀ n k, (n, k) ∈ members s → lowerName m = lowerName n → Clear k x) ∧ ClearMembers s o
termination_by structural o
end

/-- `At k j k' j'`: reading the value `j` of kind `k` reads, somewhere inside it, the value `j'` of kind `k'`. -/
inductive At : Kind → Json → Kind → Json → Prop where
  | here (k : Kind) (j : Json) : At k j k j
  | elem {k : Kind} {xs : List Json} {x : Json} {k' : Kind} {j' : Json} (hx : x ∈ xs) (h : At k x k' j') : At (.list k) (.arr xs) k' j'
  | entry {k : Kind} {o : Obj} {m : Str} {x : Json} {k' : Kind} {j' : Json} (hx : (m, x) ∈ o) (h : At k x k' j') : At (.dict k) (.obj o) k' j'
  | member {s : Section} {o : Obj} {m : Str} {k : Kind} {x : Json} {k' : Kind} {j' : Json} (hk : kindOf s m = some k) (hx : given o m = some x)
      (h : At k x k' j') : At (.sec s) (.obj o) k' j'
  | callbackReference {o : Obj} {x : Json} {k' : Kind} {j' : Json} (hx : given o b!"$ref" = some x) (h : At .reference x k' j') :
      At .callback (.obj o) k' j'
  | callback {o : Obj} {k' : Kind} {j' : Json} (hx : given o b!"$ref" = none ∨ given o b!"$ref" = some .null)
      (h : At (.dict (.sec .pathItem)) (.obj o) k' j') : At .callback (.obj o) k' j'

/-- A reference whose text is the one the tool writes for it. -/
def Settled (printable : Nat → Bool) (s : Str) : Prop := PtrJson.Quotable printable s ∧ ∃ p, Pointer.parse s = .ok p ∧ p.toStr = s

/-- All references read in `j` are settled, and no expression is the empty text. -/
def AllSettled (e : Around) (k : Kind) (j : Json) : Prop :=
  (∀ x, At k j .reference x → x = .null ∨ ∃ s, x = .str s ∧ Settled e.printable s) ∧ ∀ x, At k j .expression x → x ≠ .str []

/-- The value itself, whatever is inside, is not one of the kind. -/
def Misfit (e : Around) : Kind → Json → Prop
  | _, .null => False
  | .text, j => ∀ s, j ≠ .str s
  | .flag, j => ∀ b, j ≠ .bool b
  | .number, j => ∀ n, j ≠ .num n
  | .integer, j => ∀ n, e.integer n = true → j ≠ .num n
  | .free, _ => False
  | .expression, _ => False
  | .reference, .str s => ∀ p, Pointer.parse s = .ok p → ¬ PtrJson.Quotable e.printable p.toStr
  | .reference, j => ∀ p, Pointer.parse (e.jsonText j) = .ok p → ¬ PtrJson.Quotable e.printable p.toStr
  | .list _, j => ∀ xs, j ≠ .arr xs
  | .dict _, j => ∀ o, j ≠ .obj o
  | .callback, j => ∀ o, j ≠ .obj o
  | .sec _, j => ∀ o, j ≠ .obj o

/-- A section in the form the tool writes: no unknown members, the ones always written are there, the others only if they say something. -/
def Tidy (s : Section) (o : Obj) : Prop :=
  (∀ m ∈ Obj.keys o, kindOf s m ≠ none) ∧ (∀ m ∈ written s, m ∈ Obj.keys o) ∧
  ∀ m x k, (m, x) ∈ o → kindOf s m = some k → m ∉ written s → blank k x = false

end Oapi.Spec.SpecJson
