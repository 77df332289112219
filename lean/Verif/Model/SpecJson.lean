import Verif.Base.Json
import Verif.Model.PtrJson

/- Model of how the values of /repo/internal/oapi/spec and /repo/internal/oapi/config are read from JSON and written to JSON: the struct
declarations with their tags, the methods of `Any`, `AnyOrExpressions` and `Callback`, and the part of `encoding/json` that
handles them.  JSON values are trees. -/
namespace Oapi.SpecJson

/-- The struct types. -/
inductive SName where
  | openapi | info | contact | license | server | serverVariable | tag | externalDocs | components | schema | discriminator | xml
  | response | parameter | example | requestBody | header | securityScheme | oauthFlows | oauthFlow | link | pathItem | operation
  | mediaType | encoding | refable | config
  deriving DecidableEq, Repr

/-- Go types as far as they occur: `text` is any type of kind string, `ref` is `pointer.Pointer`, the maps have string keys. -/
inductive Ty where
  | text | flag | float | int | any | ref | anyExpr | callback
  | ptr (t : Ty)
  | slice (t : Ty)
  | map (t : Ty)
  | struct (n : SName)
  deriving DecidableEq, Repr

/-- A field with its JSON name; `omitempty` is the option `omitempty`. -/
structure Field where
  name : Str
  omitempty : Bool
  ty : Ty
  deriving DecidableEq, Repr

/-- A field without `omitempty`. -/
def req (name : Str) (ty : Ty) : Field := ⟨name, false, ty⟩
/-- A field with `omitempty`. -/
def opt (name : Str) (ty : Ty) : Field := ⟨name, true, ty⟩

/-- `Refable`, refable.go:10-14, embedded in most structs. -/
def refField : Field := opt b!"$ref" (.ptr .ref)

/-- `[]map[string]SecurityRequirement`, security_requirement.go. -/
def security : Ty := .slice (.map (.slice .text))

/-- A map to pointers to structs. -/
def mapOf (n : SName) : Ty := .map (.ptr (.struct n))

/-- The fields of the structs, with those of the embedded `Refable`. -/
def fields : SName → List Field
  -- openapi.go:4-43
  | .openapi => [opt b!"openapi" .text, opt b!"info" (.ptr (.struct .info)), opt b!"servers" (.slice (.ptr (.struct .server))),
      opt b!"paths" (mapOf .pathItem), opt b!"components" (.ptr (.struct .components)), opt b!"security" security,
      opt b!"tags" (.slice (.ptr (.struct .tag))), opt b!"externalDocs" (.ptr (.struct .externalDocs))]
  -- info.go:6-29
  | .info => [req b!"title" .text, opt b!"description" .text, opt b!"termsOfService" .text, opt b!"contact" (.ptr (.struct .contact)),
      opt b!"license" (.ptr (.struct .license)), req b!"version" .text]
  -- contact.go:4-16
  | .contact => [req b!"name" .text, opt b!"url" .text, opt b!"email" .text]
  -- license.go:4-13
  | .license => [req b!"name" .text, opt b!"url" .text]
  -- server.go:4-19
  | .server => [req b!"url" .text, opt b!"description" .text, opt b!"variables" (mapOf .serverVariable)]
  -- server_variable.go:4-17
  | .serverVariable => [opt b!"enum" (.slice .text), req b!"default" .text, opt b!"description" .text]
  -- tag.go:5-17
  | .tag => [req b!"name" .text, opt b!"description" .text, opt b!"externalDocs" (.ptr (.struct .externalDocs))]
  -- external_docs.go:4-14
  | .externalDocs => [req b!"description" .text, opt b!"url" .text]
  -- components.go:5-33
  | .components => [opt b!"schemas" (mapOf .schema), opt b!"responses" (mapOf .response), opt b!"parameters" (mapOf .parameter),
      opt b!"examples" (mapOf .example), opt b!"requestBodies" (mapOf .requestBody), opt b!"headers" (mapOf .header),
      opt b!"securitySchemes" (mapOf .securityScheme), opt b!"links" (mapOf .link), opt b!"callbacks" (.map (.ptr .callback))]
  -- schema.go:8-122
  | .schema => [refField, opt b!"nullable" .flag, opt b!"discriminator" (.ptr (.struct .discriminator)), opt b!"readOnly" .flag,
      opt b!"writeOnly" .flag, opt b!"xml" (.ptr (.struct .xml)), opt b!"externalDocs" (.ptr (.struct .externalDocs)), opt b!"example" .any,
      opt b!"deprecated" .flag, opt b!"title" .text, opt b!"multipleOf" (.ptr .float), opt b!"maximum" (.ptr .float),
      opt b!"exclusiveMaximum" .flag, opt b!"minimum" (.ptr .float), opt b!"exclusiveMinimum" .flag, opt b!"maxLength" (.ptr .int),
      opt b!"minLength" (.ptr .int), opt b!"pattern" .text, opt b!"maxItems" (.ptr .int), opt b!"minItems" (.ptr .int),
      opt b!"uniqueItems" .flag, opt b!"maxProperties" (.ptr .int), opt b!"minProperties" (.ptr .int), opt b!"required" (.slice .text),
      opt b!"enum" (.slice .any), opt b!"type" .text, opt b!"allOf" (.slice (.ptr (.struct .schema))),
      opt b!"oneOf" (.slice (.ptr (.struct .schema))), opt b!"anyOf" (.slice (.ptr (.struct .schema))), opt b!"not" (.ptr (.struct .schema)),
      opt b!"items" (.ptr (.struct .schema)), opt b!"properties" (mapOf .schema), opt b!"additionalProperties" (.ptr (.struct .schema)),
      opt b!"description" .text, opt b!"format" .text, opt b!"default" .any]
  -- discriminator.go:6-14
  | .discriminator => [req b!"propertyName" .text, opt b!"mapping" (.map .text)]
  -- xml.go:6-30
  | .xml => [req b!"name" .text, opt b!"namespace" .text, opt b!"prefix" .text, opt b!"attribute" .flag, opt b!"wrapped" .flag]
  -- response.go:4-26
  | .response => [refField, opt b!"description" .text, opt b!"headers" (mapOf .header), req b!"content" (mapOf .mediaType),
      opt b!"links" (mapOf .link)]
  -- parameter.go:15-93
  | .parameter => [refField, req b!"name" .text, req b!"in" .text, opt b!"description" .text, opt b!"required" .flag,
      opt b!"deprecated" .flag, opt b!"allowEmptyValue" .flag, opt b!"style" .text, req b!"explode" .flag, opt b!"allowReserved" .flag,
      opt b!"schema" (.ptr (.struct .schema)), opt b!"example" .any, opt b!"examples" (mapOf .example), opt b!"content" (mapOf .mediaType)]
  -- example.go:3-22
  | .example => [refField, opt b!"summary" .text, opt b!"description" .text, req b!"value" .any, opt b!"externalValue" .text]
  -- request_body.go:4-22
  | .requestBody => [refField, opt b!"description" .text, req b!"content" (mapOf .mediaType), opt b!"required" .flag]
  -- header.go:7-71
  | .header => [refField, opt b!"description" .text, opt b!"required" .flag, opt b!"deprecated" .flag, opt b!"allowEmptyValue" .flag,
      opt b!"style" .text, req b!"explode" .flag, opt b!"allowReserved" .flag, opt b!"schema" (.ptr (.struct .schema)),
      opt b!"example" .any, opt b!"examples" (mapOf .example), opt b!"content" (mapOf .mediaType)]
  -- security_scheme.go:4-41
  | .securityScheme => [refField, req b!"type" .text, opt b!"description" .text, opt b!"name" .text, opt b!"in" .text,
      opt b!"scheme" .text, opt b!"bearerFormat" .text, opt b!"flows" (.ptr (.struct .oauthFlows)), opt b!"openIdConnectUrl" .text]
  -- oauth_flows.go:4-19
  | .oauthFlows => [opt b!"implicit" (.ptr (.struct .oauthFlow)), opt b!"password" (.ptr (.struct .oauthFlow)),
      opt b!"clientCredentials" (.ptr (.struct .oauthFlow)), opt b!"authorizationCode" (.ptr (.struct .oauthFlow))]
  -- oauth_flow.go:4-27
  | .oauthFlow => [opt b!"authorizationUrl" .text, opt b!"tokenUrl" .text, opt b!"refreshUrl" .text, opt b!"acopes" (.map .text)]
  -- link.go:7-33
  | .link => [refField, opt b!"operationRef" .text, opt b!"operationId" .text, opt b!"parameters" (.map (.ptr .anyExpr)),
      opt b!"requestBody" (.ptr .anyExpr), opt b!"description" .text, opt b!"server" (.ptr (.struct .server))]
  -- paths.go:12-54
  | .pathItem => [opt b!"summary" .text, opt b!"description" .text, opt b!"get" (.ptr (.struct .operation)),
      opt b!"put" (.ptr (.struct .operation)), opt b!"post" (.ptr (.struct .operation)), opt b!"delete" (.ptr (.struct .operation)),
      opt b!"options" (.ptr (.struct .operation)), opt b!"head" (.ptr (.struct .operation)), opt b!"patch" (.ptr (.struct .operation)),
      opt b!"trace" (.ptr (.struct .operation)), opt b!"servers" (.slice (.ptr (.struct .server))),
      opt b!"parameters" (.slice (.ptr (.struct .parameter)))]
  -- operation.go:4-62
  | .operation => [opt b!"tags" (.slice .text), opt b!"summary" .text, opt b!"description" .text,
      opt b!"externalDocs" (.ptr (.struct .externalDocs)), opt b!"operationId" .text, opt b!"parameters" (.slice (.ptr (.struct .parameter))),
      opt b!"requestBody" (.ptr (.struct .requestBody)), opt b!"responses" (mapOf .response), opt b!"callbacks" (.map (.ptr .callback)),
      opt b!"deprecated" .flag, opt b!"security" security, opt b!"servers" (.slice (.ptr (.struct .server)))]
  -- media_type.go:4-22
  | .mediaType => [opt b!"schema" (.ptr (.struct .schema)), opt b!"example" .any, opt b!"examples" (mapOf .example),
      opt b!"encoding" (mapOf .encoding)]
  -- encoding.go:4-34
  | .encoding => [req b!"contentType" .text, opt b!"headers" (mapOf .header), opt b!"style" .text, opt b!"explode" .flag,
      opt b!"allowReserved" .flag]
  -- refable.go:10-14
  | .refable => [refField]
  -- config/config.go:11-71
  | .config => [req b!"extends" .text, req b!"version" .text, req b!"openapi" .text, req b!"format" .text, req b!"dir" .text,
      req b!"output" .text, req b!"exclude" (.slice .text), req b!"info" (.ptr (.struct .info)),
      req b!"servers" (.slice (.ptr (.struct .server))), req b!"security" security, opt b!"tags" (.slice (.ptr (.struct .tag))),
      req b!"externalDocs" (.ptr (.struct .externalDocs)), opt b!"components" (.ptr (.struct .components)),
      req b!"overrides" (.map (.struct .schema)), req b!"operations" (.map (.struct .operation))]

/-- Go values.  `nil` is a nil pointer, slice or map; `any none` is the nil `Any`, `any (some j)` one that holds the text of `j`;
`callback r m` has the pointer `r` as its `Ref` and the map `m`; a struct maps the JSON names of its fields to their values.  Numbers are
the tokens of JSON values. -/
inductive Val where
  | text (s : Str)
  | flag (b : Bool)
  | num (n : Int)
  | any (o : Option Json)
  | nil
  | ref (p : Pointer)
  | anyExpr (e : Str) (a : Option Json)
  | callback (r m : Val)
  | ptr (v : Val)
  | slice (vs : List Val)
  | map (kvs : List (Str × Val))
  | struct (n : SName) (g : Str → Val)

/-- The zero value of a type that is no struct. -/
def zero0 : Ty → Val
  | .text => .text []
  | .flag => .flag false
  | .float => .num 0
  | .int => .num 0
  | .any => .any none
  | .ref => .ref {}
  | .anyExpr => .anyExpr [] none
  | .callback => .callback .nil .nil
  | _ => .nil

/-- The fields of a new struct; a name that is no field has the value nil. -/
def newStruct (n : SName) : Str → Val := fun k =>
  match (fields n).find? (fun f => f.name = k) with
  | some f => zero0 f.ty
  | none => .nil

/-- The zero value of a type; no struct has a field whose type is a struct other than the embedded one. -/
def zero : Ty → Val
  | .struct n => .struct n (newStruct n)
  | t => zero0 t

/-- What the model leaves open: Go's table of printable runes, the number tokens that are written as integers of 64 bits, and the JSON
text of a value that is no string. -/
structure Env where
  prn : Nat → Bool
  isInt : Int → Bool
  raw : Json → Str

/-- How decoding went: `saved` is an error that is reported at the end (`decodeState.saveError`), `abort` one that ends it. -/
inductive St where
  | ok | saved | abort
  deriving DecidableEq, Repr

/-- The status of two steps; the second is only made after one that did not abort. -/
def St.and : St → St → St
  | .ok, s => s
  | .saved, .abort => .abort
  | .saved, _ => .saved
  | .abort, _ => .abort

/-- `bytes.EqualFold` for a name in ASCII as `encoding/json` does it (`equalFoldRight`): the Kelvin sign counts as `k`, the long s as `s`. -/
def foldEq : Str → Str → Bool
  | [], key => key.isEmpty
  | _ :: _, [] => false
  | c :: name, t :: key =>
    if t < 128 then
      (c == t || (decide (65 ≤ c &&& 0xDF) && decide (c &&& 0xDF ≤ 90) && c &&& 0xDF == t &&& 0xDF)) && foldEq name key
    else match t, key with
      | 0xC5, 0xBF :: key' => (c == 115 || c == 83) && foldEq name key'
      | 0xE2, 0x84 :: 0xAA :: key' => (c == 107 || c == 75) && foldEq name key'
      | _, _ => false

/-- The field a key of an object goes to (`decodeState.object`): the one with that name, else the first whose name is equal under folding. -/
def findField (n : SName) (key : Str) : Option Field :=
  match (fields n).find? (fun f => f.name = key) with
  | some f => some f
  | none => (fields n).find? fun f => foldEq f.name key

/-- The type behind a pointer. -/
def target : Ty → Ty
  | .ptr t => t
  | t => t

/-- The value to decode into: behind a pointer, which is allocated if it is nil (`indirect`). -/
def inner (t : Ty) (old : Val) : Val :=
  match t with
  | .ptr t' => match old with
    | .ptr v => v
    | _ => zero t'
  | _ => old

/-- The result with its pointer. -/
def rewrap (t : Ty) (r : Val × St) : Val × St :=
  match t with
  | .ptr _ => (.ptr r.1, r.2)
  | _ => r

/-- Decoding `null` (`literalStore`): it goes to `UnmarshalJSON` unless there is a pointer to set to nil, and has no effect on strings,
booleans, numbers and structs. -/
def intoNull (t : Ty) (old : Val) : Val :=
  match t with
  | .ptr _ => .nil
  | .slice _ => .nil
  | .map _ => .nil
  | .any => .any (some .null)
  | _ => old

/-- `Pointer.UnmarshalJSON`, pointer.go:70-83, for a value: the text of a JSON string written by `json.Marshal` is unquoted (see
`C88_decode`), the text of other values is taken as it is. -/
def decodeRef (env : Env) : Json → Res Pointer
  | .str s => Pointer.parse s
  | j => Pointer.parse (env.raw j)

/-- Types that take the value as it is, or through a method that does not decode it further: `Any` (any.go:28-34), `AnyOrExpressions`
(any_or_expressions.go:22-33), `pointer.Pointer`; for all others the value has the wrong kind. -/
def intoOther (env : Env) (t : Ty) (old : Val) (j : Json) : Val × St :=
  match t with
  | .any => (.any (some j), .ok)
  | .anyExpr => match old, j with
    | .anyExpr _ a, .str s => (.anyExpr s a, .ok)
    | .anyExpr e _, j => (.anyExpr e (some j), .ok)
    | v, _ => (v, .ok)
  | .ref => match decodeRef env j with
    | .ok p => (.ref p, .ok)
    | _ => (old, .abort)
  | .callback => (old, .abort)
  | _ => (old, .saved)

/-- Decoding a string, number or boolean into a type that is no pointer. -/
def intoLeaf (env : Env) (t : Ty) (old : Val) (j : Json) : Val × St :=
  match t, j with
  | .text, .str s => (.text s, .ok)
  | .flag, .bool b => (.flag b, .ok)
  | .float, .num n => (.num n, .ok)
  | .int, .num n => if env.isInt n then (.num n, .ok) else (old, .saved)
  | t, j => intoOther env t old j

/-- Assignment to a map, with increasing keys. -/
def insertV (k : Str) (v : Val) : List (Str × Val) → List (Str × Val)
  | [] => [(k, v)]
  | (k', v') :: t =>
    if k = k' then (k, v) :: t
    else if Str.lt k k' then (k, v) :: (k', v') :: t
    else (k', v') :: insertV k v t

/-- The entries of a map, none if it is nil. -/
def entries : Val → List (Str × Val)
  | .map kvs => kvs
  | _ => []

/-- The elements of a slice, none if it is nil. -/
def elems : Val → List Val
  | .slice vs => vs
  | _ => []

/-- The fields of a struct. -/
def fieldsOf : Val → Str → Val
  | .struct _ g => g
  | _ => fun _ => .nil

/-- The parts of a callback. -/
def callbackRef : Val → Val
  | .callback r _ => r
  | _ => .nil
def callbackMap : Val → Val
  | .callback _ m => m
  | _ => .nil

def isNil : Val → Bool
  | .nil => true
  | _ => false

/-- Assignment to a field. -/
def setField (g : Str → Val) (k : Str) (v : Val) : Str → Val := fun x => if x = k then v else g x

/-- An error of a nested `json.Unmarshal` is returned by the method that calls it. -/
def nested : St → St
  | .ok => .ok
  | _ => .abort

mutual
/-- `json.Unmarshal` of `j` into a variable of type `t` that holds `old`: its new value and the status. -/
def decode (env : Env) (t : Ty) (old : Val) (j : Json) : Val × St :=
  match j with
  | .null => (intoNull t old, .ok)
  | .bool b => rewrap t (intoLeaf env (target t) (inner t old) (.bool b))
  | .num n => rewrap t (intoLeaf env (target t) (inner t old) (.num n))
  | .str s => rewrap t (intoLeaf env (target t) (inner t old) (.str s))
  | .arr xs => rewrap t (match target t with
    | .slice t' =>
      let r := decodeList env t' (elems (inner t old)) xs
      (.slice r.1, r.2)
    | t' => intoOther env t' (inner t old) (.arr xs))
  | .obj kvs => rewrap t (match target t with
    | .struct n =>
      let r := decodeFields env n (fieldsOf (inner t old)) kvs
      (.struct n r.1, r.2)
    | .map t' =>
      let r := decodeMap env t' (entries (inner t old)) kvs
      (.map r.1, r.2)
    | .callback =>
      -- `Callback.UnmarshalJSON`, callback.go:22-38
      let v := inner t old
      let r := decodeFields env .refable (setField (newStruct .refable) b!"$ref" (callbackRef v)) kvs
      let ref := r.1 b!"$ref"
      if r.2 = .ok then
        if isNil ref then
          let m := decodeMap env (.ptr (.struct .pathItem)) (entries (callbackMap v)) kvs
          (.callback ref (.map m.1), nested m.2)
        else (.callback ref (callbackMap v), .ok)
      else (.callback ref (callbackMap v), .abort)
    | t' => intoOther env t' (inner t old) (.obj kvs))
termination_by structural j
/-- `decodeState.array` for a slice.  (Elements behind the end of the old slice are taken to be zero; they need not be if three keys go
to the same field.) -/
def decodeList (env : Env) (t : Ty) (old : List Val) (xs : List Json) : List Val × St :=
  match xs with
  | [] => ([], .ok)
  | x :: xs =>
    let r := decode env t (old.headD (zero t)) x
    if r.2 = .abort then (r.1 :: old.tail, .abort)
    else
      let q := decodeList env t old.tail xs
      (r.1 :: q.1, r.2.and q.2)
termination_by structural xs
/-- `decodeState.object` for a map. -/
def decodeMap (env : Env) (t : Ty) (m : List (Str × Val)) (kvs : List (Str × Json)) : List (Str × Val) × St :=
  match kvs with
  | [] => (m, .ok)
  | (k, j) :: kvs =>
    let r := decode env t (zero t) j
    if r.2 = .abort then (m, .abort)
    else
      let q := decodeMap env t (insertV k r.1 m) kvs
      (q.1, r.2.and q.2)
termination_by structural kvs
/-- `decodeState.object` for a struct. -/
def decodeFields (env : Env) (n : SName) (g : Str → Val) (kvs : List (Str × Json)) : (Str → Val) × St :=
  match kvs with
  | [] => (g, .ok)
  | (k, j) :: kvs =>
    match findField n k with
    | none => decodeFields env n g kvs
    | some f =>
      let r := decode env f.ty (g f.name) j
      if r.2 = .abort then (setField g f.name r.1, .abort)
      else
        let q := decodeFields env n (setField g f.name r.1) kvs
        (q.1, r.2.and q.2)
termination_by structural kvs
end

/-- `isEmptyValue`. -/
def isEmpty : Val → Bool
  | .text s => s.isEmpty
  | .flag b => !b
  | .any o => o.isNone
  | .nil => true
  | .slice vs => vs.isEmpty
  | .map kvs => kvs.isEmpty
  | _ => false

/-- `Any.MarshalJSON`, any.go:20-25. -/
def anyJson : Option Json → Json
  | some j => j
  | none => .null

mutual
/-- `json.Marshal`, read back as a tree (`container.Make`, container.go:38-44, utils.go:50-61).  Texts are taken to be valid UTF-8. -/
def encode (env : Env) (v : Val) : Res Json :=
  match v with
  | .text s => .ok (.str s)
  | .flag b => .ok (.bool b)
  | .num n => .ok (.num n)
  | .any o => .ok (anyJson o)
  | .nil => .ok .null
  | .ref p => match PtrJson.encode env.prn p with
    | .ok _ => .ok (.str p.toStr)
    | .err e => .err e
    | .panic => .panic
  -- `AnyOrExpressions.MarshalJSON`, any_or_expressions.go:14-19
  | .anyExpr e a => if e ≠ [] then .ok (.str e) else .ok (anyJson a)
  -- `Callback.MarshalJSON`, callback.go:15-20
  | .callback r m =>
    if isNil r then encode env m
    else encode env r >>= fun j => .ok (.obj [(b!"$ref", j)])
  | .ptr v => encode env v
  | .slice vs => encodeList env vs >>= fun l => .ok (.arr l)
  | .map kvs => encodeMap env kvs >>= fun o => .ok (.obj o)
  | .struct n g => (fields n).foldr (fun f acc =>
      if f.omitempty && isEmpty (g f.name) then acc
      else encode env (g f.name) >>= fun j => acc >>= fun o => .ok (Obj.insert f.name j o)) (.ok []) >>= fun o => .ok (.obj o)
termination_by structural v
def encodeList (env : Env) (vs : List Val) : Res (List Json) :=
  match vs with
  | [] => .ok []
  | v :: vs => encode env v >>= fun j => encodeList env vs >>= fun l => .ok (j :: l)
termination_by structural vs
def encodeMap (env : Env) (kvs : List (Str × Val)) : Res Obj :=
  match kvs with
  | [] => .ok []
  | (k, v) :: kvs => encode env v >>= fun j => encodeMap env kvs >>= fun o => .ok ((k, j) :: o)
termination_by structural kvs
end

/-- Reading a value of type `t` from JSON into a new variable and writing it to JSON again. -/
def pass (env : Env) (t : Ty) (j : Json) : Res Json :=
  match decode env t (zero t) j with
  | (v, .ok) => encode env v
  | _ => .err .decode

end Oapi.SpecJson
