import Verif.Base.Json

/- Model of the builder functions of /repo/internal/oapi/spec/schema_util.go (19-402) and of `Any.UnmarshalJSON` (any.go:28-34).  Go pointers, maps and backing arrays are numbers into a heap, so that sharing is visible. -/
namespace Oapi.Build

/-- A slice header: backing array and length; all slices start at offset 0.  A nil slice is length 0 of array 0. -/
structure Sl where
  arr : Nat := 0
  len : Nat := 0
  deriving DecidableEq, Repr

/-- `XML`, xml.go:6-30. -/
structure Xml where
  name : Str := []
  ns : Str := []
  pre : Str := []
  attr : Bool := false
  wrapped : Bool := false
  deriving DecidableEq, Repr

/-- `Schema`, schema.go, with the fields the builders set.  Pointers to numbers are optional numbers (every builder call makes a new
variable to point to); the enumeration, which no builder changes in place, is by value. -/
structure Sch (N : Type) where
  title : Str := []
  description : Str := []
  type : Str := []
  format : Str := []
  pattern : Str := []
  properties : Option Nat := none
  allOf : Sl := {}
  oneOf : Sl := {}
  anyOf : Sl := {}
  not : Option Nat := none
  items : Option Nat := none
  additional : Option Nat := none
  maxProperties : Option Int := none
  minProperties : Option Int := none
  maxLength : Option Int := none
  minLength : Option Int := none
  maxItems : Option Int := none
  minItems : Option Int := none
  multipleOf : Option N := none
  maximum : Option N := none
  minimum : Option N := none
  exclusiveMaximum : Bool := false
  exclusiveMinimum : Bool := false
  uniqueItems : Bool := false
  readOnly : Bool := false
  required : Sl := {}
  enum : List Str := []
  default : Sl := {}
  example_ : Sl := {}
  docs : Option Nat := none
  xml : Option Nat := none

/-- The heap. `next` is the next unused number.  An array's list is as long as its capacity. -/
structure World (N : Type) where
  schemas : Nat → Sch N
  maps : Nat → Str → Option (Option Nat)
  docs : Nat → Str × Str
  xmls : Nat → Xml
  strs : Nat → List Str
  refs : Nat → List (Option Nat)
  bytes : Nat → List UInt8
  next : Nat

variable {N : Type}

/-- An update of the heap at one place. -/
def upd {α : Type} (f : Nat → α) (i : Nat) (v : α) : Nat → α := fun j => if j = i then v else f j

/-- What is read through a slice. -/
def view {α : Type} (a : Nat → List α) (l : Sl) : List α := (a l.arr).take l.len

/-- `append(l, xs...)`: in place if the capacity suffices, else into the fresh array `next` with some spare capacity (filled with `z`). -/
def append {α : Type} (a : Nat → List α) (next : Nat) (l : Sl) (xs : List α) (extra : Nat) (z : α) : (Nat → List α) × Sl × Nat :=
  if l.len + xs.length ≤ (a l.arr).length then
    (upd a l.arr ((a l.arr).take l.len ++ xs ++ (a l.arr).drop (l.len + xs.length)), ⟨l.arr, l.len + xs.length⟩, next)
  else (upd a next (view a l ++ xs ++ List.replicate extra z), ⟨next, l.len + xs.length⟩, next + 1)

/-- The calls.  Slices handed over (`items...`) are slices of the heap; `extra` is the spare capacity the runtime gives a new array. -/
inductive Op (N : Type) where
  | title (s : Str)                                  -- WithTitle, 156-159
  | description (s : Str)                            -- WithDescription, 162-165
  | properties (m : Option Nat)                      -- WithProperties, 168-171
  | property (n : Str) (x : Option Nat)              -- WithProperty, 174-180
  | allOf (l : Sl)                                   -- WithAllOf, 183-186
  | maxProperties (n : Int)                          -- WithMaxProperties, 189-192
  | minProperties (n : Int)                          -- WithMinProperties, 195-198
  | type (t f : Str)                                 -- WithType, 201-205
  | format (f : Str)                                 -- WithFormat, 208-211
  | default (v : Sl)                                 -- WithDefault, 214-217
  | required (l : Sl)                                -- WithRequired, 220-223
  | addRequired (xs : List Str) (extra : Nat)        -- AddRequired, 226-229
  | maxLength (n : Int)                              -- WithMaxLength, 232-235
  | minLength (n : Int)                              -- WithMinLength, 238-241
  | pattern (s : Str)                                -- WithPattern, 244-247
  | multipleOf (x : N)                               -- WithMultipleOf, 250-253
  | maximum (x : N) (e : Bool)                       -- WithMaximum, 256-260
  | minimum (x : N) (e : Bool)                       -- WithMinimum, 263-267
  | enum (vs : List Str)                             -- WithEnum, 270-273
  | maxItems (n : Int)                               -- WithMaxItems, 276-279
  | minItems (n : Int)                               -- WithMinItems, 282-285
  | uniqueValues                                     -- UniqueValues, 288-291
  | allowDuplicates                                  -- AllowDuplicates, 294-297
  | addToAllOf (xs : List (Option Nat)) (extra : Nat) -- AddToAllOf, 300-303
  | asReadOnly                                       -- AsReadOnly, 306-309
  | asWritable                                       -- AsWritable, 312-315
  | example_ (v : Sl)                                -- WithExample, 318-321
  | externalDocs (d u : Str)                         -- WithExternalDocs, 327-339
  | xmlName (s : Str)                                -- WithXMLName, 342-348
  | xmlNamespace (s : Str)                           -- WithXMLNamespace, 351-357
  | xmlPrefix (s : Str)                              -- WithXMLPrefix, 360-366
  | asXMLAttribute                                   -- AsXMLAttribute, 369-375
  | asXMLElement                                     -- AsXMLElement, 378-384
  | asWrappedXML                                     -- AsWrappedXML, 387-393
  | asUnwrappedXML                                   -- AsUnwrappedXML, 396-402

/-- An assignment to a field of schema `s`. -/
def setSch (w : World N) (s : Nat) (g : Sch N → Sch N) : World N := { w with schemas := upd w.schemas s (g (w.schemas s)) }

/-- `if s.XML == nil { s.XML = &XML{} }` and an assignment to a field of it. -/
def setXml (w : World N) (s : Nat) (g : Xml → Xml) : World N :=
  match (w.schemas s).xml with
  | some x => { w with xmls := upd w.xmls x (g (w.xmls x)) }
  | none => { w with xmls := upd w.xmls w.next (g {}), schemas := upd w.schemas s { w.schemas s with xml := some w.next }, next := w.next + 1 }

/-- One call on schema `s`, schema_util.go:156-402. -/
def apply (w : World N) (s : Nat) : Op N → World N
  | .title v => setSch w s fun c => { c with title := v }
  | .description v => setSch w s fun c => { c with description := v }
  | .properties m => setSch w s fun c => { c with properties := m }
  | .property n x => match (w.schemas s).properties with
    | some m => { w with maps := upd w.maps m fun k => if k = n then some x else w.maps m k }
    | none => { w with maps := upd w.maps w.next fun k => if k = n then some x else none,
                       schemas := upd w.schemas s { w.schemas s with properties := some w.next }, next := w.next + 1 }
  | .allOf l => setSch w s fun c => { c with allOf := l }
  | .maxProperties n => setSch w s fun c => { c with maxProperties := some n }
  | .minProperties n => setSch w s fun c => { c with minProperties := some n }
  | .type t f => setSch w s fun c => { c with type := t, format := f }
  | .format f => setSch w s fun c => { c with format := f }
  | .default v => setSch w s fun c => { c with default := v }
  | .required l => setSch w s fun c => { c with required := l }
  | .addRequired xs extra =>
    let (a, l, n) := append w.strs w.next (w.schemas s).required xs extra []
    { w with strs := a, schemas := upd w.schemas s { w.schemas s with required := l }, next := n }
  | .maxLength n => setSch w s fun c => { c with maxLength := some n }
  | .minLength n => setSch w s fun c => { c with minLength := some n }
  | .pattern v => setSch w s fun c => { c with pattern := v }
  | .multipleOf x => setSch w s fun c => { c with multipleOf := some x }
  | .maximum x e => setSch w s fun c => { c with maximum := some x, exclusiveMaximum := e }
  | .minimum x e => setSch w s fun c => { c with minimum := some x, exclusiveMinimum := e }
  | .enum vs => setSch w s fun c => { c with enum := vs }
  | .maxItems n => setSch w s fun c => { c with maxItems := some n }
  | .minItems n => setSch w s fun c => { c with minItems := some n }
  | .uniqueValues => setSch w s fun c => { c with uniqueItems := true }
  | .allowDuplicates => setSch w s fun c => { c with uniqueItems := false }
  | .addToAllOf xs extra =>
    let (a, l, n) := append w.refs w.next (w.schemas s).allOf xs extra none
    { w with refs := a, schemas := upd w.schemas s { w.schemas s with allOf := l }, next := n }
  | .asReadOnly => setSch w s fun c => { c with readOnly := true }
  | .asWritable => setSch w s fun c => { c with readOnly := false }
  | .example_ v => setSch w s fun c => { c with example_ := v }
  | .externalDocs d u =>
    if d = [] ∧ u = [] then setSch w s fun c => { c with docs := none }
    else match (w.schemas s).docs with
      | some x => { w with docs := upd w.docs x (d, u) }
      | none => { w with docs := upd w.docs w.next (d, u), schemas := upd w.schemas s { w.schemas s with docs := some w.next }, next := w.next + 1 }
  | .xmlName v => setXml w s fun x => { x with name := v }
  | .xmlNamespace v => setXml w s fun x => { x with ns := v }
  | .xmlPrefix v => setXml w s fun x => { x with pre := v }
  | .asXMLAttribute => setXml w s fun x => { x with attr := true }
  | .asXMLElement => setXml w s fun x => { x with attr := false }
  | .asWrappedXML => setXml w s fun x => { x with wrapped := true }
  | .asUnwrappedXML => setXml w s fun x => { x with wrapped := false }

/-- A chain of calls on one schema. -/
def run (w : World N) (s : Nat) (ops : List (Op N)) : World N := ops.foldl (fun w o => apply w s o) w

/-- `Any.UnmarshalJSON`, any.go:28-34, on the example of schema `s`: `append((*m)[0:0], data...)`. -/
def decodeExample (w : World N) (s : Nat) (data : List UInt8) (extra : Nat) : World N :=
  let (a, l, n) := append w.bytes w.next ⟨(w.schemas s).example_.arr, 0⟩ data extra 0
  { w with bytes := a, schemas := upd w.schemas s { w.schemas s with example_ := l }, next := n }

/-! ### Constructors -/

/-- The constructors of schema_util.go:20-153.  Lists handed over (`schemas...`) are slices of the heap. -/
inductive Ctor where
  | boolean                     -- BooleanProperty, 21-25
  | float64                     -- Float64Property, 28-30
  | float32                     -- Float32Property, 33-35
  | floatFmt (f : Str)          -- FloatFmtProperty, 38-43
  | int8                        -- Int8Property, 46-48
  | int16                       -- Int16Property, 51-53
  | int32                       -- Int32Property, 56-58
  | int64                       -- Int64Property, 61-63
  | intFmt (f : Str)            -- IntFmtProperty, 66-71
  | string                      -- StringProperty, 74-76
  | byte                        -- ByteProperty, 79-81
  | binary                      -- BinaryProperty, 84-86
  | password                    -- PasswordProperty, 89-91
  | date                        -- DateProperty, 94-96
  | dateTime                    -- DateTimeProperty, 99-101
  | strFmt (f : Str)            -- StrFmtProperty, 104-109
  | map (p : Option Nat)        -- MapProperty, 112-117
  | array (p : Option Nat)      -- ArrayProperty, 120-125
  | all (l : Sl)                -- AllSchema, 128-132
  | one (l : Sl)                -- OneSchema, 135-139
  | any (l : Sl)                -- AnySchema, 142-146
  | not (p : Option Nat)        -- NotSchema, 149-153
  deriving DecidableEq, Repr

/-- schema_util.go:20-153: the fields of the new schema.  `ex` is the package variable `timeExample` (18), a slice shared by all dates. -/
def construct (ex : Sl) : Ctor → Sch N
  | .boolean => { type := b!"boolean" }
  | .float64 => { type := b!"number", format := b!"double" }
  | .float32 => { type := b!"number", format := b!"float" }
  | .floatFmt f => { type := b!"number", format := f }
  | .int8 => { type := b!"integer", format := b!"int8" }
  | .int16 => { type := b!"integer", format := b!"int16" }
  | .int32 => { type := b!"integer", format := b!"int32" }
  | .int64 => { type := b!"integer", format := b!"int64" }
  | .intFmt f => { type := b!"integer", format := f }
  | .string => { type := b!"string" }
  | .byte => { type := b!"string", format := b!"byte" }
  | .binary => { type := b!"string", format := b!"binary" }
  | .password => { type := b!"string", format := b!"password" }
  | .date => { type := b!"string", format := b!"data", example_ := ex }
  | .dateTime => { type := b!"string", format := b!"data-time", example_ := ex }
  | .strFmt f => { type := b!"string", format := f }
  | .map p => { type := b!"object", additional := p }
  | .array p => { type := b!"array", items := p }
  | .all l => { allOf := l }
  | .one l => { oneOf := l }
  | .any l => { anyOf := l }
  | .not p => { not := p }

/-- `&Schema{}` and the assignments: the new schema gets the number `next`. -/
def make (w : World N) (ex : Sl) (c : Ctor) : World N × Nat :=
  ({ w with schemas := upd w.schemas w.next (construct ex c), next := w.next + 1 }, w.next)

/-! ### Parameters -/

/-- `Parameter`, parameter.go, with the fields the builders set; the calls write only the parameter itself, so it is a value here. -/
structure Param where
  name : Str := []
  loc : Str := []
  description : Str := []
  required : Bool := false
  allowEmptyValue : Bool := false
  schema : Option Nat := none
  deriving DecidableEq, Repr

inductive PCtor where
  | query | header | path | cookie
  deriving DecidableEq, Repr

/-- `QueryParam`, `HeaderParam`, `PathParam`, `CookieParam`, parameter_util.go:13-47. -/
def newParam (c : PCtor) (name : Str) (schema : Option Nat) : Param :=
  match c with
  | .query => { loc := b!"query", name := name, schema := schema }
  | .header => { loc := b!"header", name := name, schema := schema }
  | .path => { loc := b!"path", name := name, schema := schema, required := true }
  | .cookie => { loc := b!"cookie", name := name, schema := schema }

/-- The calls of parameter_util.go:50-89. -/
inductive POp where
  | withDescription (s : Str)
  | withName (s : Str)
  | withSchema (x : Option Nat)
  | withLocation (s : Str)
  | allowsEmptyValues
  | noEmptyValues
  | asOptional
  deriving DecidableEq, Repr

/-- parameter_util.go:50-89. -/
def applyParam (p : Param) : POp → Param
  | .withDescription s => { p with description := s }
  | .withName s => { p with name := s }
  | .withSchema x => { p with schema := x }
  | .withLocation s => { p with loc := s }
  | .allowsEmptyValues => { p with allowEmptyValue := true }
  | .noEmptyValues => { p with allowEmptyValue := false }
  | .asOptional => { p with required := false }

def runParam (p : Param) (ops : List POp) : Param := ops.foldl applyParam p

end Oapi.Build
