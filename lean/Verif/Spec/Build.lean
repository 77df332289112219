import Verif.Model.Build

/- What a user can read of a schema, and what each call of the fluent interface promises, independent of how the calls are programmed. -/
namespace Oapi.Spec.Build

open Oapi.Build

variable {N : Type}

/-- The things one can read of a schema.  `property n` is the schema stored under property name `n`. -/
inductive Field where
  | title | description | type | format | pattern
  | property (n : Str)
  | allOf | oneOf | anyOf | not | items | additional
  | maxProperties | minProperties | maxLength | minLength | maxItems | minItems
  | multipleOf | maximum | minimum | exclusiveMaximum | exclusiveMinimum
  | uniqueItems | readOnly
  | required | enum | default | example_
  | docsPresent | docsDescription | docsURL
  | xmlPresent | xmlName | xmlNamespace | xmlPrefix | xmlAttribute | xmlWrapped
  deriving DecidableEq, Repr

/-- The values one can read. A schema is read as its address. -/
inductive Val (N : Type) where
  | text (s : Str)
  | flag (b : Bool)
  | int (n : Option Int)
  | num (x : Option N)
  | entry (e : Option (Option Nat))
  | schema (e : Option Nat)
  | schemas (l : List (Option Nat))
  | texts (l : List Str)
  | raw (l : List UInt8)

/-- Reading a field of schema `s`; absent XML and external documentation read as empty. -/
def look (w : World N) (s : Nat) : Field → Val N
  | .title => .text (w.schemas s).title
  | .description => .text (w.schemas s).description
  | .type => .text (w.schemas s).type
  | .format => .text (w.schemas s).format
  | .pattern => .text (w.schemas s).pattern
  | .property n => .entry ((w.schemas s).properties.bind fun m => w.maps m n)
  | .allOf => .schemas (view w.refs (w.schemas s).allOf)
  | .oneOf => .schemas (view w.refs (w.schemas s).oneOf)
  | .anyOf => .schemas (view w.refs (w.schemas s).anyOf)
  | .not => .schema (w.schemas s).not
  | .items => .schema (w.schemas s).items
  | .additional => .schema (w.schemas s).additional
  | .maxProperties => .int (w.schemas s).maxProperties
  | .minProperties => .int (w.schemas s).minProperties
  | .maxLength => .int (w.schemas s).maxLength
  | .minLength => .int (w.schemas s).minLength
  | .maxItems => .int (w.schemas s).maxItems
  | .minItems => .int (w.schemas s).minItems
  | .multipleOf => .num (w.schemas s).multipleOf
  | .maximum => .num (w.schemas s).maximum
  | .minimum => .num (w.schemas s).minimum
  | .exclusiveMaximum => .flag (w.schemas s).exclusiveMaximum
  | .exclusiveMinimum => .flag (w.schemas s).exclusiveMinimum
  | .uniqueItems => .flag (w.schemas s).uniqueItems
  | .readOnly => .flag (w.schemas s).readOnly
  | .required => .texts (view w.strs (w.schemas s).required)
  | .enum => .texts (w.schemas s).enum
  | .default => .raw (view w.bytes (w.schemas s).default)
  | .example_ => .raw (view w.bytes (w.schemas s).example_)
  | .docsPresent => .flag (w.schemas s).docs.isSome
  | .docsDescription => .text (((w.schemas s).docs.map fun d => (w.docs d).1).getD [])
  | .docsURL => .text (((w.schemas s).docs.map fun d => (w.docs d).2).getD [])
  | .xmlPresent => .flag (w.schemas s).xml.isSome
  | .xmlName => .text (((w.schemas s).xml.map fun x => (w.xmls x).name).getD [])
  | .xmlNamespace => .text (((w.schemas s).xml.map fun x => (w.xmls x).ns).getD [])
  | .xmlPrefix => .text (((w.schemas s).xml.map fun x => (w.xmls x).pre).getD [])
  | .xmlAttribute => .flag (((w.schemas s).xml.map fun x => (w.xmls x).attr).getD false)
  | .xmlWrapped => .flag (((w.schemas s).xml.map fun x => (w.xmls x).wrapped).getD false)

/-- The promise of the interface: the fields a call on schema `s` sets and to what. -/
inductive Sets (w : World N) (s : Nat) : Op N → Field → Val N → Prop
  | title (t) : Sets w s (.title t) .title (.text t)
  | description (t) : Sets w s (.description t) .description (.text t)
  | properties (m n) : Sets w s (.properties m) (.property n) (.entry (m.bind fun m => w.maps m n))
  | property (n x) : Sets w s (.property n x) (.property n) (.entry (some x))
  | allOf (l) : Sets w s (.allOf l) .allOf (.schemas (view w.refs l))
  | maxProperties (n) : Sets w s (.maxProperties n) .maxProperties (.int (some n))
  | minProperties (n) : Sets w s (.minProperties n) .minProperties (.int (some n))
  | type (t f) : Sets w s (.type t f) .type (.text t)
  | typeFormat (t f) : Sets w s (.type t f) .format (.text f)
  | format (f) : Sets w s (.format f) .format (.text f)
  | default (v) : Sets w s (.default v) .default (.raw (view w.bytes v))
  | required (l) : Sets w s (.required l) .required (.texts (view w.strs l))
  | addRequired (xs e old) : look w s .required = .texts old → Sets w s (.addRequired xs e) .required (.texts (old ++ xs))
  | maxLength (n) : Sets w s (.maxLength n) .maxLength (.int (some n))
  | minLength (n) : Sets w s (.minLength n) .minLength (.int (some n))
  | pattern (t) : Sets w s (.pattern t) .pattern (.text t)
  | multipleOf (x) : Sets w s (.multipleOf x) .multipleOf (.num (some x))
  | maximum (x e) : Sets w s (.maximum x e) .maximum (.num (some x))
  | exclusiveMaximum (x e) : Sets w s (.maximum x e) .exclusiveMaximum (.flag e)
  | minimum (x e) : Sets w s (.minimum x e) .minimum (.num (some x))
  | exclusiveMinimum (x e) : Sets w s (.minimum x e) .exclusiveMinimum (.flag e)
  | enum (vs) : Sets w s (.enum vs) .enum (.texts vs)
  | maxItems (n) : Sets w s (.maxItems n) .maxItems (.int (some n))
  | minItems (n) : Sets w s (.minItems n) .minItems (.int (some n))
  | uniqueValues : Sets w s .uniqueValues .uniqueItems (.flag true)
  | allowDuplicates : Sets w s .allowDuplicates .uniqueItems (.flag false)
  | addToAllOf (xs e old) : look w s .allOf = .schemas old → Sets w s (.addToAllOf xs e) .allOf (.schemas (old ++ xs))
  | asReadOnly : Sets w s .asReadOnly .readOnly (.flag true)
  | asWritable : Sets w s .asWritable .readOnly (.flag false)
  | example_ (v) : Sets w s (.example_ v) .example_ (.raw (view w.bytes v))
  | docsGone : Sets w s (.externalDocs [] []) .docsPresent (.flag false)
  | docsPresent (d u) : ¬ (d = [] ∧ u = []) → Sets w s (.externalDocs d u) .docsPresent (.flag true)
  | docsDescription (d u) : Sets w s (.externalDocs d u) .docsDescription (.text d)
  | docsURL (d u) : Sets w s (.externalDocs d u) .docsURL (.text u)
  | xmlName (t) : Sets w s (.xmlName t) .xmlName (.text t)
  | xmlNamespace (t) : Sets w s (.xmlNamespace t) .xmlNamespace (.text t)
  | xmlPrefix (t) : Sets w s (.xmlPrefix t) .xmlPrefix (.text t)
  | asXMLAttribute : Sets w s .asXMLAttribute .xmlAttribute (.flag true)
  | asXMLElement : Sets w s .asXMLElement .xmlAttribute (.flag false)
  | asWrappedXML : Sets w s .asWrappedXML .xmlWrapped (.flag true)
  | asUnwrappedXML : Sets w s .asUnwrappedXML .xmlWrapped (.flag false)
  | xmlNameP (t) : Sets w s (.xmlName t) .xmlPresent (.flag true)
  | xmlNamespaceP (t) : Sets w s (.xmlNamespace t) .xmlPresent (.flag true)
  | xmlPrefixP (t) : Sets w s (.xmlPrefix t) .xmlPresent (.flag true)
  | asXMLAttributeP : Sets w s .asXMLAttribute .xmlPresent (.flag true)
  | asXMLElementP : Sets w s .asXMLElement .xmlPresent (.flag true)
  | asWrappedXMLP : Sets w s .asWrappedXML .xmlPresent (.flag true)
  | asUnwrappedXMLP : Sets w s .asUnwrappedXML .xmlPresent (.flag true)

/-- A call changes a field at most if it sets it, in whatever state. -/
def Touches (op : Op N) (f : Field) : Prop := ∃ (w : World N) (s : Nat) (v : Val N), Sets w s op f v

/-- The names an AddRequired call adds. -/
def addedNames : Op N → List Str
  | .addRequired xs _ => xs
  | _ => []

/-- Two slices whose storage cannot be confused by appending to the first: other arrays, or the second ends before the first does. -/
def ApartSl (a b : Sl) : Prop := a.arr ≠ b.arr ∨ b.len ≤ a.len

/-- The heap is a Go heap: unused numbers are unused, and no slice is longer than its array. -/
structure SlOK {α : Type} (a : Nat → List α) (next : Nat) (l : Sl) : Prop where
  used : l.arr < next
  fits : l.len ≤ (a l.arr).length

structure SchOK (w : World N) (s : Nat) : Prop where
  properties : ∀ m, (w.schemas s).properties = some m → m < w.next
  docs : ∀ m, (w.schemas s).docs = some m → m < w.next
  xml : ∀ m, (w.schemas s).xml = some m → m < w.next
  allOf : SlOK w.refs w.next (w.schemas s).allOf
  oneOf : SlOK w.refs w.next (w.schemas s).oneOf
  anyOf : SlOK w.refs w.next (w.schemas s).anyOf
  required : SlOK w.strs w.next (w.schemas s).required
  default : SlOK w.bytes w.next (w.schemas s).default
  example_ : SlOK w.bytes w.next (w.schemas s).example_

/-- The maps and slices handed to a call exist. -/
def ArgsOK (w : World N) : Op N → Prop
  | .properties m => ∀ i, m = some i → i < w.next
  | .allOf l => SlOK w.refs w.next l
  | .required l => SlOK w.strs w.next l
  | .default l => SlOK w.bytes w.next l
  | .example_ l => SlOK w.bytes w.next l
  | _ => True

/-- A schema whose own oneOf and anyOf lists are not stored behind its allOf list. -/
def SelfApart (w : World N) (s : Nat) : Prop :=
  ApartSl (w.schemas s).allOf (w.schemas s).oneOf ∧ ApartSl (w.schemas s).allOf (w.schemas s).anyOf

/-- Nothing reachable from schema `t` is stored where calls on schema `s` write. -/
structure Apart (w : World N) (s t : Nat) : Prop where
  ne : s ≠ t
  properties : ∀ m, (w.schemas s).properties = some m → (w.schemas t).properties ≠ some m
  docs : ∀ m, (w.schemas s).docs = some m → (w.schemas t).docs ≠ some m
  xml : ∀ m, (w.schemas s).xml = some m → (w.schemas t).xml ≠ some m
  required : ApartSl (w.schemas s).required (w.schemas t).required
  allOf : ApartSl (w.schemas s).allOf (w.schemas t).allOf
  oneOf : ApartSl (w.schemas s).allOf (w.schemas t).oneOf
  anyOf : ApartSl (w.schemas s).allOf (w.schemas t).anyOf

/-- The maps and slices handed to a call are not those of schema `t`. -/
def ArgsApart (w : World N) (t : Nat) : Op N → Prop
  | .properties m => ∀ i, m = some i → (w.schemas t).properties ≠ some i
  | .allOf l => ApartSl l (w.schemas t).allOf ∧ ApartSl l (w.schemas t).oneOf ∧ ApartSl l (w.schemas t).anyOf
  | .required l => ApartSl l (w.schemas t).required
  | _ => True

/-- What a schema reads that nobody has set anything of. -/
def blank : Field → Val N
  | .title | .description | .type | .format | .pattern | .docsDescription | .docsURL | .xmlName | .xmlNamespace | .xmlPrefix => .text []
  | .property _ => .entry none
  | .allOf | .oneOf | .anyOf => .schemas []
  | .not | .items | .additional => .schema none
  | .maxProperties | .minProperties | .maxLength | .minLength | .maxItems | .minItems => .int none
  | .multipleOf | .maximum | .minimum => .num none
  | .exclusiveMaximum | .exclusiveMinimum | .uniqueItems | .readOnly | .docsPresent | .xmlPresent | .xmlAttribute | .xmlWrapped => .flag false
  | .required | .enum => .texts []
  | .default | .example_ => .raw []

/-- What the constructors promise: the fields of the new schema that are not blank. -/
inductive Makes (w : World N) (ex : Sl) : Ctor → Field → Val N → Prop
  | boolean : Makes w ex .boolean .type (.text b!"boolean")
  | float64 : Makes w ex .float64 .type (.text b!"number")
  | float64F : Makes w ex .float64 .format (.text b!"double")
  | float32 : Makes w ex .float32 .type (.text b!"number")
  | float32F : Makes w ex .float32 .format (.text b!"float")
  | floatFmt (f) : Makes w ex (.floatFmt f) .type (.text b!"number")
  | floatFmtF (f) : Makes w ex (.floatFmt f) .format (.text f)
  | int8 : Makes w ex .int8 .type (.text b!"integer")
  | int8F : Makes w ex .int8 .format (.text b!"int8")
  | int16 : Makes w ex .int16 .type (.text b!"integer")
  | int16F : Makes w ex .int16 .format (.text b!"int16")
  | int32 : Makes w ex .int32 .type (.text b!"integer")
  | int32F : Makes w ex .int32 .format (.text b!"int32")
  | int64 : Makes w ex .int64 .type (.text b!"integer")
  | int64F : Makes w ex .int64 .format (.text b!"int64")
  | intFmt (f) : Makes w ex (.intFmt f) .type (.text b!"integer")
  | intFmtF (f) : Makes w ex (.intFmt f) .format (.text f)
  | string : Makes w ex .string .type (.text b!"string")
  | byte : Makes w ex .byte .type (.text b!"string")
  | byteF : Makes w ex .byte .format (.text b!"byte")
  | binary : Makes w ex .binary .type (.text b!"string")
  | binaryF : Makes w ex .binary .format (.text b!"binary")
  | password : Makes w ex .password .type (.text b!"string")
  | passwordF : Makes w ex .password .format (.text b!"password")
  | date : Makes w ex .date .type (.text b!"string")
  | dateF : Makes w ex .date .format (.text b!"data")
  | dateE : Makes w ex .date .example_ (.raw (view w.bytes ex))
  | dateTime : Makes w ex .dateTime .type (.text b!"string")
  | dateTimeF : Makes w ex .dateTime .format (.text b!"data-time")
  | dateTimeE : Makes w ex .dateTime .example_ (.raw (view w.bytes ex))
  | strFmt (f) : Makes w ex (.strFmt f) .type (.text b!"string")
  | strFmtF (f) : Makes w ex (.strFmt f) .format (.text f)
  | map (p) : Makes w ex (.map p) .type (.text b!"object")
  | mapP (p) : Makes w ex (.map p) .additional (.schema p)
  | array (p) : Makes w ex (.array p) .type (.text b!"array")
  | arrayP (p) : Makes w ex (.array p) .items (.schema p)
  | all (l) : Makes w ex (.all l) .allOf (.schemas (view w.refs l))
  | one (l) : Makes w ex (.one l) .oneOf (.schemas (view w.refs l))
  | any (l) : Makes w ex (.any l) .anyOf (.schemas (view w.refs l))
  | not (p) : Makes w ex (.not p) .not (.schema p)

/-- The data types of the OpenAPI 3.0 specification ("Data Types"), types with formats. -/
def oasDataTypes : List (Str × Str) :=
  [(b!"integer", b!"int32"), (b!"integer", b!"int64"), (b!"number", b!"float"), (b!"number", b!"double"), (b!"string", b!""),
   (b!"string", b!"byte"), (b!"string", b!"binary"), (b!"boolean", b!""), (b!"string", b!"date"), (b!"string", b!"date-time"),
   (b!"string", b!"password")]

/-- The constructors without arguments, which stand for one data type each. -/
def plainCtors : List Ctor :=
  [.boolean, .float64, .float32, .int8, .int16, .int32, .int64, .string, .byte, .binary, .password, .date, .dateTime]

/-- The lists handed to a constructor exist. -/
def CtorOK (w : World N) (ex : Sl) : Ctor → Prop
  | .all l | .one l | .any l => SlOK w.refs w.next l
  | .date | .dateTime => SlOK w.bytes w.next ex
  | _ => True

/-- The location the OpenAPI specification names for each kind of parameter. -/
def location : PCtor → Str
  | .query => b!"query"
  | .header => b!"header"
  | .path => b!"path"
  | .cookie => b!"cookie"

/-- What the last call that says something about a field says. -/
def lastOf {α : Type} (says : POp → Option α) (ops : List POp) : Option α := (ops.filterMap says).getLast?

def saysName : POp → Option Str
  | .withName v => some v
  | _ => none
def saysLocation : POp → Option Str
  | .withLocation v => some v
  | _ => none
def saysSchema : POp → Option (Option Nat)
  | .withSchema v => some v
  | _ => none
def saysDescription : POp → Option Str
  | .withDescription v => some v
  | _ => none
def saysEmpty : POp → Option Bool
  | .allowsEmptyValues => some true
  | .noEmptyValues => some false
  | _ => none

end Oapi.Spec.Build
