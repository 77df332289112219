import Verif.Model.SpecUtil

/- Model of the rest of the fluent builders of /repo/internal/oapi/spec: request_body_util.go, response_util.go (chains of calls), header_util.go
and xml.go.  Schemas, media types, headers and links are opaque pointers. -/
namespace Oapi.Values
open SpecUtil

/-! ### request_body_util.go, response_util.go -/

/-- The constructors of request bodies and responses, request_body_util.go:15-42, response_util.go:4-31. -/
inductive Mime where
  | json | xml | textPlain | octetStream | urlEncoded | formData
  deriving DecidableEq, Repr

/-- The constant each of them passes, request_body_util.go:5-12. -/
def mimeText : Mime → Str
  | .json => b!"application/json"
  | .xml => b!"application/xml"
  | .textPlain => b!"text/plain"
  | .octetStream => b!"application/octet-stream"
  | .urlEncoded => b!"application/x-www-form-urlencoded"
  | .formData => b!"multipart/form-data"

/-- `MediaType`, media_type.go:4-22: the schema, nil or a pointer, and whether any other field is set. -/
structure Media (S : Type) where
  schema : Option S := none
  others : Bool := false
  deriving DecidableEq, Repr

/-- `RequestBody`, request_body.go:4-22. -/
structure RequestBody (S : Type) where
  description : Str := []
  content : GMap (Media S) := none
  required : Bool := false

variable {S H L : Type}

/-- `NewRequestBody`, request_body_util.go:45-53. -/
def newRequestBody (typ : Str) (schema : Option S) : RequestBody S :=
  { content := some fun k => if k = typ then some (some { schema := schema }) else none }

/-- `JSONRequestBody` and the others, request_body_util.go:15-42. -/
def requestBody (m : Mime) (schema : Option S) : RequestBody S := newRequestBody (mimeText m) schema

/-- `JSONResponse` and the others, response_util.go:4-42. -/
def response (m : Mime) (schema : Option S) : Response H (Media S) L := newResponse (mimeText m) { schema := schema }

/-- Calls on a response, response_util.go:45-102. -/
inductive ROp (H M L : Type) where
  | withDescription (d : Str)
  | addHeader (name : Str) (h : Option H)
  | removeHeader (name : Str)
  | addContent (name : Str) (c : Option M)
  | removeContent (name : Str)
  | addLink (name : Str) (l : Option L)
  | removeLink (name : Str)

variable {M : Type}

/-- One call; `WithDescription` is response_util.go:45-48, the others are those of `Model/SpecUtil`. -/
def applyResponse (r : Response H M L) : ROp H M L → Res (Response H M L)
  | .withDescription d => .ok { r with description := d }
  | .addHeader n h => SpecUtil.addHeader r n h
  | .removeHeader n => .ok (SpecUtil.removeHeader r n)
  | .addContent n c => SpecUtil.addContent r n c
  | .removeContent n => .ok (SpecUtil.removeContent r n)
  | .addLink n l => SpecUtil.addLink r n l
  | .removeLink n => .ok (SpecUtil.removeLink r n)

/-- A chain of calls. -/
def runResponse (r : Response H M L) : List (ROp H M L) → Res (Response H M L)
  | [] => .ok r
  | o :: os => match applyResponse r o with
    | .ok r' => runResponse r' os
    | .err e => .err e
    | .panic => .panic

/-! ### header_util.go -/

/-- `Header`, header.go:4-71: the fields the calls set; the rest is one opaque value. -/
structure Header (R : Type) where
  description : Str := []
  required : Bool := false
  allowEmptyValue : Bool := false
  rest : R

/-- Calls on a header, header_util.go:4-25. -/
inductive HOp where
  | withDescription (d : Str)
  | allowsEmptyValues
  | noEmptyValues
  | asOptional
  deriving DecidableEq, Repr

/-- One call, header_util.go:4-25. -/
def applyHeader {R : Type} (h : Header R) : HOp → Header R
  | .withDescription d => { h with description := d }
  | .allowsEmptyValues => { h with allowEmptyValue := true }
  | .noEmptyValues => { h with allowEmptyValue := false }
  | .asOptional => { h with required := false }

/-! ### xml.go -/

/-- `XML`, xml.go:6-30. -/
structure XML where
  name : Str := []
  namespace_ : Str := []
  prefix_ : Str := []
  attribute_ : Bool := false
  wrapped : Bool := false
  deriving DecidableEq, Repr

/-- Calls on an XML object, xml.go:33-72. -/
inductive XOp where
  | withName (s : Str)
  | withNamespace (s : Str)
  | withPrefix (s : Str)
  | asAttribute
  | asElement
  | asWrapped
  | asUnwrapped
  deriving DecidableEq, Repr

/-- One call, xml.go:33-72. -/
def applyXML (x : XML) : XOp → XML
  | .withName s => { x with name := s }
  | .withNamespace s => { x with namespace_ := s }
  | .withPrefix s => { x with prefix_ := s }
  | .asAttribute => { x with attribute_ := true }
  | .asElement => { x with attribute_ := false }
  | .asWrapped => { x with wrapped := true }
  | .asUnwrapped => { x with wrapped := false }

end Oapi.Values
