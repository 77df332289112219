import Verif.Base.Str
import Verif.Base.Res

/- Model of /repo/tag/tag.go.  The third-party parsers are inputs: `structtag.Parse` and `tagparser.Parse` are represented by what
they return for the two keys the code looks at, `strconv.ParseFloat` by a function into an arbitrary type of floats. -/
namespace Oapi.TagP

/-- `tagparser.Tag`: the name and the options (a Go map). -/
structure PTag where
  name : Str
  options : List (Str × Str)
  deriving DecidableEq, Repr

/-- `m.Options[tag]`. -/
def PTag.opt (t : PTag) (k : Str) : Option Str := t.options.lookup k

/-- The tags of a field as `structtag` and `tagparser` deliver them: `tags.Get(k)` fails or gives a value that is parsed
(tag.go:126-133). -/
structure Tags where
  json : Option PTag
  oapi : Option PTag
  deriving DecidableEq, Repr

/-- `Tag`, tag.go:13-38, over a type `F` of floats. -/
structure Tag (F : Type) where
  ignore : Bool := false
  inline : Option Bool := none
  omitEmpty : Bool := false
  nullable : Option Bool := none
  readOnly : Bool := false
  writeOnly : Bool := false
  deprecated : Bool := false
  required : Bool := false
  name : Str := []
  pattern : Str := []
  format : Str := []
  type : Str := []
  min : Option F := none
  max : Option F := none
  emin : Option F := none
  emax : Option F := none
  mulOf : Option F := none
  minLen : Option Int := none
  maxLen : Option Int := none
  minItems : Option Int := none
  maxItems : Option Int := none
  uniqItems : Bool := false
  minProps : Option Int := none
  maxProps : Option Int := none
  deriving DecidableEq

/-- `strconv.ParseBool`. -/
def parseBool (s : Str) : Option Bool :=
  if s ∈ [b!"1", b!"t", b!"T", b!"true", b!"TRUE", b!"True"] then some true
  else if s ∈ [b!"0", b!"f", b!"F", b!"false", b!"FALSE", b!"False"] then some false
  else none

/-- `strconv.Atoi` on a 64-bit platform. -/
def atoi64 (s : Str) : Option Int :=
  match Str.atoi s with
  | some n => if -9223372036854775808 ≤ n ∧ n ≤ 9223372036854775807 then some n else none
  | none => none

/-- `parseTagFloatPtr` and `parseTagFloat`, tag.go:135-159: the new value of the field, or an error. -/
def floatPtr {F : Type} (pf : Str → Option F) (t : PTag) (k : Str) (val : Option F) : Res (Option F) :=
  match t.opt k with
  | none => .ok val
  | some v => match pf v with
    | none => .err .syntaxErr
    | some x => .ok (some x)

/-- `parseTagIntPtr` and `parseTagInt`, tag.go:161-185. -/
def intPtr (t : PTag) (k : Str) (val : Option Int) : Res (Option Int) :=
  match t.opt k with
  | none => .ok val
  | some v => match atoi64 v with
    | none => .err .syntaxErr
    | some x => .ok (some x)

/-- `parseTagString`, tag.go:187-194. -/
def string (t : PTag) (k : Str) (val : Str) : Str :=
  match t.opt k with
  | none => val
  | some v => v

/-- `parseTagBool`, tag.go:196-204: the error of `ParseBool` is dropped, its value (false) is not. -/
def bool (t : PTag) (k : Str) : Bool :=
  match t.opt k with
  | none => false
  | some [] => true
  | some x => (parseBool x).getD false

/-- `parseTagBoolPtr`, tag.go:206-222. -/
def boolPtr (t : PTag) (k : Str) (val : Option Bool) : Res (Option Bool) :=
  match t.opt k with
  | none => .ok val
  | some [] => .ok (some true)
  | some x => match parseBool x with
    | none => .err .syntaxErr
    | some y => .ok (some y)

/-- `parseJSONTag`, tag.go:102-124.  (The partly filled tag that Go leaves behind with an error is not modelled.) -/
def parseJSON {F : Type} (t : Option PTag) (mt : Tag F) : Res (Tag F) :=
  match t with
  | none => .ok mt
  | some t =>
    if t.name = b!"-" then .ok { mt with ignore := true }
    else do
      let inline ← boolPtr t b!"inline" mt.inline
      pure { mt with
        name := if t.name = [] then mt.name else t.name
        inline := inline
        omitEmpty := bool t b!"omitempty" }

/-- `parseOAPITag`, tag.go:58-100. -/
def parseOAPI {F : Type} (pf : Str → Option F) (t : Option PTag) (mt : Tag F) : Res (Tag F) :=
  match t with
  | none => .ok mt
  | some t =>
    if t.name = b!"-" then .ok { mt with ignore := true }
    else do
      let inline ← boolPtr t b!"inline" mt.inline
      let nullable ← boolPtr t b!"nullable" mt.nullable
      let maxLen ← intPtr t b!"maxlen" mt.maxLen
      let minLen ← intPtr t b!"minlen" mt.minLen
      let maxItems ← intPtr t b!"maxitems" mt.maxItems
      let minItems ← intPtr t b!"minitems" mt.minItems
      let maxProps ← intPtr t b!"maxprops" mt.maxProps
      let minProps ← intPtr t b!"minprops" mt.minProps
      let max ← floatPtr pf t b!"max" mt.max
      let min ← floatPtr pf t b!"min" mt.min
      let emax ← floatPtr pf t b!"emax" mt.emax
      let emin ← floatPtr pf t b!"emin" mt.emin
      let emin ← floatPtr pf t b!"mulof" emin
      pure { mt with
        name := if t.name = [] then mt.name else t.name
        inline := inline
        omitEmpty := bool t b!"omitempty"
        nullable := nullable
        readOnly := bool t b!"readonly"
        writeOnly := bool t b!"writeonly"
        deprecated := bool t b!"deprecated"
        uniqItems := bool t b!"unique"
        required := bool t b!"required"
        maxLen := maxLen
        minLen := minLen
        maxItems := maxItems
        minItems := minItems
        maxProps := maxProps
        minProps := minProps
        pattern := string t b!"pattern" mt.pattern
        format := string t b!"format" mt.format
        type := string t b!"type" mt.type
        max := max
        min := min
        emax := emax
        emin := emin }

/-- `Parse`, tag.go:41-56; `lib` is the third-party parsing of the raw tag. -/
def parse {F : Type} (lib : Str → Option Tags) (pf : Str → Option F) (raw : Str) : Res (Tag F) :=
  if raw = [] then .ok {}
  else match lib raw with
    | none => .err .syntaxErr
    | some tags => do
      let mt ← parseJSON tags.json {}
      parseOAPI pf tags.oapi mt

end Oapi.TagP
