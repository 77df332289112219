import Verif.Model.Tag
import Verif.Model.PtrJson

/- The text of a struct tag, for /repo/tag/tag.go:41-56 and 126-133: `structtag.Parse` and `Tags.Get` of github.com/fatih/structtag v1.2.0, and
`tagparser.Parse` of github.com/vmihailenco/tagparser v0.1.2, from knowledge of these libraries (their sources are not in /repo).  Simplification:
`strings.TrimSpace` removes ASCII white space only. -/
namespace Oapi.TagText
open TagP

/-- A byte that a key may have: structtag stops at blanks, control characters, ':', '"' and DEL. -/
def keyByte (c : UInt8) : Bool := decide (32 < c) && c != 58 && c != 34 && c != 127

/-- The end of a quoted string, behind its opening quote: what it is with the closing quote, and what follows. -/
def close : Str → Option (Str × Str)
  | [] => none
  | [c] => if c = 34 then some ([34], []) else none
  | c :: d :: t =>
    if c = 34 then some ([34], d :: t)
    else if c = 92 then (close t).map fun r => (92 :: d :: r.1, r.2)
    else (close (d :: t)).map fun r => (c :: r.1, r.2)

/-- The loop of `structtag.Parse`: the keys with their values, without the quotes.  (It keeps the value in parts, see `valueOf`.) -/
def tagsLoop : Nat → Str → Option (List (Str × Str))
  | 0, _ => none
  | fuel + 1, s =>
    let s := s.dropWhile (· == 32)
    if s = [] then some []
    else
      let k := s.takeWhile keyByte
      if k = [] then none
      else match s.dropWhile keyByte with
        | 58 :: 34 :: t => match close t with
          | none => none
          | some (b, r) => match PtrJson.unquote (34 :: b) with
            | none => none
            | some v => (tagsLoop fuel r).map ((k, v) :: ·)
        | _ => none

/-- `structtag.Parse`: none is an error. -/
def structtag (s : Str) : Option (List (Str × Str)) := tagsLoop (s.length + 1) s

/-- `structtag.Tag.Value`: `Parse` splits the value at its commas into the name and the options; put together again they are the value, but for
a comma that nothing follows. -/
def valueOf (v : Str) : Str := if v.dropWhile (· != 44) = [44] then v.takeWhile (· != 44) else v

/-- White space, of `strings.TrimSpace`. -/
def white (c : UInt8) : Bool := c == 32 || (decide (9 ≤ c) && decide (c ≤ 13))

/-- `strings.TrimSpace`. -/
def trimSpace (s : Str) : Str := ((s.dropWhile white).reverse.dropWhile white).reverse

/-- The parser's result so far: the tag, with the options set last in front, and `hasName`. -/
structure PState where
  tag : PTag
  hasName : Bool
  deriving DecidableEq, Repr

/-- `tagParser.setTagOption`. -/
def setOption (st : PState) (key value : Str) : PState :=
  let key := trimSpace key
  let value := trimSpace value
  if st.hasName = false ∧ key = [] then { tag := { st.tag with name := value }, hasName := true }
  else { tag := { st.tag with options := (if key = [] then (value, []) else (key, value)) :: st.tag.options }, hasName := true }

/-- `Parser.Skip`. -/
def skip (c : UInt8) : Str → Str
  | [] => []
  | d :: t => if d = c then t else d :: t

/-- The loop of `tagParser.parseKey`: what it has read, the byte it stopped at, and what follows. -/
def scanKey : Str → Str × Option UInt8 × Str
  | [] => ([], none, [])
  | c :: t =>
    if c = 44 ∨ c = 58 ∨ c = 39 then ([], some c, t)
    else let r := scanKey t; (c :: r.1, r.2)

/-- The loops of `tagParser.parseValue` and `readBrackets`, inside `depth` brackets: the value and what follows its comma. -/
def scanValue : Nat → Str → Str × Str
  | _, [] => ([], [])
  | depth, [c] => if c = 92 then ([0], []) else if c = 44 ∧ depth = 0 then ([], []) else ([c], [])
  | depth, c :: d :: t =>
    if c = 92 then let r := scanValue depth t; (d :: r.1, r.2)
    else if c = 44 ∧ depth = 0 then ([], skip 32 (d :: t))
    else
      let r := scanValue (if c = 40 then depth + 1 else if c = 41 then depth - 1 else depth) (d :: t)
      (c :: r.1, r.2)

/-- `tagParser.parseQuotedValue`: the value and what follows the closing quote. -/
def scanQuoted : Str → Str × Str
  | [] => ([], [])
  | [c] => if c = 39 then ([], []) else ([c], [])
  | c :: d :: t =>
    if c = 39 then ([], d :: t)
    else if c = 92 ∧ d = 39 then let r := scanQuoted t; (39 :: r.1, r.2)
    else let r := scanQuoted (d :: t); (c :: r.1, r.2)

/-- What `parseQuotedValue` skips behind the closing quote: a comma, and a blank behind it. -/
def skipComma : Str → Str
  | [] => []
  | c :: t => if c = 44 then skip 32 t else c :: t

/-- `tagParser.parseKey`, with `parseValue` and `parseQuotedValue`. -/
def parseKey : Nat → Str → PState → PState
  | 0, _, st => st
  | fuel + 1, s, st =>
    let r := scanKey s
    match r.2.1 with
    | none => if r.1 = [] then st else setOption st [] r.1
    | some c =>
      if c = 44 then parseKey fuel (skip 32 r.2.2) (setOption st [] r.1)
      else if c = 58 then
        if r.2.2.head? = some 39 then
          let q := scanQuoted r.2.2.tail
          parseKey fuel (skipComma q.2) (setOption st r.1 q.1)
        else
          let q := scanValue 0 r.2.2
          parseKey fuel q.2 (setOption st r.1 q.1)
      else
        let q := scanQuoted r.2.2
        parseKey fuel (skipComma q.2) (setOption st [] q.1)

/-- `tagparser.Parse`. -/
def tagparser (s : Str) : PTag := (parseKey (s.length + 1) s ⟨⟨[], []⟩, false⟩).tag

/-- `parseTag`, tag.go:126-133: `Tags.Get` gives the first tag with the key. -/
def getTag (ps : List (Str × Str)) (k : Str) : Option PTag := (ps.lookup k).map fun v => tagparser (valueOf v)

/-- What the two libraries make of a raw tag. -/
def lib (raw : Str) : Option Tags := (structtag raw).map fun ps => ⟨getTag ps b!"json", getTag ps b!"oapi"⟩

/-- `Parse`, tag.go:41-56.  For a raw tag without any key that is not empty, `structtag.Parse` returns neither tags nor an error, and `Tags.Get` then looks
into a nil pointer. -/
def parseText {F : Type} (pf : Str → Option F) (raw : Str) : Res (Tag F) :=
  if raw ≠ [] ∧ structtag raw = some [] then .panic else TagP.parse lib pf raw

end Oapi.TagText
