import Verif.Model.PtrJson
import Verif.Model.Format

/- Model of the JSON texts the tool reads and writes: `ReadJSON` and `clone` (/repo/internal/container/container.go:46-56, utils.go:48-61),
the JSON methods of /repo/internal/container/sort.go (28-47, 126-143) and, of `encoding/json`, the scanner (scanner.go), `compact` and
`Indent` (indent.go), the encoder of trees (encode.go) and the decoder into `interface{}` (decode.go). -/
namespace Oapi.JsonText
open PtrJson (chunks Chunk runeBytes hexDigit hexDigits readHex)

/-- What is left open: Go's table of printable runes; whether backspace and form feed are written `\b`, `\f` (since Go 1.22); how numbers
are written (none for infinities and NaN) and which number a number text denotes (none if it is out of range). -/
structure Env where
  prn : Nat → Bool
  short : Bool
  numText : Int → Option Str
  numOf : Str → Option Int

/-! ### The scanner -/

/-- scanner.go `parseState`. -/
inductive Ctx where
  | key | val | arr
  deriving DecidableEq, Repr

/-- The step functions of scanner.go; `lit r` stands for the nine states inside `true`, `false` and `null`, `r` being the letters
that must follow. -/
inductive State where
  | beginValueOrEmpty | beginValue | beginStringOrEmpty | beginString | endValue | endTop
  | inString | esc | u0 | u1 | u2 | u3
  | neg | one | zero | dot | dot0 | e | eSign | e0
  | lit (r : Str)
  | error
  deriving DecidableEq, Repr

/-- The results of a step. -/
inductive Op where
  | cont | beginLiteral | beginObject | objectKey | objectValue | endObject | beginArray | arrayValue | endArray | skipSpace | fin | err
  deriving DecidableEq, Repr

/-- The scanner; `endTop` and `err` of the code are the states of that name.  (The limit of 10000 nested values is left out.) -/
structure Sc where
  st : State
  stack : List Ctx
  deriving DecidableEq, Repr

/-- `isSpace`. -/
def isSpace (c : UInt8) : Bool := c == 32 || c == 9 || c == 13 || c == 10

def isDigit (c : UInt8) : Bool := decide (48 ≤ c) && decide (c ≤ 57)

/-- `scanner.error`. -/
def fail (stack : List Ctx) : Sc × Op := (⟨.error, stack⟩, .err)

/-- `popParseState`. -/
def pop : List Ctx → Sc
  | _ :: x :: t => ⟨.endValue, x :: t⟩
  | _ => ⟨.endTop, []⟩

/-- `stateEndTop`: the error is reported later. -/
def endTop (c : UInt8) : Sc × Op := if isSpace c then (⟨.endTop, []⟩, .fin) else (⟨.error, []⟩, .fin)

/-- `stateEndValue`. -/
def endValue (stack : List Ctx) (c : UInt8) : Sc × Op :=
  match stack with
  | [] => endTop c
  | x :: t =>
    if isSpace c then (⟨.endValue, x :: t⟩, .skipSpace)
    else match x with
      | .key => if c = 58 then (⟨.beginValue, .val :: t⟩, .objectKey) else fail stack
      | .val =>
        if c = 44 then (⟨.beginString, .key :: t⟩, .objectValue)
        else if c = 125 then (pop stack, .endObject)
        else fail stack
      | .arr =>
        if c = 44 then (⟨.beginValue, stack⟩, .arrayValue)
        else if c = 93 then (pop stack, .endArray)
        else fail stack

/-- `stateBeginValue`. -/
def beginValue (stack : List Ctx) (c : UInt8) : Sc × Op :=
  if isSpace c then (⟨.beginValue, stack⟩, .skipSpace)
  else if c = 123 then (⟨.beginStringOrEmpty, .key :: stack⟩, .beginObject)
  else if c = 91 then (⟨.beginValueOrEmpty, .arr :: stack⟩, .beginArray)
  else if c = 34 then (⟨.inString, stack⟩, .beginLiteral)
  else if c = 45 then (⟨.neg, stack⟩, .beginLiteral)
  else if c = 48 then (⟨.zero, stack⟩, .beginLiteral)
  else if c = 116 then (⟨.lit b!"rue", stack⟩, .beginLiteral)
  else if c = 102 then (⟨.lit b!"alse", stack⟩, .beginLiteral)
  else if c = 110 then (⟨.lit b!"ull", stack⟩, .beginLiteral)
  else if 49 ≤ c ∧ c ≤ 57 then (⟨.one, stack⟩, .beginLiteral)
  else fail stack

/-- `stateBeginString`. -/
def beginString (stack : List Ctx) (c : UInt8) : Sc × Op :=
  if isSpace c then (⟨.beginString, stack⟩, .skipSpace)
  else if c = 34 then (⟨.inString, stack⟩, .beginLiteral)
  else fail stack

/-- `state0`. -/
def zero (stack : List Ctx) (c : UInt8) : Sc × Op :=
  if c = 46 then (⟨.dot, stack⟩, .cont)
  else if c = 101 ∨ c = 69 then (⟨.e, stack⟩, .cont)
  else endValue stack c

/-- `stateESign`. -/
def eSign (stack : List Ctx) (c : UInt8) : Sc × Op := if isDigit c then (⟨.e0, stack⟩, .cont) else fail stack

/-- The states `stateInStringEscU` to `stateInStringEscU123`. -/
def hexStep (next : State) (stack : List Ctx) (c : UInt8) : Sc × Op :=
  if (Url.hexVal c).isSome then (⟨next, stack⟩, .cont) else fail stack

/-- `scanner.step`. -/
def step (s : Sc) (c : UInt8) : Sc × Op :=
  match s.st with
  | .beginValueOrEmpty =>
    if isSpace c then (s, .skipSpace) else if c = 93 then endValue s.stack c else beginValue s.stack c
  | .beginValue => beginValue s.stack c
  | .beginStringOrEmpty =>
    if isSpace c then (s, .skipSpace)
    else if c = 125 then endValue (.val :: s.stack.tail) c
    else beginString s.stack c
  | .beginString => beginString s.stack c
  | .endValue => endValue s.stack c
  | .endTop => endTop c
  | .inString =>
    if c = 34 then (⟨.endValue, s.stack⟩, .cont)
    else if c = 92 then (⟨.esc, s.stack⟩, .cont)
    else if c < 32 then fail s.stack
    else (s, .cont)
  | .esc =>
    if c ∈ b!"bfnrt\\/\"" then (⟨.inString, s.stack⟩, .cont)
    else if c = 117 then (⟨.u0, s.stack⟩, .cont)
    else fail s.stack
  | .u0 => hexStep .u1 s.stack c
  | .u1 => hexStep .u2 s.stack c
  | .u2 => hexStep .u3 s.stack c
  | .u3 => hexStep .inString s.stack c
  | .neg =>
    if c = 48 then (⟨.zero, s.stack⟩, .cont)
    else if 49 ≤ c ∧ c ≤ 57 then (⟨.one, s.stack⟩, .cont)
    else fail s.stack
  | .one => if isDigit c then (s, .cont) else zero s.stack c
  | .zero => zero s.stack c
  | .dot => if isDigit c then (⟨.dot0, s.stack⟩, .cont) else fail s.stack
  | .dot0 =>
    if isDigit c then (s, .cont)
    else if c = 101 ∨ c = 69 then (⟨.e, s.stack⟩, .cont)
    else endValue s.stack c
  | .e => if c = 43 ∨ c = 45 then (⟨.eSign, s.stack⟩, .cont) else eSign s.stack c
  | .eSign => eSign s.stack c
  | .e0 => if isDigit c then (s, .cont) else endValue s.stack c
  | .lit r => match r with
    | x :: y :: t => if c = x then (⟨.lit (y :: t), s.stack⟩, .cont) else fail s.stack
    | [x] => if c = x then (⟨.endValue, s.stack⟩, .cont) else fail s.stack
    | [] => fail s.stack
  | .error => (s, .err)

/-- `scanner.eof`: was that a whole text? -/
def eof (s : Sc) : Bool :=
  match s.st with
  | .error => false
  | .endTop => true
  | _ => (step s 32).1.st == .endTop

/-- `scanner.reset`. -/
def start : Sc := ⟨.beginValue, []⟩

/-- The loop of `checkValid` (scanner.go). -/
def validGo : Sc → Str → Bool
  | s, [] => eof s
  | s, c :: t => if (step s c).2 = .err then false else validGo (step s c).1 t

/-- `checkValid`. -/
def valid (data : Str) : Bool := validGo start data

/-- What `compact` writes for a byte, with `escape`, and how many of the following bytes are not copied. -/
def emit (op : Op) (c : UInt8) (t : Str) : Str × Nat :=
  if c = 60 ∨ c = 62 ∨ c = 38 then (b!"\\u00" ++ hexDigits 2 c.toNat, 0)
  else if c = 0xE2 ∧ t.head? = some 0x80 ∧ (t.tail.head? = some 0xA8 ∨ t.tail.head? = some 0xA9) then
    (b!"\\u202" ++ [hexDigit ((t.tail.headD 0).toNat % 16)], 2)
  else if op = .skipSpace ∨ op = .fin then ([], 0)
  else ([c], 0)

/-- The loop of `compact` (indent.go) with `escape`; `skip` counts the bytes not to be copied. -/
def compactGo : Nat → Sc → Str → Option Str
  | _, s, [] => if eof s then some [] else none
  | skip, s, c :: t =>
    let r := step s c
    if r.2 = .err then none
    else match skip with
      | k + 1 => compactGo k r.1 t
      | 0 => (compactGo (emit r.2 c t).2 r.1 t).map ((emit r.2 c t).1 ++ ·)

/-- `compact` with `escape`. -/
def compact (data : Str) : Option Str := compactGo 0 start data

/-- `newline` (indent.go) with the prefix "" and the indentation of two spaces. -/
def newline (depth : Nat) : Str := 10 :: (List.replicate depth b!"  ").flatten

/-- The loop of `Indent` (indent.go). -/
def indentGo : Bool → Nat → Sc → Str → Option Str
  | _, _, s, [] => if eof s then some [] else none
  | need, depth, s, c :: t =>
    let r := step s c
    if r.2 = .skipSpace then indentGo need depth r.1 t
    else if r.2 = .err then none
    else
      let now := need && r.2 ≠ .endObject && r.2 ≠ .endArray
      let need := need && !now
      let depth := if now then depth + 1 else depth
      (if r.2 = .cont then (indentGo need depth r.1 t).map ([c] ++ ·)
      else if c = 123 ∨ c = 91 then (indentGo true depth r.1 t).map ([c] ++ ·)
      else if c = 44 then (indentGo need depth r.1 t).map (c :: newline depth ++ ·)
      else if c = 58 then (indentGo need depth r.1 t).map ([c, 32] ++ ·)
      else if c = 125 ∨ c = 93 then
        if need then (indentGo false depth r.1 t).map ([c] ++ ·)
        else (indentGo need (depth - 1) r.1 t).map (newline (depth - 1) ++ [c] ++ ·)
      else (indentGo need depth r.1 t).map ([c] ++ ·)).map ((if now then newline depth else []) ++ ·)

/-- `Indent` with prefix "" and two spaces. -/
def indent (data : Str) : Option Str := indentGo false 0 start data

/-! ### Encoding -/

/-- One round of `encodeState.string` (encode.go) with `escapeHTML`; every run of bytes that need no escape is copied. -/
def encChunk (short : Bool) : Chunk → Str
  | .bad _ => b!"\\ufffd"
  | .rune r =>
    if r = 34 ∨ r = 92 then [92, UInt8.ofNat r]
    else if r = 10 then b!"\\n"
    else if r = 13 then b!"\\r"
    else if r = 9 then b!"\\t"
    else if short ∧ r = 8 then b!"\\b"
    else if short ∧ r = 12 then b!"\\f"
    else if r < 32 ∨ r = 60 ∨ r = 62 ∨ r = 38 then b!"\\u00" ++ hexDigits 2 r
    else if r = 0x2028 ∨ r = 0x2029 then b!"\\u202" ++ [hexDigit (r % 16)]
    else runeBytes r

/-- `encodeState.string`. -/
def encString (short : Bool) (s : Str) : Str := 34 :: ((chunks s).flatMap (encChunk short) ++ [34])

mutual
/-- `json.Marshal` of a tree; none if a number cannot be written. -/
def enc (env : Env) (j : Json) : Option Str :=
  match j with
  | .null => some b!"null"
  | .bool true => some b!"true"
  | .bool false => some b!"false"
  | .num n => env.numText n
  | .str s => some (encString env.short s)
  | .arr xs => (encList env xs).map fun t => 91 :: (t ++ [93])
  | .obj o => (encObj env o).map fun t => 123 :: (t ++ [125])
termination_by structural j
/-- `arrayEncoder.encode`: the elements. -/
def encList (env : Env) (xs : List Json) : Option Str :=
  match xs with
  | [] => some []
  | x :: xs => (enc env x).bind fun t => match xs with
    | [] => some t
    | _ :: _ => (encList env xs).map fun r => t ++ 44 :: r
termination_by structural xs
/-- `mapEncoder.encode`: the members in the order of their keys. -/
def encObj (env : Env) (o : List (Str × Json)) : Option Str :=
  match o with
  | [] => some []
  | (k, x) :: o => (enc env x).bind fun t => match o with
    | [] => some (encString env.short k ++ 58 :: t)
    | _ :: _ => (encObj env o).map fun r => encString env.short k ++ 58 :: (t ++ 44 :: r)
termination_by structural o
end

/-- `MapSlice.MarshalJSON`, sort.go:126-143, of the sorted items: fails if a value cannot be written. -/
def mapSlice (env : Env) (l : List Format.Item) : Option Str :=
  if l.all fun i => (enc env i.val).isSome then
    some (Format.objectText (PtrJson.quote env.prn) (fun j => (enc env j).getD []) l)
  else none

/-- The outcomes of `Sorter.MarshalJSON`, sort.go:28-34: `json.Marshal` of a `MapSlice` calls its method and compacts the result, other
data are encoded as they are.  The order of the members is left to `Format.Members`. -/
def Marshals (env : Env) (d : Json) (r : Option Str) : Prop :=
  match d with
  | .obj m => ∃ out, Format.Members Format.order m out ∧ r = (mapSlice env out).bind compact
  | d => r = enc env d

/-- The outcomes of `Sorter.MarshalIndentJSON`, sort.go:39-45, with the arguments oapi.go:217 gives. -/
def MarshalsIndent (env : Env) (d : Json) (r : Option Str) : Prop := ∃ q, Marshals env d q ∧ r = q.bind indent

/-! ### Decoding -/

/-- `getu4` (decode.go) behind `\u`. -/
def hex4 (t : Str) : Option Nat := (readHex 4 0 t).map (·.1)

/-- Surrogates (`utf16.IsSurrogate`). -/
def isSurrogate (n : Nat) : Bool := decide (0xD800 ≤ n) && decide (n < 0xE000)

/-- `getu4` of a whole escape: the second half of a surrogate pair. -/
def getu4 (t : Str) : Option Nat :=
  match t with
  | a :: b :: t => if a = 92 ∧ b = 117 then hex4 t else none
  | _ => none

/-- `utf16.DecodeRune` of `v` and what follows, none if it is no pair. -/
def pairOf (v : Nat) (t : Str) : Option Nat :=
  match getu4 t with
  | some w => if v < 0xDC00 ∧ 0xDC00 ≤ w ∧ w < 0xE000 then some (0x10000 + (v - 0xD800) * 1024 + (w - 0xDC00)) else none
  | none => none

/-- The two-letter escapes of `unquoteBytes`. -/
def shortOf (c : UInt8) : Option UInt8 :=
  if c = 34 ∨ c = 92 ∨ c = 47 then some c
  else if c = 98 then some 8
  else if c = 102 then some 12
  else if c = 110 then some 10
  else if c = 114 then some 13
  else if c = 116 then some 9
  else none

/-- Put text before the string that was read. -/
def pre (b : Str) (r : Option (Str × Str)) : Option (Str × Str) := r.map fun x => (b ++ x.1, x.2)

/-- A string literal behind its opening quote: its value and what follows (`unquoteBytes`, decode.go, up to the closing quote).  `skip`
counts the bytes that have been dealt with. -/
def strGo : Nat → Str → Option (Str × Str)
  | _, [] => none
  | k + 1, _ :: t => strGo k t
  | 0, c :: t =>
    if c = 34 then some ([], t)
    else if c < 32 then none
    else if c = 92 then match t with
      | [] => none
      | e :: t' =>
        if e = 117 then match hex4 t' with
          | none => none
          | some v =>
            if isSurrogate v then match pairOf v (t'.drop 4) with
              | some n => pre (runeBytes n) (strGo 11 t)
              | none => pre (runeBytes 0xFFFD) (strGo 5 t)
            else pre (runeBytes v) (strGo 5 t)
        else match shortOf e with
          | some b => pre [b] (strGo 1 t)
          | none => none
    else if c < 128 then pre [c] (strGo 0 t)
    else match Route.decode1 (c :: t) with
      | some (n, w) => pre (runeBytes n) (strGo (w - 1) t)
      | none => pre (runeBytes 0xFFFD) (strGo 0 t)

/-- White space is skipped. -/
def skipSpaces : Str → Str
  | [] => []
  | c :: t => if isSpace c then skipSpaces t else c :: t

/-- The bytes of a number: what the scanner reads as one literal. -/
def isNumByte (c : UInt8) : Bool := isDigit c || c == 43 || c == 45 || c == 46 || c == 101 || c == 69

/-- Does the text start with the letters? -/
def literal (l : Str) (j : Json) (t : Str) : Option (Json × Str) := if l.isPrefixOf t then some (j, t.drop l.length) else none

/-- Assignment of a member to a map. -/
abbrev assign (k : Str) (j : Json) (o : Obj) : Obj := Obj.insert k j o

mutual
/-- `decodeState.valueInterface`: a value and what follows it, in a text that passed `checkValid`.  (The decoder follows the scanner; the
model reads the text directly.)  `fuel` bounds the nesting. -/
def value (numOf : Str → Option Int) (fuel : Nat) (t : Str) : Option (Json × Str) :=
  match fuel with
  | 0 => none
  | fuel + 1 => match t with
    | [] => none
    | c :: r =>
      if c = 123 then match skipSpaces r with
        | [] => none
        | d :: r' => if d = 125 then some (.obj [], r') else (members numOf fuel [] r).map fun x => (.obj x.1, x.2)
      else if c = 91 then match skipSpaces r with
        | [] => none
        | d :: r' => if d = 93 then some (.arr [], r') else (elems numOf fuel r).map fun x => (.arr x.1, x.2)
      else if c = 34 then (strGo 0 r).map fun x => (.str x.1, x.2)
      else if c = 116 then literal b!"true" (.bool true) t
      else if c = 102 then literal b!"false" (.bool false) t
      else if c = 110 then literal b!"null" .null t
      else (numOf (t.takeWhile isNumByte)).map fun n => (.num n, t.dropWhile isNumByte)
termination_by structural fuel
/-- `decodeState.arrayInterface` behind the bracket. -/
def elems (numOf : Str → Option Int) (fuel : Nat) (t : Str) : Option (List Json × Str) :=
  match fuel with
  | 0 => none
  | fuel + 1 => match value numOf fuel (skipSpaces t) with
    | none => none
    | some (j, r) => match skipSpaces r with
      | [] => none
      | c :: r' =>
        if c = 44 then (elems numOf fuel r').map fun x => (j :: x.1, x.2)
        else if c = 93 then some ([j], r')
        else none
termination_by structural fuel
/-- `decodeState.objectInterface` behind the brace; `o` has the members before. -/
def members (numOf : Str → Option Int) (fuel : Nat) (o : Obj) (t : Str) : Option (Obj × Str) :=
  match fuel with
  | 0 => none
  | fuel + 1 => match skipSpaces t with
    | [] => none
    | c :: r =>
      if c = 34 then match strGo 0 r with
        | none => none
        | some (k, r) => match skipSpaces r with
          | [] => none
          | c :: r =>
            if c = 58 then match value numOf fuel (skipSpaces r) with
              | none => none
              | some (j, r) => match skipSpaces r with
                | [] => none
                | c :: r =>
                  if c = 44 then members numOf fuel (assign k j o) r
                  else if c = 125 then some (assign k j o, r)
                  else none
            else none
      else none
termination_by structural fuel
end

/-- `json.Unmarshal` into an `interface{}`: the text must be valid first.  (A number out of range is an error.) -/
def unmarshal (numOf : Str → Option Int) (data : Str) : Option Json :=
  if valid data then (value numOf (data.length + 1) (skipSpaces data)).map (·.1) else none

/-- `json.Unmarshal` into a `map[string]interface{}`, container.go:48-49: null leaves the nil map, other values are refused. -/
def unmarshalMap (numOf : Str → Option Int) (data : Str) : Option Obj :=
  match unmarshal numOf data with
  | some (.obj o) => some o
  | some .null => some []
  | _ => none

/-- `clone` of a tree, utils.go:50-61: an error if it cannot be encoded, nil if the encoding cannot be decoded. -/
def clone (env : Env) (j : Json) : Option Json := (enc env j).map fun t => (unmarshal env.numOf t).getD .null

end Oapi.JsonText
