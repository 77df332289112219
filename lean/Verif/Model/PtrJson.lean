import Verif.Model.Pointer
import Verif.Model.Route

/- Model of the JSON methods of pointers, /repo/internal/pointer/pointer.go:70-88, with Go's `strconv.Quote` (`%q`), `strconv.Unquote`
and the validity check `encoding/json` makes of what a `MarshalJSON` method returns. -/
namespace Oapi.PtrJson

/-- A Go string as `utf8.DecodeRuneInString` sees it: runes and bytes that belong to none. -/
inductive Chunk where
  | rune (n : Nat)
  | bad (b : UInt8)
  deriving DecidableEq, Repr

/-- The chunks of a string; `skip` counts the remaining bytes of the current rune. -/
def chunksGo : Nat → Str → List Chunk
  | _, [] => []
  | skip + 1, _ :: t => chunksGo skip t
  | 0, a :: t =>
    match Route.decode1 (a :: t) with
    | some (n, w) => .rune n :: chunksGo (w - 1) t
    | none => .bad a :: chunksGo 0 t

def chunks (s : Str) : List Chunk := chunksGo 0 s

/-- `utf8.AppendRune`. -/
def runeBytes (n : Nat) : Str :=
  if n < 0x80 then [UInt8.ofNat n]
  else if n < 0x800 then [UInt8.ofNat (0xC0 + n / 64), UInt8.ofNat (0x80 + n % 64)]
  else if n < 0x10000 then
    [UInt8.ofNat (0xE0 + n / 4096), UInt8.ofNat (0x80 + n / 64 % 64), UInt8.ofNat (0x80 + n % 64)]
  else [UInt8.ofNat (0xF0 + n / 262144), UInt8.ofNat (0x80 + n / 4096 % 64), UInt8.ofNat (0x80 + n / 64 % 64),
    UInt8.ofNat (0x80 + n % 64)]

/-- `lowerhex[n]`. -/
def hexDigit (n : Nat) : UInt8 := if n < 10 then UInt8.ofNat (48 + n) else UInt8.ofNat (87 + n)

/-- The lowest `k` hexadecimal digits of `n`. -/
def hexDigits : Nat → Nat → Str
  | 0, _ => []
  | k + 1, n => hexDigits k (n / 16) ++ [hexDigit (n % 16)]

/-- `strconv.IsPrint`; its table for runes outside ASCII is the parameter `prn`. -/
def isPrint (prn : Nat → Bool) (r : Nat) : Bool := if r < 128 then decide (32 ≤ r) && decide (r < 127) else prn r

/-- strconv `appendEscapedRune` with the quote `"`. -/
def escapeRune (prn : Nat → Bool) (r : Nat) : Str :=
  if r = 34 ∨ r = 92 then [92, UInt8.ofNat r]
  else if isPrint prn r then runeBytes r
  else if r = 7 then b!"\\a"
  else if r = 8 then b!"\\b"
  else if r = 12 then b!"\\f"
  else if r = 10 then b!"\\n"
  else if r = 13 then b!"\\r"
  else if r = 9 then b!"\\t"
  else if r = 11 then b!"\\v"
  else if r < 32 ∨ r = 127 then b!"\\x" ++ hexDigits 2 r
  else if r < 0x10000 then b!"\\u" ++ hexDigits 4 r
  else b!"\\U" ++ hexDigits 8 r

/-- One round of strconv `appendQuotedWith`. -/
def quoteChunk (prn : Nat → Bool) : Chunk → Str
  | .rune r => escapeRune prn r
  | .bad b => b!"\\x" ++ hexDigits 2 b.toNat

/-- `strconv.Quote`, which is `%q` of a string. -/
def quote (prn : Nat → Bool) (s : Str) : Str := 34 :: (chunks s).flatMap (quoteChunk prn) ++ [34]

/-- `Pointer.MarshalJSON`, pointer.go:86-89. -/
def marshal (prn : Nat → Bool) (p : Pointer) : Str := quote prn p.toStr

/-- `n` hexadecimal digits and their value. -/
def readHex : Nat → Nat → Str → Option (Nat × Str)
  | 0, v, s => some (v, s)
  | _ + 1, _, [] => none
  | n + 1, v, c :: t => match Url.hexVal c with
    | some x => readHex n (v * 16 + x) t
    | none => none

/-- `utf8.ValidRune`. -/
def validRune (n : Nat) : Bool := decide (n < 0xD800) || (decide (0xE000 ≤ n) && decide (n < 0x110000))

/-- An octal digit. -/
def octVal (c : UInt8) : Option Nat := if 48 ≤ c ∧ c ≤ 55 then some (c.toNat - 48) else none

/-- The escape sequences of `strconv.UnquoteChar` with the quote `"`, after the backslash: the bytes they stand for and the rest. -/
def unquoteEscape : Str → Option (Str × Str)
  | [] => none
  | c :: t =>
    if c = 97 then some ([7], t)
    else if c = 98 then some ([8], t)
    else if c = 102 then some ([12], t)
    else if c = 110 then some ([10], t)
    else if c = 114 then some ([13], t)
    else if c = 116 then some ([9], t)
    else if c = 118 then some ([11], t)
    else if c = 120 then (readHex 2 0 t).map fun (v, r) => ([UInt8.ofNat v], r)
    else if c = 117 then match readHex 4 0 t with
      | some (v, r) => if validRune v then some (runeBytes v, r) else none
      | none => none
    else if c = 85 then match readHex 8 0 t with
      | some (v, r) => if validRune v then some (runeBytes v, r) else none
      | none => none
    else if c = 92 then some ([92], t)
    else if c = 34 then some ([34], t)
    else match octVal c, t with
      | some x, d :: e :: r => match octVal d, octVal e with
        | some y, some z => if x * 64 + y * 8 + z ≤ 255 then some ([UInt8.ofNat (x * 64 + y * 8 + z)], r) else none
        | _, _ => none
      | _, _ => none

/-- `strconv.UnquoteChar` with the quote `"`, and what `strconv.unquote` appends for it. -/
def unquoteChar : Str → Option (Str × Str)
  | [] => none
  | c :: t =>
    if c = 34 then none
    else if 128 ≤ c then match Route.decode1 (c :: t) with
      | some (n, w) => some (runeBytes n, (c :: t).drop w)
      | none => some (runeBytes 0xFFFD, t)
    else if c ≠ 92 then some ([c], t)
    else unquoteEscape t

/-- The loop of strconv `unquote` behind the opening quote, and the demand that nothing follow the closing one.  `fuel` bounds the rounds. -/
def unquoteLoop : Nat → Str → Option Str
  | 0, _ => none
  | _ + 1, [] => none
  | fuel + 1, c :: t =>
    if c = 34 then if t = [] then some [] else none
    else if c = 10 then none
    else match unquoteChar (c :: t) with
      | some (b, r) => (unquoteLoop fuel r).map (b ++ ·)
      | none => none

/-- `strconv.Unquote` of a JSON value (which never starts with one of Go's other two quotes).  Its shortcut for texts without escapes
gives what the loop gives. -/
def unquote : Str → Option Str
  | 34 :: t => unquoteLoop (t.length + 1) t
  | _ => none

/-- `Pointer.UnmarshalJSON`, pointer.go:70-83, given the text of a JSON value. -/
def unmarshal (data : Str) : Res Pointer :=
  match unquote data with
  | some t => Pointer.parse t
  | none => Pointer.parse data

/-- The states of the `encoding/json` scanner inside a string, behind the opening quote: is the text a string that ends with its end? -/
def scanString : Str → Bool
  | [] => false
  | c :: t =>
    if c = 34 then t.isEmpty
    else if c < 32 then false
    else if c ≠ 92 then scanString t
    else match t with
      | [] => false
      | e :: t' =>
        if e ∈ b!"bfnrt\\/\"" then scanString t'
        else if e = 117 then match t' with
          | h1 :: h2 :: h3 :: h4 :: t'' =>
            (Url.hexVal h1).isSome && (Url.hexVal h2).isSome && (Url.hexVal h3).isSome && (Url.hexVal h4).isSome && scanString t''
          | _ => false
        else false

/-- What `json.Marshal` does with the result of a `MarshalJSON` method, for a text that starts with a quote: it must be valid JSON. (It
also writes `<`, `>`, `&`, U+2028 and U+2029 as `\u` escapes, which is left out.) -/
def encode (prn : Nat → Bool) (p : Pointer) : Res Str :=
  match marshal prn p with
  | 34 :: t => if scanString t then .ok (marshal prn p) else .err .syntaxErr
  | _ => .err .syntaxErr

end Oapi.PtrJson
