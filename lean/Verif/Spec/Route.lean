import Verif.Base.Str
import Verif.Base.Res

/-! What route patterns mean, independently of the implementation. -/
namespace Oapi.Spec

/-- Unicode scalar values. -/
def Scalar (n : Nat) : Prop := n < 0xD800 ∨ (0xE000 ≤ n ∧ n < 0x110000)

/-- UTF-8 encoding of a scalar value. -/
def utf8 (n : Nat) : Str :=
  if n < 0x80 then [UInt8.ofNat n]
  else if n < 0x800 then [UInt8.ofNat (0xC0 + n / 64), UInt8.ofNat (0x80 + n % 64)]
  else if n < 0x10000 then
    [UInt8.ofNat (0xE0 + n / 4096), UInt8.ofNat (0x80 + n / 64 % 64), UInt8.ofNat (0x80 + n % 64)]
  else [UInt8.ofNat (0xF0 + n / 262144), UInt8.ofNat (0x80 + n / 4096 % 64), UInt8.ofNat (0x80 + n / 64 % 64),
    UInt8.ofNat (0x80 + n % 64)]

/-- The UTF-8 string of a text. -/
def utf8s (t : List Nat) : Str := t.flatMap utf8

/-- Letters and digits of variable names. -/
def LowerLetter (r : Nat) : Prop := 97 ≤ r ∧ r ≤ 122
def LetterOrDigit (r : Nat) : Prop := (97 ≤ r ∧ r ≤ 122) ∨ (65 ≤ r ∧ r ≤ 90) ∨ (48 ≤ r ∧ r ≤ 57)

/-- Parts of a pattern: literal text, a variable `{name}` and `*`. -/
inductive Tok where
  | text (s : List Nat)
  | var (name : List Nat)
  | any

/-- Variable names: a lower-case letter followed by at least one letter or digit. -/
def VarName : List Nat → Prop
  | c :: d :: t => LowerLetter c ∧ ∀ x ∈ d :: t, LetterOrDigit x
  | _ => False

def Tok.render : Tok → List Nat
  | .text s => s
  | .var n => 123 :: n ++ [125]
  | .any => [42]

/-- A text without `*` and without a part of the form `{name}`. -/
def PlainText (s : List Nat) : Prop := ∀ u v m, s = u ++ m ++ v → (m ≠ [42]) ∧ ∀ n, VarName n → m ≠ 123 :: n ++ [125]

/-- `r` is the pattern read as variables, stars and maximal plain texts between them. -/
inductive Reads : List Nat → List Tok → Prop where
  | last {s} : PlainText s → Reads s [.text s]
  | var {s n r ts} : PlainText s → VarName n → Reads r ts → Reads (s ++ (123 :: n ++ [125]) ++ r) (.text s :: .var n :: ts)
  | any {s r ts} : PlainText s → Reads r ts → Reads (s ++ [42] ++ r) (.text s :: .any :: ts)

/-- The texts a pattern describes: literal text stands for itself, a variable for a non-empty text without '/', a star for
any text without line feed. -/
inductive Describes : List Tok → List Nat → Prop where
  | nil : Describes [] []
  | text {s ts r} : Describes ts r → Describes (.text s :: ts) (s ++ r)
  | var {n ts u r} : u ≠ [] → 47 ∉ u → Describes ts r → Describes (.var n :: ts) (u ++ r)
  | any {ts u r} : 10 ∉ u → Describes ts r → Describes (.any :: ts) (u ++ r)

/-- Regular-expression metacharacters: `\.+*?()|[]{}^$` -/
def Meta (r : Nat) : Prop := r ∈ [92, 46, 43, 42, 63, 40, 41, 124, 91, 93, 123, 125, 94, 36]

/-- The last text of a reading. -/
def LastText : List Tok → List Nat → Prop
  | [.text s], t => t = s
  | _ :: a :: ts, t => LastText (a :: ts) t
  | _, _ => False

/-- Lower case of ASCII letters. -/
def lowerLetter (r : Nat) : Nat := if 65 ≤ r ∧ r ≤ 90 then r + 32 else r

/-- Same text up to the case of ASCII letters. -/
def SameFold (a b : List Nat) : Prop := a.map lowerLetter = b.map lowerLetter

/-- The HTTP methods a pattern can be prefixed with (RFC registry). -/
def knownMethods : List Str :=
  [b!"acl", b!"baseline-control", b!"bind", b!"checkin", b!"checkout", b!"connect", b!"copy", b!"delete", b!"get", b!"head",
   b!"label", b!"link", b!"lock", b!"merge", b!"mkactivity", b!"mkcalendar", b!"mkcol", b!"mkredirectref", b!"mkworkspace",
   b!"move", b!"options", b!"orderpatch", b!"patch", b!"post", b!"pri", b!"propfind", b!"proppatch", b!"put", b!"rebind",
   b!"report", b!"search", b!"trace", b!"unbind", b!"uncheckout", b!"unlink", b!"unlock", b!"update", b!"updateredirectref",
   b!"version-control"]

/-- `m` is a known method, in any letter case. -/
def KnownMethod (m : List Nat) : Prop := ∃ k ∈ knownMethods, m.map lowerLetter = k.map UInt8.toNat

/-- Lower case as Go's `unicode.ToLower` has it, for runes whose lower case is an ASCII letter: besides A–Z these are
U+0130 (I with dot above) and U+212A (Kelvin sign). -/
def goLower (r : Nat) : Nat := if r = 0x130 then 105 else if r = 0x212A then 107 else lowerLetter r

/-- The pattern does not start with a known method, in any letter case, and ':'. -/
def Unprefixed (p : List Nat) : Prop :=
  ¬ ∃ m rest, p = m ++ 58 :: rest ∧ ∃ k ∈ knownMethods, m.map goLower = k.map UInt8.toNat

end Oapi.Spec
