/-
Byte strings (Go strings) and the `strings` functions used by the code.
All definitions are structurally recursive so that the kernel can evaluate them.
-/

namespace Oapi

/-- A Go string: a list of bytes. -/
abbrev Str := List UInt8

/-- `b!"text"` is the list of UTF-8 bytes of a string literal, as a list literal. -/
macro:max "b!" s:str : term => do
  let bytes := s.getString.toUTF8.toList
  let elems : Array (Lean.TSyntax `term) :=
    (bytes.map fun b => (⟨Lean.Syntax.mkNumLit (toString b.toNat)⟩ : Lean.TSyntax `term)).toArray
  `(([$elems,*] : List UInt8))

namespace Str

/-- Lexicographic "less than" on byte strings: Go's `<` on strings. -/
def lt : Str → Str → Bool
  | [], [] => false
  | [], _ :: _ => true
  | _ :: _, [] => false
  | a :: s, b :: t => if a < b then true else if a = b then lt s t else false

/-- Go's `strings.HasPrefix`. -/
def hasPrefix (s p : Str) : Bool := p.isPrefixOf s

/-- Go's `strings.Replace(s, old, new, -1)` for a non-empty `old`: leftmost non-overlapping
occurrences, scanning left to right.  `skip` counts the bytes of the current occurrence
that still have to be dropped. -/
def replaceGo (old new : Str) : Nat → Str → Str
  | _, [] => []
  | skip + 1, _ :: t => replaceGo old new skip t
  | 0, c :: t =>
    if hasPrefix (c :: t) old then new ++ replaceGo old new (old.length - 1) t
    else c :: replaceGo old new 0 t

/-- Go's `strings.Replace(s, old, new, -1)`, `old` non-empty. -/
def replaceAll (s old new : Str) : Str := replaceGo old new 0 s

/-- First pair whose key is a prefix of `s` (argument order), as `strings.NewReplacer` compares. -/
def firstRule (rules : List (Str × Str)) (s : Str) : Option (Str × Str) :=
  rules.find? fun r => hasPrefix s r.1

/-- Go's `strings.NewReplacer(rules...).Replace(s)` for non-empty keys. -/
def replacerGo (rules : List (Str × Str)) : Nat → Str → Str
  | _, [] => []
  | skip + 1, _ :: t => replacerGo rules skip t
  | 0, c :: t =>
    match firstRule rules (c :: t) with
    | some (old, new) => new ++ replacerGo rules (old.length - 1) t
    | none => c :: replacerGo rules 0 t

def replacer (rules : List (Str × Str)) (s : Str) : Str := replacerGo rules 0 s

/-- Go's `strings.Split(s, sep)` for a one-byte separator: always at least one element. -/
def split (sep : UInt8) : Str → List Str
  | [] => [[]]
  | c :: t =>
    if c = sep then [] :: split sep t
    else match split sep t with
      | [] => [[c]]
      | h :: r => (c :: h) :: r

/-- Go's `strings.Join(xs, sep)` for a one-byte separator. -/
def join (sep : UInt8) : List Str → Str
  | [] => []
  | [x] => x
  | x :: y :: r => x ++ sep :: join sep (y :: r)

/-- ASCII lower case of a byte. -/
def lowerByte (c : UInt8) : UInt8 := if 65 ≤ c ∧ c ≤ 90 then c + 32 else c

/-- Go's `strings.ToLower` on ASCII strings (bytes ≥ 128 are left unchanged; for such strings
the Go function maps Unicode letters, which is not modelled). -/
def lower (s : Str) : Str := s.map lowerByte

/-- Split at the first occurrence of byte `c`: bytes before, and bytes after it if it occurs. -/
def cut (c : UInt8) : Str → Str × Option Str
  | [] => ([], none)
  | x :: t => if x = c then ([], some t) else ((x :: (cut c t).1), (cut c t).2)

/-- Go's `strings.Contains`. -/
def contains (s sub : Str) : Bool :=
  match s with
  | [] => sub.isEmpty
  | c :: t => hasPrefix (c :: t) sub || contains t sub

/-- Decimal digits with a recursion budget (`fuel ≥ n` suffices). -/
def itoaGo : Nat → Nat → Str
  | 0, n => [UInt8.ofNat (48 + n % 10)]
  | f + 1, n => if n < 10 then [UInt8.ofNat (48 + n)] else itoaGo f (n / 10) ++ [UInt8.ofNat (48 + n % 10)]

/-- Go's `strconv.Itoa` on a non-negative number. -/
def itoa (n : Nat) : Str := itoaGo n n

/-- Value of a decimal digit. -/
def digitVal (c : UInt8) : Option Nat :=
  if 48 ≤ c ∧ c ≤ 57 then some (c.toNat - 48) else none

/-- Value of a string of decimal digits, continuing from `acc`. -/
def digitsVal : Nat → Str → Option Nat
  | acc, [] => some acc
  | acc, c :: t => match digitVal c with
    | some d => digitsVal (acc * 10 + d) t
    | none => none

/-- A non-empty string of digits. -/
def parseNat : Str → Option Nat
  | [] => none
  | c :: t => digitsVal 0 (c :: t)

/-- Go's `strconv.Atoi`: optional sign, then digits.  Range errors (beyond int64) are not modelled:
the code only uses the result as an index that must be smaller than a slice length. -/
def atoi : Str → Option Int
  | [] => none
  | c :: t =>
    if c = 45 then (parseNat t).map fun n => -(n : Int)
    else if c = 43 then (parseNat t).map fun n => (n : Int)
    else (parseNat (c :: t)).map fun n => (n : Int)

end Str
end Oapi
