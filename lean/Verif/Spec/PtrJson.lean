import Verif.Spec.Route

/- JSON string literals (RFC 8259, section 7) and what they mean. -/
namespace Oapi.Spec.PtrJson

/-- The value of a hexadecimal digit, by the digits. -/
def hexOf (c : UInt8) : Option Nat :=
  [(48, 0), (49, 1), (50, 2), (51, 3), (52, 4), (53, 5), (54, 6), (55, 7), (56, 8), (57, 9), (97, 10), (98, 11), (99, 12), (100, 13), (101, 14),
   (102, 15), (65, 10), (66, 11), (67, 12), (68, 13), (69, 14), (70, 15)].lookup c

/-- Four hexadecimal digits and their value. -/
structure Hex4 where
  a : UInt8
  b : UInt8
  c : UInt8
  d : UInt8
  value : Nat
  ok : ∃ w x y z, hexOf a = some w ∧ hexOf b = some x ∧ hexOf c = some y ∧ hexOf d = some z ∧ value = w * 4096 + x * 256 + y * 16 + z

/-- `\uXXXX` -/
def Hex4.text (h : Hex4) : Str := [92, 117, h.a, h.b, h.c, h.d]

/-- The elements of a JSON string: unescaped characters, two-letter escapes (without `\/`), an escaped slash, `\u` escapes of scalar values,
and surrogate pairs. -/
inductive Elem where
  | plain (n : Nat)
  | short (letter meaning : UInt8)
  | slash
  | uni (h : Hex4)
  | pair (hi lo : Hex4)

/-- The two-letter escapes and their meanings: `\" \\ \b \f \n \r \t`. -/
def shorts : List (UInt8 × UInt8) := [(34, 34), (92, 92), (98, 8), (102, 12), (110, 10), (114, 13), (116, 9)]

/-- Is the element allowed? -/
def Elem.ok : Elem → Prop
  | .plain n => Scalar n ∧ 32 ≤ n ∧ n ≠ 34 ∧ n ≠ 92
  | .short l m => (l, m) ∈ shorts
  | .slash => True
  | .uni h => Scalar h.value
  | .pair hi lo => 0xD800 ≤ hi.value ∧ hi.value < 0xDC00 ∧ 0xDC00 ≤ lo.value ∧ lo.value < 0xE000

/-- How it is written. -/
def Elem.text : Elem → Str
  | .plain n => utf8 n
  | .short l _ => [92, l]
  | .slash => [92, 47]
  | .uni h => h.text
  | .pair hi lo => hi.text ++ lo.text

/-- What it means. -/
def Elem.meaning : Elem → Str
  | .plain n => utf8 n
  | .short _ m => [m]
  | .slash => [47]
  | .uni h => utf8 h.value
  | .pair hi lo => utf8 (0x10000 + (hi.value - 0xD800) * 1024 + (lo.value - 0xDC00))

/-- The literal with the given elements. -/
def literal (es : List Elem) : Str := 34 :: es.flatMap Elem.text ++ [34]

/-- Its meaning. -/
def meaning (es : List Elem) : Str := es.flatMap Elem.meaning

/-- Elements that Go's string syntax does not have. -/
def Elem.foreign : Elem → Prop
  | .slash => True
  | .pair _ _ => True
  | _ => False

/-- `t` is a JSON string that means `m`. -/
def JsonString (t m : Str) : Prop := ∃ es : List Elem, (∀ e ∈ es, e.ok) ∧ t = literal es ∧ m = meaning es

/-- Texts whose Go quotation is JSON: Unicode without control characters other than `\b \f \n \r \t`, and outside the basic plane
only characters Go counts as printable. -/
def Quotable (prn : Nat → Bool) (s : Str) : Prop :=
  ∃ rs : List Nat, s = utf8s rs ∧ ∀ r ∈ rs, Scalar r ∧ (r < 32 → r ∈ [8, 9, 10, 12, 13]) ∧ r ≠ 127 ∧ (0x10000 ≤ r → prn r = true)

end Oapi.Spec.PtrJson
