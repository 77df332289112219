import Verif.Model.Tag

/-! Specification vocabulary for struct tags (C44–C46). -/
namespace Oapi.Spec
open TagP

/-- The tag is there and is not the dash that hides a field. -/
def Active (t : Option PTag) (p : PTag) : Prop := t = some p ∧ p.name ≠ b!"-"

def trueWords : List Str := [b!"1", b!"t", b!"T", b!"true", b!"TRUE", b!"True"]
def falseWords : List Str := [b!"0", b!"f", b!"F", b!"false", b!"FALSE", b!"False"]

/-- The option is set: it is given without value, or with a word for true. -/
def FlagSet (p : PTag) (k : Str) : Prop := p.opt k = some [] ∨ ∃ x ∈ trueWords, p.opt k = some x

/-- The option is given with a value that is no word for true or false. -/
def BadBool (p : PTag) (k : Str) : Prop := ∃ x, p.opt k = some x ∧ x ≠ [] ∧ x ∉ trueWords ∧ x ∉ falseWords

/-- The number a row of decimal digits denotes. -/
def digitsNum (ds : List Nat) : Nat := ds.foldl (fun n d => n * 10 + d) 0

/-- The text is a row of decimal digits denoting `n`. -/
def Digits (s : Str) (n : Nat) : Prop :=
  ∃ ds : List Nat, ds ≠ [] ∧ (∀ d ∈ ds, d < 10) ∧ s = ds.map (fun d => UInt8.ofNat (48 + d)) ∧ n = digitsNum ds

/-- The text is a decimal number, with or without sign, that denotes `n`, and `n` is a 64-bit integer. -/
def IntText (s : Str) (n : Int) : Prop :=
  (∃ k : Nat, (Digits s k ∧ n = k) ∨ (∃ t, s = 43 :: t ∧ Digits t k ∧ n = k) ∨ (∃ t, s = 45 :: t ∧ Digits t k ∧ n = -k)) ∧
  -2 ^ 63 ≤ n ∧ n < 2 ^ 63

/-- The option is given with a value that is no 64-bit integer. -/
def BadInt (p : PTag) (k : Str) : Prop := ∃ x, p.opt k = some x ∧ ¬ ∃ n, IntText x n

/-- `v` is the integer the option is given with. -/
def IntOpt (p : PTag) (k : Str) (v : Option Int) : Prop := ∀ n, v = some n ↔ ∃ x, p.opt k = some x ∧ IntText x n

def BadFloat {F : Type} (pf : Str → Option F) (p : PTag) (k : Str) : Prop := ∃ x, p.opt k = some x ∧ pf x = none

def intKeys : List Str := [b!"maxlen", b!"minlen", b!"maxitems", b!"minitems", b!"maxprops", b!"minprops"]
def floatKeys : List Str := [b!"max", b!"min", b!"emax", b!"emin", b!"mulof"]

/-- The value of a two-valued option. -/
def boolOpt (p : PTag) (k : Str) : Option Bool :=
  match p.opt k with
  | none => none
  | some x => some (decide (x = [] ∨ x ∈ trueWords))

end Oapi.Spec
