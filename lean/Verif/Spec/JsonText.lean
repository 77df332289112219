import Verif.Base.Json
import Verif.Spec.PtrJson

/- JSON texts (RFC 8259) and what they mean. -/
namespace Oapi.Spec.JsonText

/-- White space: spaces, tabs, line feeds, carriage returns. -/
def Blank (w : Str) : Prop := ∀ c ∈ w, c ∈ [32, 9, 10, 13]

/-- One or more digits. -/
def Digits (t : Str) : Prop := t ≠ [] ∧ ∀ c ∈ t, 48 ≤ c ∧ c ≤ 57

/-- Whole parts of numbers: no leading zero. -/
def Whole (t : Str) : Prop := Digits t ∧ (t.head? = some 48 → t = [48])

/-- Fractions, or nothing. -/
def Fraction (t : Str) : Prop := t = [] ∨ ∃ d, Digits d ∧ t = 46 :: d

/-- Exponents, or nothing. -/
def Exponent (t : Str) : Prop := t = [] ∨ ∃ e s d, e ∈ [101, 69] ∧ (s = [] ∨ s = [43] ∨ s = [45]) ∧ Digits d ∧ t = e :: s ++ d

/-- The form of numbers, section 6. -/
def Number (t : Str) : Prop :=
  ∃ sign int frac exp, (sign = [] ∨ sign = [45]) ∧ Whole int ∧ Fraction frac ∧ Exponent exp ∧ t = sign ++ int ++ frac ++ exp

/-- The last value given for a key. -/
def lastOf (ms : List (Str × Json)) (k : Str) : Option Json := (ms.reverse.find? fun e => e.1 = k).map (·.2)

/-- The object with the given members; of several with the same key the last counts. -/
def Collect (ms : List (Str × Json)) (o : Obj) : Prop := Obj.Sorted o ∧ ∀ k, Obj.lookup k o = lastOf ms k

/-- What a piece of a JSON text may stand for: a value, the elements of an array, the members of an object. -/
inductive What where
  | value (j : Json)
  | elems (l : List Json)
  | members (l : List (Str × Json))

/-- The grammar, sections 2 to 5.  `N t n`: the number text `t` means `n`; `S t s`: the string literal `t` means `s`. -/
inductive Means (N : Str → Int → Prop) (S : Str → Str → Prop) : What → Str → Prop where
  | null : Means N S (.value .null) b!"null"
  | true_ : Means N S (.value (.bool true)) b!"true"
  | false_ : Means N S (.value (.bool false)) b!"false"
  | num {t : Str} {n : Int} : N t n → Means N S (.value (.num n)) t
  | str {t s : Str} : S t s → Means N S (.value (.str s)) t
  | arr0 {w : Str} : Blank w → Means N S (.value (.arr [])) (91 :: (w ++ [93]))
  | arr {l : List Json} {t : Str} : Means N S (.elems l) t → Means N S (.value (.arr l)) (91 :: (t ++ [93]))
  | obj0 {w : Str} : Blank w → Means N S (.value (.obj [])) (123 :: (w ++ [125]))
  | obj {ms : List (Str × Json)} {o : Obj} {t : Str} : Means N S (.members ms) t → Collect ms o → Means N S (.value (.obj o)) (123 :: (t ++ [125]))
  | elem {j : Json} {a t b : Str} : Blank a → Means N S (.value j) t → Blank b → Means N S (.elems [j]) (a ++ (t ++ b))
  | elems {j : Json} {l : List Json} {a t b r : Str} : Blank a → Means N S (.value j) t → Blank b → Means N S (.elems l) r →
      Means N S (.elems (j :: l)) (a ++ (t ++ (b ++ 44 :: r)))
  | member {key : Str} {j : Json} {a k b c t d : Str} : Blank a → S k key → Blank b → Blank c → Means N S (.value j) t → Blank d →
      Means N S (.members [(key, j)]) (a ++ (k ++ (b ++ 58 :: (c ++ (t ++ d)))))
  | members {key : Str} {j : Json} {l : List (Str × Json)} {a k b c t d r : Str} : Blank a → S k key → Blank b → Blank c →
      Means N S (.value j) t → Blank d → Means N S (.members l) r →
      Means N S (.members ((key, j) :: l)) (a ++ (k ++ (b ++ 58 :: (c ++ (t ++ (d ++ 44 :: r))))))

/-- The number texts that `value` understands. -/
def NumberText (value : Str → Option Int) (t : Str) (n : Int) : Prop := Number t ∧ value t = some n

/-- `t` is a JSON text, with white space around it, that means `j`. -/
def Doc (N : Str → Int → Prop) (S : Str → Str → Prop) (t : Str) (j : Json) : Prop :=
  ∃ a w b, Blank a ∧ Blank b ∧ t = a ++ (w ++ b) ∧ Means N S (.value j) w

/-- JSON texts; `value` gives the numbers. -/
def JsonText (value : Str → Option Int) (t : Str) (j : Json) : Prop := Doc (NumberText value) PtrJson.JsonString t j

/-- String literals by their form alone: any bytes but control characters, quotes and backslashes, and the escapes of section 7; so they
need be neither valid UTF-8 nor free of lone surrogates. -/
inductive LaxBody : Str → Prop where
  | nil : LaxBody []
  | byte {c : UInt8} {t : Str} : 32 ≤ c → c ≠ 34 → c ≠ 92 → LaxBody t → LaxBody (c :: t)
  | short {c : UInt8} {t : Str} : c ∈ b!"\"\\/bfnrt" → LaxBody t → LaxBody (92 :: c :: t)
  | uni {a b c d : UInt8} {t : Str} : (PtrJson.hexOf a).isSome → (PtrJson.hexOf b).isSome → (PtrJson.hexOf c).isSome → (PtrJson.hexOf d).isSome →
      LaxBody t → LaxBody (92 :: 117 :: a :: b :: c :: d :: t)

def LaxString (t : Str) : Prop := ∃ b, LaxBody b ∧ t = 34 :: (b ++ [34])

/-- The insides of string literals and what Go reads there: the elements of JSON strings mean what they mean; a byte that does not start a
UTF-8 sequence and half of a surrogate pair mean U+FFFD. -/
inductive GoBody : Str → Str → Prop where
  | nil : GoBody [] []
  | elem {e : PtrJson.Elem} {t s : Str} : e.ok → GoBody t s → GoBody (e.text ++ t) (e.meaning ++ s)
  | bad {c : UInt8} {t s : Str} : 128 ≤ c → (∀ n x, Scalar n → c :: t ≠ utf8 n ++ x) → GoBody t s → GoBody (c :: t) (utf8 0xFFFD ++ s)
  | lone {h : PtrJson.Hex4} {t s : Str} : 0xD800 ≤ h.value → h.value < 0xE000 → (∀ lo x, t = PtrJson.Hex4.text lo ++ x → ¬ (PtrJson.Elem.pair h lo).ok) →
      GoBody t s → GoBody (h.text ++ t) (utf8 0xFFFD ++ s)

/-- String literals and what Go reads. -/
def GoString (t s : Str) : Prop := ∃ b, GoBody b s ∧ t = 34 :: (b ++ [34])

/-- Texts: valid UTF-8. -/
def Unicode (s : Str) : Prop := ∃ rs : List Nat, s = utf8s rs ∧ ∀ r ∈ rs, Scalar r

mutual
/-- All texts and keys of a document satisfy `p`. -/
def AllTexts (p : Str → Prop) (j : Json) : Prop :=
  match j with
  | .str s => p s
  | .arr xs => AllTextsL p xs
  | .obj o => AllTextsO p o
  | _ => True
termination_by structural j
def AllTextsL (p : Str → Prop) (xs : List Json) : Prop :=
  match xs with
  | [] => True
  | x :: xs => AllTexts p x ∧ AllTextsL p xs
termination_by structural xs
def AllTextsO (p : Str → Prop) (o : List (Str × Json)) : Prop :=
  match o with
  | [] => True
  | (k, x) :: o => p k ∧ AllTexts p x ∧ AllTextsO p o
termination_by structural o
end

mutual
/-- All numbers of a document satisfy `p`. -/
def AllNumbers (p : Int → Prop) (j : Json) : Prop :=
  match j with
  | .num n => p n
  | .arr xs => AllNumbersL p xs
  | .obj o => AllNumbersO p o
  | _ => True
termination_by structural j
def AllNumbersL (p : Int → Prop) (xs : List Json) : Prop :=
  match xs with
  | [] => True
  | x :: xs => AllNumbers p x ∧ AllNumbersL p xs
termination_by structural xs
def AllNumbersO (p : Int → Prop) (o : List (Str × Json)) : Prop :=
  match o with
  | [] => True
  | (_, x) :: o => AllNumbers p x ∧ AllNumbersO p o
termination_by structural o
end

mutual
/-- The document with every number replaced. -/
def mapNumbers (f : Int → Int) (j : Json) : Json :=
  match j with
  | .num n => .num (f n)
  | .arr xs => .arr (mapNumbersL f xs)
  | .obj o => .obj (mapNumbersO f o)
  | .null => .null
  | .bool b => .bool b
  | .str s => .str s
termination_by structural j
def mapNumbersL (f : Int → Int) (xs : List Json) : List Json :=
  match xs with
  | [] => []
  | x :: xs => mapNumbers f x :: mapNumbersL f xs
termination_by structural xs
def mapNumbersO (f : Int → Int) (o : List (Str × Json)) : List (Str × Json) :=
  match o with
  | [] => []
  | (k, x) :: o => (k, mapNumbers f x) :: mapNumbersO f o
termination_by structural o
end

end Oapi.Spec.JsonText
