import Verif.Spec.PtrJson

/- Interpreted string literals of Go (the Go specification, section "String literals") and what they mean. -/
namespace Oapi.Spec.PtrJson

/-- The value of an octal digit, by the digits. -/
def octOf (c : UInt8) : Option Nat := [(48, 0), (49, 1), (50, 2), (51, 3), (52, 4), (53, 5), (54, 6), (55, 7)].lookup c

/-- The digits `ds` in the given base are the number `v`. -/
def Numeral (digit : UInt8 → Option Nat) (base : Nat) (ds : Str) (v : Nat) : Prop :=
  ∃ xs : List Nat, ds.map digit = xs.map some ∧ v = xs.foldl (fun n x => n * base + x) 0

/-- The two-letter escapes: `\a \b \f \n \r \t \v \\ \"`. -/
def goLetters : List (UInt8 × UInt8) := [(97, 7), (98, 8), (102, 12), (110, 10), (114, 13), (116, 9), (118, 11), (92, 92), (34, 34)]

/-- What may follow the opening quote: characters, two-letter escapes, `\xHH` and `\OOO` for bytes, `\uHHHH` and `\UHHHHHHHH` for characters,
and at the very end the closing quote.  No newline.  Bytes that are not UTF-8 count as U+FFFD. -/
inductive GoBody : Str → Str → Prop
  | stop : GoBody [34] []
  | char {n : Nat} {t m : Str} : Scalar n → n ≠ 10 → n ≠ 34 → n ≠ 92 → GoBody t m → GoBody (utf8 n ++ t) (utf8 n ++ m)
  | stray {b : UInt8} {t m : Str} : (∀ n x, Scalar n → b :: t ≠ utf8 n ++ x) → GoBody t m → GoBody (b :: t) (utf8 0xFFFD ++ m)
  | letter {l v : UInt8} {t m : Str} : (l, v) ∈ goLetters → GoBody t m → GoBody (92 :: l :: t) (v :: m)
  | hex2 {ds : Str} {v : Nat} {t m : Str} : ds.length = 2 → Numeral hexOf 16 ds v → GoBody t m →
      GoBody (92 :: 120 :: (ds ++ t)) (UInt8.ofNat v :: m)
  | oct3 {ds : Str} {v : Nat} {t m : Str} : ds.length = 3 → Numeral octOf 8 ds v → v < 256 → GoBody t m →
      GoBody (92 :: (ds ++ t)) (UInt8.ofNat v :: m)
  | hex4 {ds : Str} {v : Nat} {t m : Str} : ds.length = 4 → Numeral hexOf 16 ds v → Scalar v → GoBody t m →
      GoBody (92 :: 117 :: (ds ++ t)) (utf8 v ++ m)
  | hex8 {ds : Str} {v : Nat} {t m : Str} : ds.length = 8 → Numeral hexOf 16 ds v → Scalar v → GoBody t m →
      GoBody (92 :: 85 :: (ds ++ t)) (utf8 v ++ m)

/-- `s` is an interpreted string literal of Go that means `m`. -/
def GoString (s m : Str) : Prop := ∃ t, s = 34 :: t ∧ GoBody t m

end Oapi.Spec.PtrJson
