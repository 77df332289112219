import Verif.Spec.GoString

/- How struct tags are written: `key:"value" key:"value"`, and within a value `name,flag,key:value,key:'quoted value'`. -/
namespace Oapi.Spec.TagText
open Spec.PtrJson (GoString)

/-- A key: no blank, control character, colon, quote or DEL. -/
def KeyText (k : Str) : Prop := k ≠ [] ∧ ∀ c ∈ k, 32 < c ∧ c ≠ 58 ∧ c ≠ 34 ∧ c ≠ 127

/-- `s` is a raw tag with these keys and values, in this order: each `key:"value"` with the value as a Go string, blanks in front of them and at the end. -/
inductive Raw : List (Str × Str) → Str → Prop
  | nil (n : Nat) : Raw [] (List.replicate n 32)
  | cons {n : Nat} {k q v t : Str} {ps : List (Str × Str)} : KeyText k → GoString q v → Raw ps t → Raw ((k, v) :: ps) (List.replicate n 32 ++ k ++ 58 :: q ++ t)

/-- No white space at the ends. -/
def Trimmed (s : Str) : Prop := ∀ c ∈ [32, 9, 10, 11, 12, 13], s.head? ≠ some c ∧ s.getLast? ≠ some c

/-- A name or the key of an option: no comma, colon or apostrophe. -/
def Word (s : Str) : Prop := Trimmed s ∧ ∀ c ∈ s, c ≠ 44 ∧ c ≠ 58 ∧ c ≠ 39

/-- What stands between brackets, and what it means. -/
inductive Inside : Str → Str → Prop
  | nil : Inside [] []
  | char {c : UInt8} {t m : Str} : c ≠ 40 → c ≠ 41 → c ≠ 92 → Inside t m → Inside (c :: t) (c :: m)
  | esc {c : UInt8} {t m : Str} : Inside t m → Inside (92 :: c :: t) (c :: m)
  | nest {g n t m : Str} : Inside g n → Inside t m → Inside (40 :: (g ++ 41 :: t)) (40 :: (n ++ 41 :: m))

/-- A value without quotes, and what it means: a comma may stand between brackets or behind a backslash. -/
inductive Bare : Str → Str → Prop
  | nil : Bare [] []
  | char {c : UInt8} {t m : Str} : c ≠ 40 → c ≠ 44 → c ≠ 92 → Bare t m → Bare (c :: t) (c :: m)
  | esc {c : UInt8} {t m : Str} : Bare t m → Bare (92 :: c :: t) (c :: m)
  | nest {g n t m : Str} : Inside g n → Bare t m → Bare (40 :: (g ++ 41 :: t)) (40 :: (n ++ 41 :: m))

/-- A value between apostrophes, and what it means: only an apostrophe needs a backslash. -/
inductive Quoted : Str → Str → Prop
  | nil : Quoted [] []
  | char {c : UInt8} {t m : Str} : c ≠ 39 → c ≠ 92 → Quoted t m → Quoted (c :: t) (c :: m)
  | quote {t m : Str} : Quoted t m → Quoted (92 :: 39 :: t) (39 :: m)
  | slash {c : UInt8} {t m : Str} : c ≠ 39 → c ≠ 92 → Quoted t m → Quoted (92 :: c :: t) (92 :: c :: m)

/-- How an option with a value is written. -/
inductive Assigned : Str × Str → Str → Prop
  | bare {k t v : Str} : Word k → k ≠ [] → Bare t v → t.head? ≠ some 39 → Trimmed v → Assigned (k, v) (k ++ 58 :: t)
  | quoted {k t v : Str} : Word k → k ≠ [] → Quoted t v → Trimmed v → Assigned (k, v) (k ++ 58 :: 39 :: (t ++ [39]))

/-- A text between apostrophes without a key; a word in front of it counts for nothing. -/
inductive Alone : Str → Str → Prop
  | mk {p t v : Str} : Word p → Quoted t v → Trimmed v → Alone v (p ++ 39 :: (t ++ [39]))

/-- How one option is written. -/
inductive Option_ : Str × Str → Str → Prop
  | flag {k : Str} : Word k → k ≠ [] → Option_ (k, []) k
  | alone {k t : Str} : Alone k t → Option_ (k, []) t
  | assigned {o : Str × Str} {t : Str} : Assigned o t → Option_ o t

/-- Options, each with a comma in front of it, behind which may stand a blank; a comma may stand at the end. -/
inductive Options : List (Str × Str) → Str → Prop
  | nil : Options [] []
  | comma : Options [] [44]
  | cons {o : Str × Str} {os : List (Str × Str)} {t r : Str} : Option_ o t → Options os r → Options (o :: os) (44 :: (t ++ r))
  | blank {o : Str × Str} {os : List (Str × Str)} {t r : Str} : Option_ o t → Options os r → Options (o :: os) (44 :: 32 :: (t ++ r))

/-- `s` is a value with this name and these options, in this order.  The name may be empty; if there is no name, an option with a value may come first, without
a comma in front of it. -/
inductive Value : Str → List (Str × Str) → Str → Prop
  | named {n r : Str} {os : List (Str × Str)} : Word n → Options os r → Value n os (n ++ r)
  | alone {n t r : Str} {os : List (Str × Str)} : Alone n t → Options os r → Value n os (t ++ r)
  | nameless {o : Str × Str} {t r : Str} {os : List (Str × Str)} : Assigned o t → t.getLast? ≠ some 44 → Options os r → Value [] (o :: os) (t ++ r)

end Oapi.Spec.TagText
