import Verif.Model.Pointer
import Verif.Spec.Doc

/-! Specification vocabulary for pointers (C06–C09). -/
namespace Oapi.Spec

/-- Characters of Go import paths: letters, digits, '-', '.', '_', '~', '+' and '/'. -/
def ImportByte (c : UInt8) : Prop :=
  (97 ≤ c ∧ c ≤ 122) ∨ (65 ≤ c ∧ c ≤ 90) ∨ (48 ≤ c ∧ c ≤ 57) ∨ c ∈ b!"-._~+/"

/-- The characters of URLs before '#' (RFC 3986): unreserved, sub-delimiters, : / ? @ [ ] and the percent sign of
percent-encoded bytes. -/
def UriByte (c : UInt8) : Prop :=
  (97 ≤ c ∧ c ≤ 122) ∨ (65 ≤ c ∧ c ≤ 90) ∨ (48 ≤ c ∧ c ≤ 57) ∨ c ∈ b!"-._~!$&'()*+,;=:@/?[]%"

/-- A reference string `raw` or `raw#frag` whose part before '#' is made of such characters. -/
def PlainRef (x : Str) : Prop := ∃ raw f, (∀ c ∈ raw, UriByte c) ∧ (x = raw ∨ x = raw ++ 35 :: f)

/-- Two pointers denote the same thing: same URL (without the spelling of the fragment) and same fragment tokens. -/
def SameTarget (p q : Pointer) : Prop :=
  p.url.scheme = q.url.scheme ∧ p.url.opaque_ = q.url.opaque_ ∧ p.url.user = q.url.user ∧ p.url.host = q.url.host ∧ p.url.path = q.url.path ∧
  p.url.forceQuery = q.url.forceQuery ∧ p.url.rawQuery = q.url.rawQuery ∧ p.fragment = q.fragment

/-- Characters that stand for themselves in user information: unreserved, sub-delimiters, ':' and '@'. -/
def UserByte (c : UInt8) : Prop :=
  (97 ≤ c ∧ c ≤ 122) ∨ (65 ≤ c ∧ c ≤ 90) ∨ (48 ≤ c ∧ c ≤ 57) ∨ c ∈ b!"-._~!$&'()*+,;=:@"

/-- `host` ends with a port: a colon and digits. -/
def HasPort (host core digits : Str) : Prop := host = core ++ b!":" ++ digits ∧ ∀ c ∈ digits, 48 ≤ c ∧ c ≤ 57

/-- `n` is the name of a host given with or without a port, and with or without brackets around it. -/
def HostName (host n : Str) : Prop :=
  ∃ core, ((∃ ds, HasPort host core ds) ∨ core = host ∧ ¬ ∃ c ds, HasPort host c ds) ∧
    (core = b!"[" ++ n ++ b!"]" ∨ n = core ∧ ¬ ∃ m, core = b!"[" ++ m ++ b!"]")

end Oapi.Spec

namespace Oapi.Spec

/-- The key under which references are stored. -/
def refKey : Str := b!"$ref"

mutual
/-- The document with every string stored under a "$ref" key, at any depth, mapped through `f`; all else unchanged. -/
def mapRefs (f : Str → Str) (j : Json) : Json :=
  match j with
  | .obj m => .obj (mapRefsO f m)
  | .arr xs => .arr (mapRefsA f xs)
  | j => j
termination_by structural j
def mapRefsO (f : Str → Str) (m : List (Str × Json)) : List (Str × Json) :=
  match m with
  | [] => []
  | (k, .str s) :: t => (k, .str (if k = refKey then f s else s)) :: mapRefsO f t
  | (k, v) :: t => (k, mapRefs f v) :: mapRefsO f t
termination_by structural m
def mapRefsA (f : Str → Str) (xs : List Json) : List Json :=
  match xs with
  | [] => []
  | x :: t => mapRefs f x :: mapRefsA f t
termination_by structural xs
end

/-- `s` is the target text of some reference in the document. -/
def HasRef (j : Json) (s : Str) : Prop := ∃ L, getAt j (L ++ [.key refKey]) = some (.str s)

/-- The references whose text satisfies `P` can be addressed by dot paths: the keys on the way to them are dot-safe, and nothing else in the
document has the same printed path; and no string is stored under a key that ends in ".$ref" (it would be taken for a reference).
Other keys may contain anything. -/
structure Routed (P : Str → Prop) (j : Json) : Prop where
  way : ∀ L x, getAt j (L ++ [.key refKey]) = some (.str x) → P x → ∀ k, .key k ∈ L → DotSafe k
  lone : ∀ L x, getAt j (L ++ [.key refKey]) = some (.str x) → P x → Lone j (L ++ [.key refKey])
  plain : ∀ L a x, getAt j (L ++ [.key (a ++ 46 :: refKey)]) ≠ some (.str x)

end Oapi.Spec
