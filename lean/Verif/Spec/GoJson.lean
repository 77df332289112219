import Verif.Spec.TypeSchema
import Verif.Spec.TagText

/-! The names package `encoding/json` gives to the fields of a struct, as its documentation says (for names of ASCII letters, digits and signs). -/
namespace Oapi.Spec.GoJson
open Types TagText

/-- The `json` value of the tag of a field: the first one, and nothing if there is none. -/
def JsonValue (f : FieldInfo) (v : Str) : Prop := ∃ ps, Raw ps f.tag ∧ v = (ps.lookup b!"json").getD []

/-- `json:"-"`. -/
def Hidden (f : FieldInfo) : Prop := JsonValue f b!"-"

/-- A letter, a digit, or one of the signs that are allowed. -/
def nameByte (c : UInt8) : Prop :=
  (48 ≤ c ∧ c ≤ 57) ∨ (65 ≤ c ∧ c ≤ 90) ∨ (97 ≤ c ∧ c ≤ 122) ∨ c ∈ b!"!#$%&()*+-./:;<=>?@[]^_{|}~ "

def ValidName (n : Str) : Prop := n ≠ [] ∧ ∀ c ∈ n, nameByte c

/-- The tag names the field: what stands before the first comma of the value. -/
def Explicit (f : FieldInfo) (n : Str) : Prop := ∃ v, JsonValue f v ∧ n = v.takeWhile (· ≠ 44) ∧ ValidName n

def Unnamed (f : FieldInfo) : Prop := ¬ ∃ n, Explicit f n

/-- The name of the field: that of the tag, else its own. -/
def KeyOf (f : FieldInfo) (k : Str) : Prop := Explicit f k ∨ (Unnamed f ∧ k = f.name)

/-- The fields of `st` are promoted: an embedded struct (or a pointer to one) that is neither hidden nor named. -/
def Promotes (env : Env) (f : FieldInfo) (t : GoType) (st : List (FieldInfo × GoType)) : Prop :=
  f.embedded = true ∧ ¬ Hidden f ∧ Unnamed f ∧ IsStruct env t st

/-- `st` is reached from `fs` by embedding, through fields with these names. -/
inductive Embedded (env : Env) (fs : List (FieldInfo × GoType)) : List Str → List (FieldInfo × GoType) → Prop
  | here : Embedded env fs [] fs
  | inside {p s f t st} : Embedded env fs p s → (f, t) ∈ s → Promotes env f t st → Embedded env fs (p ++ [f.name]) st

/-- A field that is itself in the object: exported, or an embedded struct; not hidden, and its own fields are not promoted instead. -/
def Counts (env : Env) (f : FieldInfo) (t : GoType) : Prop :=
  (f.exported = true ∨ (f.embedded = true ∧ ∃ st, IsStruct env t st)) ∧ ¬ Hidden f ∧ ¬ ∃ st, Promotes env f t st

/-- A field of `fs`, or one promoted to it through the fields `p`, has the name `k`. -/
def Candidate (env : Env) (fs : List (FieldInfo × GoType)) (k : Str) (p : List Str) (f : FieldInfo) : Prop :=
  ∃ st t, Embedded env fs p st ∧ (f, t) ∈ st ∧ Counts env f t ∧ KeyOf f k

/-- The less nested of two fields of the same name wins; of equally nested ones a field that is named by its tag. -/
def Beats (p : List Str) (f : FieldInfo) (q : List Str) (g : FieldInfo) : Prop :=
  p.length < q.length ∨ (p.length = q.length ∧ (∃ n, Explicit f n) ∧ Unnamed g)

/-- The object has a member `k`: there is one field with this name that wins against all others. -/
def JsonName (env : Env) (fs : List (FieldInfo × GoType)) (k : Str) : Prop :=
  ∃ p f, Candidate env fs k p f ∧ ∀ q g, Candidate env fs k q g → (q, g) ≠ (p, f) → Beats p f q g

/-- A field without surprises: no `oapi` tag; the `json` value, if any, is a name (which may be missing) and options, none of them `inline`; nothing follows a
dash; an embedded struct is hidden, or it is exported and has no name in its tag. -/
def Plain (env : Env) (f : FieldInfo) (t : GoType) : Prop :=
  (∃ ps, Raw ps f.tag ∧ ps.lookup b!"oapi" = none ∧
    ∀ v, ps.lookup b!"json" = some v → ∃ n os, Value n os v ∧ n = v.takeWhile (· ≠ 44) ∧ (n = [] ∨ ValidName n) ∧ os.lookup b!"inline" = none ∧ (n = b!"-" → v = b!"-")) ∧
  (f.embedded = true → (∃ st, IsStruct env t st) → Hidden f ∨ (f.exported = true ∧ Unnamed f))

/-- All fields of `fs` and of the structs embedded in it are plain. -/
def AllPlain (env : Env) (fs : List (FieldInfo × GoType)) : Prop := ∀ p st, Embedded env fs p st → ∀ e ∈ st, Plain env e.1 e.2

end Oapi.Spec.GoJson
