import Verif.Spec.Types

/-! Specification vocabulary for the conversion of types to schemas (C38–C43).  Tags come from a function `tagOf`. -/
namespace Oapi.Spec
open Types

variable {F : Type}

/-- `t` is a struct, or a pointer to one (defined types looked through). -/
def IsStruct (env : Env) (t : GoType) (st : List (FieldInfo × GoType)) : Prop :=
  under env t = .struct st ∨ ∃ e, under env t = .pointer e ∧ under env e = .struct st

/-- Field `f : t` of `fs` counts: it is exported and its tag `tx` can be parsed and does not hide it. -/
def Shown (tagOf : Str → Res (TagP.Tag F)) (fs : List (FieldInfo × GoType)) (f : FieldInfo) (t : GoType) (tx : TagP.Tag F) : Prop :=
  (f, t) ∈ fs ∧ f.exported = true ∧ tagOf f.tag = .ok tx ∧ tx.ignore = false

/-- Whether the fields of a struct-typed field are to stand in place of the field: the `inline` option says so, and without
one they are if the field is embedded. -/
def WantsInline (f : FieldInfo) (tx : TagP.Tag F) : Prop := tx.inline = some true ∨ (tx.inline = none ∧ f.embedded = true)

/-- Struct `st` is inlined into struct `fs`. -/
def InlinedInto (env : Env) (tagOf : Str → Res (TagP.Tag F)) (fs st : List (FieldInfo × GoType)) : Prop :=
  ∃ f t tx, Shown tagOf fs f t tx ∧ WantsInline f tx ∧ IsStruct env t st

/-- `st` is `fs` or inlined into it at any depth. -/
inductive InlineReach (env : Env) (tagOf : Str → Res (TagP.Tag F)) (fs : List (FieldInfo × GoType)) :
    List (FieldInfo × GoType) → Prop
  | refl : InlineReach env tagOf fs fs
  | step {s st} : InlineReach env tagOf fs s → InlinedInto env tagOf s st → InlineReach env tagOf fs st

/-- A field of `fs` itself that is shown and not replaced by the fields of its struct. -/
def OwnField (env : Env) (tagOf : Str → Res (TagP.Tag F)) (fs : List (FieldInfo × GoType)) (x : StructField F) : Prop :=
  Shown tagOf fs x.field x.typ x.tag ∧ ¬ (WantsInline x.field x.tag ∧ ∃ st, IsStruct env x.typ st)

/-- The visible fields of `fs`: its own and those of the structs inlined into it. -/
def VisibleField (env : Env) (tagOf : Str → Res (TagP.Tag F)) (fs : List (FieldInfo × GoType)) (x : StructField F) : Prop :=
  ∃ st, InlineReach env tagOf fs st ∧ OwnField env tagOf st x

/-- The name of the property of a field: from the tag, else the name of the field. -/
def propName (x : StructField F) : Str := if x.tag.name = [] then x.field.name else x.tag.name

/-- Some tag, on any field of the struct or of a struct inlined into it, cannot be parsed. -/
def BadTag (env : Env) (tagOf : Str → Res (TagP.Tag F)) (fs : List (FieldInfo × GoType)) : Prop :=
  ∃ st, InlineReach env tagOf fs st ∧ ∃ e ∈ st, ∃ err, tagOf e.1.tag = .err err

/-- The basic kinds that have a schema. -/
def supportedKinds : List Kind :=
  [.bool, .int, .int8, .int16, .int32, .int64, .uint, .uint8, .uint16, .uint32, .uint64, .float32, .float64, .string]

/-- Going through pointers and elements of slices, arrays and maps one arrives at something that has no schema: a channel, an
interface or function, or an unsupported basic kind. -/
inductive Unsupported (env : Env) : GoType → Prop
  | basic {t k} : under env t = .basic k → k ∉ supportedKinds → Unsupported env t
  | chan {t d e} : under env t = .chan d e → Unsupported env t
  | other {t n} : under env t = .other n → Unsupported env t
  | pointer {t e} : under env t = .pointer e → Unsupported env e → Unsupported env t
  | slice {t e} : under env t = .slice e → Unsupported env e → Unsupported env t
  | array {t n e} : under env t = .array n e → Unsupported env e → Unsupported env t
  | map {t k e} : under env t = .map k e → Unsupported env e → Unsupported env t

/-- The names a `type` option may give. -/
def typeWords : List Str :=
  [b!"string", b!"float32", b!"float", b!"float64", b!"double", b!"uint", b!"uint8", b!"uint16", b!"uint32", b!"uint64",
   b!"int", b!"int8", b!"int16", b!"int32", b!"integer", b!"int64", b!"bool", b!"base64", b!"uuid", b!"password",
   b!"number", b!"object"]

/-- `s` is `w` with any number of spaces before and after. -/
def Padded (w s : Str) : Prop := ∃ a b, s = List.replicate a 32 ++ w ++ List.replicate b 32

/-- The `type` option is given and names none of these. -/
def BadTypeWord (x : StructField F) : Prop := x.tag.type ≠ [] ∧ ¬ ∃ w ∈ typeWords, Padded w x.tag.type

/-- A struct cannot be converted: a tag cannot be parsed, or a visible field has an unknown `type` option, or none and an
unsupported type. -/
def StructFails (env : Env) (tagOf : Str → Res (TagP.Tag F)) (fs : List (FieldInfo × GoType)) : Prop :=
  BadTag env tagOf fs ∨
  ∃ x, VisibleField env tagOf fs x ∧ (BadTypeWord x ∨ (x.tag.type = [] ∧ Unsupported env x.typ))

/-- A type cannot be converted. -/
def TypeFails (env : Env) (tagOf : Str → Res (TagP.Tag F)) (t : GoType) : Prop :=
  Unsupported env t ∨ ∃ fs, under env t = .struct fs ∧ StructFails env tagOf fs

/-- What sorting the points does: the same points, shorter fragments first. -/
def SortsPoints (srt : List Pointer → List Pointer) : Prop :=
  ∀ l, (srt l).Perm l ∧ (srt l).Pairwise fun a b => a.fragment.length ≤ b.fragment.length

/-- Every type reached from `t` has a point. -/
def ReachRegistered (env : Env) (m : PMap) (t : GoType) : Prop := ∀ v, TReach env (under env t) v → m.at v ≠ []

end Oapi.Spec

namespace Oapi.Spec
open Types

variable {F : Type}

/-- `p` is registered for `u`, and no registered pointer for `u` has fewer tokens; looking `p` up gives `u`. -/
def BestPoint (m : PMap) (u : GoType) (p : Pointer) : Prop :=
  p ∈ m.at u ∧ (∀ q ∈ m.at u, p.fragment.length ≤ q.fragment.length) ∧ m.findType p = some u

/-- Type and format of the basic kinds. -/
def kindTable : List (Kind × Str × Str) :=
  [(.bool, b!"boolean", b!""), (.string, b!"string", b!""),
   (.float32, b!"number", b!"float"), (.float64, b!"number", b!"double"),
   (.int, b!"integer", b!"int32"), (.int8, b!"integer", b!"int32"), (.int16, b!"integer", b!"int32"),
   (.int32, b!"integer", b!"int32"), (.int64, b!"integer", b!"int64"),
   (.uint, b!"integer", b!"int32"), (.uint8, b!"integer", b!"int32"), (.uint16, b!"integer", b!"int32"),
   (.uint32, b!"integer", b!"int32"), (.uint64, b!"integer", b!"int64")]

def unsignedKinds : List Kind := [.uint, .uint8, .uint16, .uint32, .uint64]

/-- The schema of a basic kind under a tag: bounds and multiples for numbers, an exclusive bound before an inclusive one, and
zero as lower bound of unsigned numbers if the tag gives none; lengths and pattern for strings; nothing for booleans. -/
def basicSpec (zero : F) (tg : TagP.Tag F) (k : Kind) : Option (Schema F) :=
  match kindTable.lookup k with
  | none => none
  | some (ty, fmt) =>
    if ty = b!"string" then
      some (.plain { type := ty, format := fmt, maxLength := tg.maxLen, minLength := tg.minLen, pattern := tg.pattern })
    else if ty = b!"boolean" then some (.plain { type := ty, format := fmt })
    else some (.plain { type := ty, format := fmt,
                        minimum := (tg.emin.or tg.min).or (if k ∈ unsignedKinds then some zero else none),
                        exclusiveMinimum := tg.emin.isSome,
                        maximum := tg.emax.or tg.max, exclusiveMaximum := tg.emax.isSome,
                        multipleOf := tg.mulOf })

/-- The kinds the words of a `type` option stand for, with the format that replaces that of the kind. -/
def wordTable : List (Str × Kind × Option Str) :=
  [(b!"string", .string, none), (b!"float32", .float32, none), (b!"float", .float32, none), (b!"float64", .float64, none),
   (b!"double", .float64, none), (b!"uint", .uint, none), (b!"uint8", .uint8, none), (b!"uint16", .uint16, none),
   (b!"uint32", .uint32, none), (b!"uint64", .uint64, none), (b!"int", .int, none), (b!"int8", .int8, none),
   (b!"int16", .int16, none), (b!"int32", .int32, none), (b!"integer", .int32, none), (b!"int64", .int64, none),
   (b!"bool", .bool, none), (b!"base64", .string, some b!"binary"), (b!"uuid", .string, some b!"uuid"),
   (b!"password", .string, some b!"password")]

/-- The schema for a word of a `type` option: `number` and `object` are bare. -/
def wordSpec (zero : F) (tg : TagP.Tag F) (w : Str) : Option (Schema F) :=
  if w = b!"number" ∨ w = b!"object" then some (.plain { type := w })
  else match wordTable.lookup w with
    | none => none
    | some (k, none) => basicSpec zero tg k
    | some (k, some fmt) => (basicSpec zero tg k).map fun s => s.withAttrs fun a => { a with format := fmt }

/-- `s` describes type `t` under a tag; `seen` are the types passed on the way through pointers and elements.  Structs, and types
met again on the way (as in `type T []T`), are described by reference to a shortest point that is registered for them, or by what the
table `std` has for that point; all other types by what they are made of. -/
inductive TypeDescribes (env : Env) (m : PMap) (std : Str → Option (Schema F)) (zero : F) (tg : TagP.Tag F) :
    List GoType → GoType → Schema F → Prop
  | ref {seen t p} : (∃ fs, under env t = .struct fs) ∨ under env t ∈ seen → BestPoint m (under env t) p → std p.toStr = none →
      TypeDescribes env m std zero tg seen t (.mk (some p) {} none none [] [])
  | std {seen t p s} : (∃ fs, under env t = .struct fs) ∨ under env t ∈ seen → BestPoint m (under env t) p → std p.toStr = some s →
      TypeDescribes env m std zero tg seen t s
  | basic {seen t k s} : under env t ∉ seen → under env t = .basic k → basicSpec zero tg k = some s →
      TypeDescribes env m std zero tg seen t s
  | slice {seen t e s} : under env t ∉ seen → under env t = .slice e → TypeDescribes env m std zero tg (seen ++ [.slice e]) e s →
      TypeDescribes env m std zero tg seen t (.mk none
        { type := b!"array", nullable := tg.nullable.getD true, minItems := tg.minItems, maxItems := tg.maxItems,
          uniqueItems := tg.uniqItems } (some s) none [] [])
  | array {seen t n e s} : under env t ∉ seen → under env t = .array n e →
      TypeDescribes env m std zero tg (seen ++ [.array n e]) e s →
      TypeDescribes env m std zero tg seen t (.mk none
        { type := b!"array", nullable := tg.nullable.getD false, minItems := tg.minItems,
          maxItems := if 0 < n then some n else tg.maxItems, uniqueItems := tg.uniqItems } (some s) none [] [])
  | map {seen t k e s} : under env t ∉ seen → under env t = .map k e → TypeDescribes env m std zero tg (seen ++ [.map k e]) e s →
      TypeDescribes env m std zero tg seen t (.mk none
        { type := b!"object", nullable := tg.nullable.getD true, minProperties := tg.minProps, maxProperties := tg.maxProps }
        none (some s) [] [])
  | pointer {seen t e s} : under env t ∉ seen → under env t = .pointer e →
      TypeDescribes env m std zero tg (seen ++ [.pointer e]) e s → s.ref = none →
      TypeDescribes env m std zero tg seen t (s.withAttrs fun a => { a with nullable := tg.nullable.getD true })
  | pointerRef {seen t e s} : under env t ∉ seen → under env t = .pointer e →
      TypeDescribes env m std zero tg (seen ++ [.pointer e]) e s → s.ref ≠ none → tg.nullable = some false →
      TypeDescribes env m std zero tg seen t (s.withAttrs fun a => { a with nullable := false })
  | pointerOne {seen t e s} : under env t ∉ seen → under env t = .pointer e →
      TypeDescribes env m std zero tg (seen ++ [.pointer e]) e s → s.ref ≠ none → tg.nullable ≠ some false →
      TypeDescribes env m std zero tg seen t (.mk none {} none none
        [s.withAttrs fun a => { a with nullable := false }, .plain { type := b!"object", nullable := true }] [])

/-- `s` describes the field before its flags are added: by the word of its `type` option, else by its type. -/
def FieldDescribes (env : Env) (m : PMap) (std : Str → Option (Schema F)) (zero : F) (x : StructField F)
    (s : Schema F) : Prop :=
  if x.tag.type = [] then TypeDescribes env m std zero x.tag [] x.typ s
  else ∃ w, Padded w x.tag.type ∧ wordSpec zero x.tag w = some s

/-- What the tag adds to the schema of a field that is not a reference: the flags and the format of the tag, and its
nullability if it says something about it. -/
def withFlags (x : StructField F) (s : Schema F) : Schema F :=
  if s.ref = none then s.withAttrs fun a =>
    { a with deprecated := x.tag.deprecated, readOnly := x.tag.readOnly, writeOnly := x.tag.writeOnly, format := x.tag.format,
             nullable := x.tag.nullable.getD a.nullable }
  else s

/-- `s` describes the struct `fs`, field by field: `fields` lists the visible fields with their schemas; of fields with the same
property name the last one counts; the required names are those of the required fields that are not references. -/
def StructDescribes (env : Env) (tagOf : Str → Res (TagP.Tag F)) (m : PMap) (std : Str → Option (Schema F))
    (zero : F) (fs : List (FieldInfo × GoType)) (fields : List (StructField F × Schema F)) (s : Schema F) : Prop :=
  (∀ x, VisibleField env tagOf fs x ↔ ∃ sc, (x, sc) ∈ fields) ∧
  (∀ e ∈ fields, FieldDescribes env m std zero e.1 e.2) ∧
  s.ref = none ∧ s.items = none ∧ s.additional = none ∧ s.oneOf = [] ∧
  s.attrs = { type := b!"object", required := (fields.filter fun e => e.1.tag.required && decide (e.2.ref = none)).map fun e => propName e.1 } ∧
  (s.properties.map Prod.fst).Nodup ∧
  ∀ k, s.properties.lookup k = (fields.reverse.find? fun e => decide (propName e.1 = k)).map fun e => withFlags e.1 e.2

end Oapi.Spec

namespace Oapi.Spec
open Types

variable {F : Type}

/-- A finished scan and a conversion that uses it: `runs` are the scanned packages with the pointers looked up in them, the map
of points is met in any order (`cx.m` is a permutation of what the scan built), sorting is by length, tags are parsed as in
package tag with any third-party parsers. -/
structure Converts (pr : Prog) (runs : List (Str × List Pointer)) (cx : Ctx F) : Prop where
  prog : ProgOK pr
  env : cx.env = pr.env
  scanned : ∃ m, scanPkgs pr runs [] = .ok m ∧ cx.m.Perm m
  sorts : ∀ i, SortsPoints (cx.srt i)
  tags : ∃ lib pf, cx.tagOf = TagP.parse lib pf

/-- Some schema inside `s` is a reference with pointer `p`. -/
inductive RefIn : Schema F → Pointer → Prop
  | here {s p} : s.ref = some p → RefIn s p
  | items {s s' p} : s.items = some s' → RefIn s' p → RefIn s p
  | additional {s s' p} : s.additional = some s' → RefIn s' p → RefIn s p
  | oneOf {s s' p} : s' ∈ s.oneOf → RefIn s' p → RefIn s p
  | property {s s' k p} : (k, s') ∈ s.properties → RefIn s' p → RefIn s p

end Oapi.Spec
