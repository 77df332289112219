import Verif.Model.Types
import Verif.Spec.Pointer

/-! Specification vocabulary for the type scanner (C36–C43). -/
namespace Oapi.Spec
open Types

/-- Names that can be Go identifiers: not empty and without '/', '~' and '%'. -/
def GoIdent (n : Str) : Prop := n ≠ [] ∧ (47 : UInt8) ∉ n ∧ (126 : UInt8) ∉ n ∧ (37 : UInt8) ∉ n

/-- Import paths: not empty, letters, digits and "-._~+/". -/
def GoPkg (p : Str) : Prop := p ≠ [] ∧ ∀ c ∈ p, ImportByte c

/-- One step into a type: the type of an exported field by its name, what a pointer points to by `*`, the elements of a
slice, array, map or channel by `[]`. -/
def stepInto (u : GoType) (tok : Str) : Option GoType :=
  match u with
  | .struct fs => (fs.find? fun e => e.1.exported && decide (e.1.name = tok)).map Prod.snd
  | .pointer e => if tok = b!"*" then some e else none
  | .slice e | .array _ e | .map _ e | .chan _ e => if tok = b!"[]" then some e else none
  | _ => none

/-- Following tokens from a type; defined types are looked through at every step. -/
def follow (env : Env) (t : GoType) : List Str → Option GoType
  | [] => some t
  | tok :: toks => match stepInto (under env t) tok with
    | none => none
    | some c => follow env c toks

/-- What `go://pkg#/Name/tok/…` denotes: the type of the object `Name` of the package, then the steps. -/
def denotesGo (pr : Prog) (pkg : Str) : Fragment → Option GoType
  | [] => none
  | name :: toks => match pr.scope pkg name with
    | none => none
    | some t => follow pr.env t toks

/-- The text of a Go pointer: `go://pkg#/Name/tok/…`. -/
def goText (pkg : Str) (f : Fragment) : Str := b!"go://" ++ pkg ++ b!"#" ++ f.flatMap fun t => b!"/" ++ t

/-- `c` is the type of an exported field of `u`, or its elements' type. -/
def Child (u c : GoType) : Prop := ∃ tok, stepInto u tok = some c

/-- `v` is reached from `u` through exported fields, elements and pointers (defined types looked through). -/
inductive TReach (env : Env) (u : GoType) : GoType → Prop
  | refl : TReach env u u
  | step {v c} : TReach env u v → Child v c → TReach env u (under env c)

/-- A struct as Go has it: exported fields have identifiers for names, and no two the same. -/
def StructOK (fs : List (FieldInfo × GoType)) : Prop :=
  (∀ e ∈ fs, e.1.exported = true → GoIdent e.1.name) ∧
  (fs.filter fun e => e.1.exported).Pairwise fun a b => a.1.name ≠ b.1.name

/-- All structs written in a type are such, and the defined types in it exist. -/
def TypeOK (env : Env) (t : GoType) : Prop :=
  (∀ fs, .struct fs ∈ parts t → StructOK fs) ∧ ∀ n, .named n ∈ parts t → n < env.length

/-- A program as the Go type checker leaves it: import paths and names are well-formed; a defined type other than the
predeclared `error` is the object of that name in its package (no types declared inside functions); underlying types are not
defined types. -/
structure ProgOK (pr : Prog) : Prop where
  objects : ∀ pkg name t, pr.scope pkg name = some t → GoPkg pkg ∧ GoIdent name ∧ TypeOK pr.env t
  defs : ∀ (n : Nat) d, pr.env[n]? = some d → TypeOK pr.env d.under ∧ (∀ k, d.under ≠ .named k) ∧
    ∀ pkg, d.pkg = some pkg → pr.scope pkg d.name = some (.named n)

/-- The predeclared type `error` (a defined type without package) is met on the way from `u`. -/
def MeetsError (env : Env) (u : GoType) : Prop :=
  ∃ v n d, TReach env u v ∧ Child v (.named n) ∧ env[n]? = some d ∧ d.pkg = none

end Oapi.Spec

namespace Oapi.Spec
open Types

/-- The types (defined types looked through) that following the tokens passes through before it arrives. -/
def passes (env : Env) (t : GoType) : List Str → List GoType
  | [] => []
  | tok :: toks => under env t :: match stepInto (under env t) tok with
    | none => []
    | some c => passes env c toks

end Oapi.Spec

namespace Oapi.Spec
open Types

/-- One of the scanned packages declares an object that a pointer of the scan asks for: `go://pkg#/name…`, of type `t`. -/
def Requested (pr : Prog) (runs : List (Str × List Pointer)) (pkg name : Str) (t : GoType) : Prop :=
  ∃ ptrs, (pkg, ptrs) ∈ runs ∧ ∃ ptr ∈ ptrs, ptr.url.scheme = b!"go" ∧ ptr.pkgPath = pkg ∧ ptr.fragment.head? = some name ∧
    pr.scope pkg name = some t

end Oapi.Spec
