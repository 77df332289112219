import Verif.Spec.Scan

/-! What a scan puts in place of references (C73). -/
namespace Oapi.Spec
open Types Scan

variable {F : Type}

/-- `s` is a schema of the collected type `u`: field by field for a struct, else by what the type is made of. -/
def SchemaOf (inp : Input F) (m : PMap) (u : GoType) (s : Schema F) : Prop :=
  (∃ fs fields, u = .struct fs ∧ StructDescribes inp.prog.env inp.tagOf m inp.std inp.zero fs fields s) ∨
  ((∀ fs, u ≠ .struct fs) ∧ TypeDescribes inp.prog.env m inp.std inp.zero {} [] u s)

/-- Document `d` stands for the pointer `p`: it is the override of that text, or, if there is none and the pointer is a Go pointer, the
schema of the type it is registered for. -/
def Stands (inp : Input F) (m : PMap) (p : Pointer) (d : Json) : Prop :=
  inp.override.lookup p.toStr = some d ∨
  ((∀ d', (p.toStr, d') ∉ inp.override) ∧ p.url.scheme = b!"go" ∧
    ∃ u s, m.findType p = some u ∧ SchemaOf inp m u s ∧ d = schemaJson inp.enc s)

end Oapi.Spec
