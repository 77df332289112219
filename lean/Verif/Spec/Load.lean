import Verif.Spec.SpecJson
import Verif.Model.Main

/- Specification of C91 and C92: what a configuration document says. -/
namespace Oapi.Spec.Load
open SpecJson

/-- The settings that are texts. -/
def textSettings : List Str := [b!"extends", b!"version", b!"openapi", b!"format", b!"dir", b!"output"]

/-- The settings that are sections of the root document. -/
def sections : List (Str × Kind) := [(b!"info", .sec .info), (b!"servers", .list (.sec .server)), (b!"components", .sec .components),
  (b!"security", .list (.dict (.list .text))), (b!"tags", .list (.sec .tag)), (b!"externalDocs", .sec .externalDocs)]

/-- All settings.  `overrides` is a table of schemas, `operations` one of operations. -/
def configMembers : List (Str × Kind) := all .text textSettings ++ (b!"exclude", .list .text) :: sections ++
  [(b!"overrides", .dict (.sec .schema)), (b!"operations", .dict (.sec .operation))]

/-- The document says that the text setting `m` is `s`. -/
def Says (o : Obj) (m s : Str) : Prop := given o m = some (.str s) ∨ ((given o m = none ∨ given o m = some .null) ∧ s = [])

/-- The document says that section `m` of the root document, of kind `k`, is `r`. -/
def SaysSection (e : Around) (o : Obj) (m : Str) (k : Kind) (r : Option Json) : Prop :=
  (given o m = none → r = none) ∧ ∀ x z, given o m = some x → Passes e k x z → r = if blank k x = true then none else some z

/-- The document says that `l` is the table `m` of sections `s`: null stands for the empty section. -/
def SaysTable (e : Around) (o : Obj) (m : Str) (s : Section) (l : List (Str × Json)) : Prop :=
  (given o m = none ∨ given o m = some .null → l = []) ∧
  ∀ t, given o m = some (.obj t) → ∀ key,
    (Obj.lookup key t = none → l.lookup key = none) ∧
    (Obj.lookup key t = some .null → l.lookup key = some (.obj [])) ∧
    ∀ x z, Obj.lookup key t = some x → x ≠ .null → Passes e (.sec s) x z → l.lookup key = some z

/-- A value that cannot be read: as `Misfit`, but a reference need not be one that can be written. -/
def Unreadable (e : Around) : Kind → Json → Prop
  | .reference, .null => False
  | .reference, .str s => ∀ p, Pointer.parse s ≠ .ok p
  | .reference, j => ∀ p, Pointer.parse (e.jsonText j) ≠ .ok p
  | k, j => Misfit e k j

/-- Something unreadable at a place where the rest of the document is not read any more: it is a reference, or is inside a callback. -/
def Stops (e : Around) (k : Kind) (j : Json) : Prop :=
  (∃ x, At k j .reference x ∧ Unreadable e .reference x) ∨
  ∃ x k' j', At k j .callback x ∧ At .callback x k' j' ∧ Unreadable e k' j'

/-- All settings but `m`, and the place of the file, are the same. -/
def SameExcept (m : Str) (c c' : Main.Config) : Prop :=
  (m ≠ b!"extends" → c.extends_ = c'.extends_) ∧ (m ≠ b!"version" → c.version = c'.version) ∧ (m ≠ b!"openapi" → c.openapi = c'.openapi) ∧
  (m ≠ b!"format" → c.base.format = c'.base.format) ∧ (m ≠ b!"dir" → c.base.dir = c'.base.dir) ∧
  (m ≠ b!"output" → c.base.output = c'.base.output) ∧ (m ≠ b!"exclude" → c.exclude = c'.exclude) ∧ (m ≠ b!"info" → c.info = c'.info) ∧
  (m ≠ b!"servers" → c.servers = c'.servers) ∧ (m ≠ b!"components" → c.components = c'.components) ∧
  (m ≠ b!"security" → c.security = c'.security) ∧ (m ≠ b!"tags" → c.tags = c'.tags) ∧
  (m ≠ b!"externalDocs" → c.externalDocs = c'.externalDocs) ∧ (m ≠ b!"overrides" → c.overrides = c'.overrides) ∧
  (m ≠ b!"operations" → c.operations = c'.operations)

end Oapi.Spec.Load
