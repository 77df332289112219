import Verif.Spec.Merge

/-! What merging with the root document and applying operation defaults mean. -/
namespace Oapi.Spec

/-- The value of a section of a document. -/
def section_ (j : Json) (k : Str) : Option Json := child j (.key k)

/-- Not there, or null. -/
def Missing (v : Option Json) : Prop := v = none ∨ v = some .null

/-- The object members of a section; everything that is not an object counts as having none. -/
def members : Option Json → Json
  | some (.obj m) => .obj m
  | _ => .obj []

/-- The value may be inspected for nil: it is an object, a list, null or missing. -/
def Composite (v : Option Json) : Prop := v = none ∨ ∃ x, v = some x ∧ (x = .null ∨ scalar x = false)

/-- How a section of the scanned document (`z`) and of the root document (`y`) combine into `r`. -/
inductive Rule where
  /-- the root document wins -/
  | rootWins
  /-- no collision allowed, nothing lost -/
  | disjoint
  /-- the scanned document wins -/
  | docWins

def Rule.holds : Rule → (z y r : Json) → Prop
  | .rootWins, z, y, r => Fills y z r
  | .disjoint, z, y, r => ¬ Collide z y ∧ Union z y r
  | .docWins, z, y, r => Fills z y r

/-- When the rule makes the merge fail. -/
def Rule.fails : Rule → (z y : Json) → Prop
  | .disjoint, z, y => Collide z y
  | _, _, _ => False

/-- The rule of each section. -/
def ruleOf : List (Str × Rule) :=
  [(b!"info", .rootWins), (b!"components", .disjoint), (b!"paths", .docWins), (b!"externalDocs", .docWins),
   (b!"security", .docWins), (b!"servers", .docWins), (b!"tags", .docWins)]

/-- A member of a path item before and after. -/
def MemberRel (R : Json → Json → Prop) : Option Json → Option Json → Prop
  | some a, some b => R a b
  | none, none => True
  | _, _ => False

/-- A path item before and after: its members are related one by one; a path item that is not an object is unchanged. -/
def ItemRel (R : Str → Json → Json → Prop) : Option Json → Option Json → Prop
  | some (.obj it), some (.obj it') => ∀ M, MemberRel (R M) (Obj.lookup M it) (Obj.lookup M it')
  | x, y => x = y

/-- The `paths` section before and after. -/
def PathsRel (R : Str → Str → Json → Json → Prop) : Option Json → Option Json → Prop
  | some (.obj ps), some (.obj ps') => ∀ P, ItemRel (R P) (Obj.lookup P ps) (Obj.lookup P ps')
  | x, y => x = y

/-- `out` is `c` in which the operations (members of the members of `paths`) are related by `R` and everything else is
unchanged. -/
def OpsRelated (R : Str → Str → Json → Json → Prop) (c out : Json) : Prop :=
  (∀ k, k ≠ b!"paths" → section_ out k = section_ c k) ∧
  PathsRel R (section_ c b!"paths") (section_ out b!"paths")

/-- Filling the gaps with several defaults, one after the other. -/
inductive FillsAll : Json → List Json → Json → Prop where
  | nil (a) : FillsAll a [] a
  | cons {a d b r} {ds : List Json} : Fills a d b → Json.WF b → FillsAll b ds r → FillsAll a (d :: ds) r

/-- The operation at a path and member name of the document. -/
def opAt (c : Json) (P M : Str) : Option Json := getAt c [.key b!"paths", .key P, .key M]

/-- Two defaults give different values to the same field. -/
def Conflict (a b : Json) : Prop := ∃ p x y, nodeAt a p = some x ∧ nodeAt b p = some y ∧ x ≠ y

/-- The defaults whose pattern matches the operation, in the given order; `mt pattern method path` is the matcher. -/
def hits (mt : Str → Str → Str → Res Bool) (defops : List (Str × Json)) (P M : Str) : List Json :=
  (defops.filter fun d => match mt d.1 M P with | .ok true => true | _ => false).map Prod.snd

/-- What defaults `ds` make of an operation `a`.  If all are empty it is unchanged.  Otherwise it must be an object (null
counts as the empty object), and its gaps are filled. -/
def OpOutcome (ds : List Json) (a b : Json) : Prop :=
  ((∀ d ∈ ds, d = .obj []) ∧ b = a) ∨
  ((∃ d ∈ ds, d ≠ .obj []) ∧ (a = .null ∨ ∃ m, a = .obj m) ∧ FillsAll (members (some a)) ds b)

/-- An object whose keys are not "*", "-" or numbers: true of every operation, whose field names are fixed. -/
def NamedKeys (d : Json) : Prop :=
  ∃ m, d = .obj m ∧ ∀ k ∈ Obj.keys m, k ≠ b!"*" ∧ k ≠ b!"-" ∧ Str.atoi k = none

/-- No default matches an operation whose path or member name contains a dot. -/
def NoDots (mt : Str → Str → Str → Res Bool) (defops : List (Str × Json)) (c : Json) : Prop :=
  ∀ P M v, opAt c P M = some v → hits mt defops P M ≠ [] → (46 : UInt8) ∉ P ∧ (46 : UInt8) ∉ M

end Oapi.Spec

namespace Oapi.Spec

/-- The `paths` section is missing, or an object whose members are objects or null. -/
def PathItemsOk (c : Json) : Prop :=
  Missing (section_ c b!"paths") ∨
  ∃ ps, section_ c b!"paths" = some (.obj ps) ∧ ∀ P v, Obj.lookup P ps = some v → v = .null ∨ ∃ m, v = .obj m

end Oapi.Spec
