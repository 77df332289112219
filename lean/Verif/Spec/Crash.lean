import Verif.Spec.Prepare
import Verif.Spec.Resolver

/-! What makes a scan crash (C99). -/
namespace Oapi.Spec
open Types Scan Container

variable {F : Type}

/-- What it takes for a scan to get all its input together: packages load without errors, every command is well-formed and none exports what
another exports, every file can be read and every reference of a specification parsed, and no two specifications collide. -/
structure Gathers (inp : Input F) : Prop where
  loads : ∃ roots, inp.load = .ok roots
  clean : ∀ p pkg, Visited inp p → inp.heap[p]? = some pkg → pkg.errors = []
  commands : ∀ p t body, Visited inp p → t ∈ (inp.comments p).flatten → CommandIn t body →
    (∃ name ptr, ExportText (pathOf inp.heap p) body name ptr) ∨ RootText body
  once : ∀ p i n ptr p' i' n' ptr', CommandAt inp p i n ptr → CommandAt inp p' i' n' ptr' → ptr.toStr = ptr'.toStr → p = p' ∧ i = i'
  files : ∀ p, Visited inp p → ∃ fs, inp.files p = .ok fs
  refs : ∀ p i d x, SpecAt inp p i d → HasRef d x → ∃ ptr, Pointer.parse x = .ok ptr
  apart : ∀ p i d p' i' d', SpecAt inp p i d → SpecAt inp p' i' d' → Collide d d' → p = p' ∧ i = i'

/-- The parts that are not modelled (the loader, the disk and the matcher of routes) do not crash, and the root document is one that a
configuration has: an object whose sections are objects, lists or missing. -/
structure Sound (inp : Input F) : Prop where
  load : inp.load ≠ .panic
  files : ∀ p, inp.files p ≠ .panic
  matcher : ∀ a b c, inp.matches_ a b c ≠ .panic
  root : ∃ r, inp.root = .obj r ∧ Json.WF (.obj r) ∧ ∀ k R, (k, R) ∈ ruleOf → Composite (section_ (.obj r) k)
  override : ∀ e ∈ inp.override, Json.WF e.2

/-- An asked-for type contains the predeclared type `error`. -/
def AsksForError (inp : Input F) : Prop :=
  ∃ pkg name t, ObjectAskedFor inp pkg name t ∧ MeetsError inp.prog.env (under inp.prog.env t)

/-- Section `k` of the union of the specifications is a string, a number or a boolean; and no component of it stands in the way of one of the
root document, unless section `info`, which comes before, is such a section as well. -/
def ScalarSection (inp : Input F) : Prop :=
  ∃ c, Merged inp c ∧ (∃ k R, (k, R) ∈ ruleOf ∧ ¬ Composite (section_ c k)) ∧
    (Composite (section_ c b!"info") → ¬ Collide (members (section_ c b!"components")) (members (section_ inp.root b!"components")))

/-- A pointer of scheme go that nothing overrides and that is not among the registered ones stands in one of the documents: the prepared one,
or an override. -/
def DanglingGo (inp : Input F) (pre : Prepared) : Prop :=
  ∃ x p, (RefLike pre.doc x ∨ ∃ e ∈ inp.override, RefLike e.2 x) ∧ Pointer.parse x = .ok p ∧ p.url.scheme = b!"go" ∧
    (∀ d, (p.toStr, d) ∉ inp.override) ∧ ¬ Registered pre.points p

end Oapi.Spec
