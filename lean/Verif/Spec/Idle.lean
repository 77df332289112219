import Verif.Spec.Irrelevant
import Verif.Spec.Crash

/-! Configuration that nothing refers to (C120). -/
namespace Oapi.Spec
open Types Scan Container

variable {F : Type}

/-- The document has a path item `path` with a member `method`. -/
def OpIn (d : Json) (path method : Str) : Prop :=
  ∃ m ps it a, d = .obj m ∧ Obj.lookup b!"paths" m = some (.obj ps) ∧ (path, Json.obj it) ∈ ps ∧ (method, a) ∈ it

/-- The route pattern matches no operation of any document that the scan gives without default operations. -/
def MatchesNothing (inp : Input F) (fuel : Nat) (pat : Str) : Prop :=
  ∀ d e, CanYield { inp with defops := [] } fuel (.ret (some d) e) → ∀ path method, OpIn d path method → inp.matches_ pat method path = .ok false

/-- No registered type has a pointer written `y`, and no reference of the prepared document or of an override is one to `y`. -/
structure Unreferenced (inp : Input F) (pre : Prepared) (y : Str) : Prop where
  types : ∀ p, Registered pre.points p → p.toStr ≠ y
  refs : ∀ x p, (RefLike pre.doc x ∨ ∃ e ∈ inp.override, RefLike e.2 x) → Pointer.parse x = .ok p → p.toStr ≠ y

end Oapi.Spec
