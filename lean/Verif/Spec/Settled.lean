import Verif.Spec.Whole
import Verif.Spec.Prepare

/-! When a document has nothing left to do for a scan. -/
namespace Oapi.Spec
open Oapi.Scan (Input)

variable {F : Type}

/-- A reference that no scan touches: it has no scheme, and is written as the library would write it. -/
def Standing (x : Str) : Prop := ∃ p, Pointer.parse x = .ok p ∧ p.url.scheme = [] ∧ p.toStr = x

/-- Document `d` has nothing left to do for a scan of `inp`: its references stay as they are, each of the seven sections a root document is
merged into is an object (or missing, or null), combining them with those of the root document by the rule of the section changes nothing, and
its operations have no gaps that the default operations that match them would fill. -/
structure Complete (inp : Input F) (d : Json) : Prop where
  refs : ∀ x, RefLike d x → Standing x
  sections : ∀ k R, (k, R) ∈ ruleOf → Missing (section_ d k) ∨ ∃ s, section_ d k = some (.obj s)
  root : ∃ r, inp.root = .obj r ∧ Json.WF (.obj r) ∧ ∀ k R, (k, R) ∈ ruleOf → Missing (section_ (.obj r) k) ∨
    ∃ y s, section_ (.obj r) k = some (.obj y) ∧ section_ d k = some (.obj s) ∧ R.holds (.obj s) (.obj y) (.obj s)
  ops : ∀ P M a, opAt d P M = some a → ∀ e ∈ hits inp.matches_ inp.defops P M, e = .obj [] ∨ ((∃ m, a = .obj m) ∧ Fills a e a)

end Oapi.Spec
