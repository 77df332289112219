import Verif.Model.GoScan
import Verif.Spec.Scan

/-! Specification vocabulary for scans in memory (C112). -/
namespace Oapi.Spec
open Oapi.GoHeap (HFile MOrders)
open Scan (Input)

variable {F : Type}

/-- Orders in which Go may iterate its maps, and results sorting may have, for containers. -/
structure MOrdersOK (mo : MOrders) : Prop where
  sort : ∀ l, (mo.sort l).Perm l ∧ (mo.sort l).Pairwise fun x y => Str.lt y.path x.path = false
  merge : ∀ n j, Reorder j (mo.merge n j)
  root : ∀ k n j, Reorder j (mo.root k n j)
  ops : ∀ l, (mo.ops l).Perm l

/-- What the scan reads are documents: objects have their keys once, and numbers are written as numbers. -/
structure DocsOK (inp : Input F) : Prop where
  files : ∀ p fs, inp.files p = .ok fs → ∀ f ∈ fs, Json.WF f.doc
  root : Json.WF inp.root
  override : ∀ e ∈ inp.override, Json.WF e.2
  defops : ∀ e ∈ inp.defops, ∃ j, Json.WF j ∧ Reorder j e.2
  nums : ∀ f, ∃ n, inp.enc.num f = .num n
  ints : ∀ i, ∃ n, inp.enc.int i = .num n

end Oapi.Spec
