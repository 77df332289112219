import Verif.Model.Pkgs

/-! Specification vocabulary for the walk over the import graph (C49, C50). -/
namespace Oapi.Spec
open Pkgs

/-- Package `p` exists and is not part of the standard library. -/
def Own (std : Str → Bool) (heap : Heap) (p : Nat) : Prop := ∃ pkg, heap[p]? = some pkg ∧ std pkg.path = false

/-- `p` imports `q`. -/
def Imports (heap : Heap) (p q : Nat) : Prop := ∃ pkg k, heap[p]? = some pkg ∧ (k, q) ∈ pkg.imports

/-- `q` is reached from `p` through imports, all packages on the way, ends included, being outside the standard library. -/
inductive PkgReach (std : Str → Bool) (heap : Heap) : Nat → Nat → Prop
  | refl {p} : Own std heap p → PkgReach std heap p p
  | step {p q r} : Own std heap p → Imports heap p q → PkgReach std heap q r → PkgReach std heap p r

/-- No nil pointers: every import of every package and every start package is a package; import maps have distinct keys. -/
structure GraphOK (heap : Heap) (pkgs : List Nat) : Prop where
  roots : ∀ p ∈ pkgs, p < heap.length
  imports : ∀ p q, Imports heap p q → q < heap.length
  keys : ∀ pkg ∈ heap, (pkg.imports.map Prod.fst).Nodup

/-- No package imports itself through other packages. -/
def Acyclic (std : Str → Bool) (heap : Heap) : Prop := ∀ p q, Imports heap p q → ¬ PkgReach std heap q p

/-- `a` stands before `b` in `l`. -/
def Before {α : Type} (l : List α) (a b : α) : Prop := ∃ x y z, l = x ++ a :: y ++ b :: z

/-- What a scanner started in `σ` answers if it is called with the packages of a list one after the other. -/
def runScanner {σ : Type} (fn : Scanner σ) : σ → List Nat → σ × List (Option Str)
  | s, [] => (s, [])
  | s, p :: t => let r := runScanner fn (fn.scan s p).1 t
    (r.1, (fn.scan s p).2 :: r.2)

/-- Two heaps that differ only in the iteration order of the import maps. -/
def SameGraph (a b : Heap) : Prop :=
  a.length = b.length ∧ ∀ (i : Nat) x y, a[i]? = some x → b[i]? = some y →
    x.path = y.path ∧ x.errors = y.errors ∧ x.imports.Perm y.imports

end Oapi.Spec
