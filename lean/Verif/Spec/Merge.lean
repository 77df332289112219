import Verif.Spec.Doc

/-! What merging documents means, key path by key path. -/
namespace Oapi.Spec

/-- The two documents differ only in the order in which object members are listed, at any depth.
A Go map has no order: `Reorder a b` says that `b` lists the maps of `a` in some iteration order. -/
inductive Reorder : Json → Json → Prop where
  | refl (a) : Reorder a a
  | trans {a b c} : Reorder a b → Reorder b c → Reorder a c
  | shuffle {m n : Obj} : m.Perm n → Reorder (.obj m) (.obj n)
  | member {v w : Json} (pre post : Obj) (k : Str) :
      Reorder v w → Reorder (.obj (pre ++ (k, v) :: post)) (.obj (pre ++ (k, w) :: post))
  | elem {v w : Json} (pre post : List Json) :
      Reorder v w → Reorder (.arr (pre ++ v :: post)) (.arr (pre ++ w :: post))

/-- A prefix of the key path is bound to something that is not an object. -/
def Shadowed (d : Json) (p : List Str) : Prop := ∃ q j, q <+: p ∧ nodeAt d q = some (.leaf j)

/-- `r` is `first`, with `second` filling the gaps. -/
def Fills (first second r : Json) : Prop :=
  ∀ p, (∀ n, nodeAt first p = some n → nodeAt r p = some n) ∧
    (nodeAt first p = none → Shadowed first p → nodeAt r p = none) ∧
    (nodeAt first p = none → ¬ Shadowed first p → nodeAt r p = nodeAt second p)

/-- Some key path is bound in both documents, and not to an object in both. -/
def Collide (a b : Json) : Prop :=
  ∃ p x y, nodeAt a p = some x ∧ nodeAt b p = some y ∧ ¬ (x = .obj ∧ y = .obj)

/-- `r` is bound exactly where `a` or `b` is, to what they have there. -/
def Union (a b r : Json) : Prop := ∀ p, nodeAt r p = (nodeAt a p).or (nodeAt b p)

end Oapi.Spec
