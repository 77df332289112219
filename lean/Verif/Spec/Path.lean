import Verif.Spec.Doc

/-! Which values a path names, for reading. -/
namespace Oapi.Spec

/-- A path segment names a step: the member of that name, or the element of that number in any spelling `strconv.Atoi` accepts. -/
def Names (s : Str) : Step → Prop
  | .key k => s = k
  | .idx n => Str.atoi s = some (n : Int)

/-- The segments name the location step by step. -/
def NamesAll : List Str → Loc → Prop
  | [], [] => True
  | s :: p, st :: L => Names s st ∧ NamesAll p L
  | _, _ => False

/-- The two lists correspond, element by element. -/
def Pairwise2 {α β : Type} (R : α → β → Prop) : List α → List β → Prop
  | [], [] => True
  | a :: as, b :: bs => R a b ∧ Pairwise2 R as bs
  | _, _ => False

/-- `vs` are, in order, the values below the elements of the array at `L` that the segments `b` name; elements without such a value are left out. -/
def EachBelow (j : Json) (L : Loc) (b : List Str) (vs : List Json) : Prop :=
  ∃ is : List Nat, is.Pairwise (· < ·) ∧
    Pairwise2 (fun i w => ∃ L', NamesAll b L' ∧ getAt j (L ++ .idx i :: L') = some w) is vs ∧
    ∀ (i : Nat) L' w, NamesAll b L' → getAt j (L ++ .idx i :: L') = some w → i ∈ is

end Oapi.Spec
