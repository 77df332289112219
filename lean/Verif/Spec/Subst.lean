import Verif.Spec.Doc

/-! Simultaneous replacement of parts of a document. -/
namespace Oapi
open Spec

mutual
/-- Replace the value at every location `l` with `σ l = some v` by `v` (outermost replacements win). -/
def subst (σ : Loc → Option Json) (j : Json) : Json :=
  match j with
  | .obj m => (σ []).getD (.obj (substO σ m))
  | .arr xs => (σ []).getD (.arr (substA σ 0 xs))
  | .null => (σ []).getD .null
  | .bool b => (σ []).getD (.bool b)
  | .num n => (σ []).getD (.num n)
  | .str s => (σ []).getD (.str s)
termination_by structural j
def substO (σ : Loc → Option Json) (m : List (Str × Json)) : List (Str × Json) :=
  match m with
  | [] => []
  | (k, v) :: t => (k, subst (fun l => σ (.key k :: l)) v) :: substO σ t
termination_by structural m
def substA (σ : Loc → Option Json) (i : Nat) (xs : List Json) : List Json :=
  match xs with
  | [] => []
  | x :: t => subst (fun l => σ (.idx i :: l)) x :: substA σ (i + 1) t
termination_by structural xs
end

end Oapi
