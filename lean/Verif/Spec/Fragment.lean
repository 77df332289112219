import Verif.Model.SliceHeap

/-! Specifications for the fragment properties (C01–C05), independent of the proofs. -/
namespace Oapi.Spec

/-- RFC 6901 syntax of tokens: every '~' (126) is directly followed by '0' (48) or '1' (49). -/
def TildesEscaped (s : Str) : Prop :=
  ∀ i : Nat, s[i]? = some 126 → s[i+1]? = some 48 ∨ s[i+1]? = some 49

/-- What a history of fragment operations should produce if fragments were plain values. -/
def valueStep (fs : List Fragment) : SliceOp → List Fragment
  | .fresh f _ => fs ++ [f]
  | .clone r => match fs[r]? with
    | some f => fs ++ [f]
    | none => fs
  | .replace r n e => match fs[r]? with
    | some f => fs ++ [f.set n e]
    | none => fs
  | .withDescendant r path _ => match fs[r]? with
    | some f => match f.descendant path with
      | .ok g => fs ++ [g]
      | _ => fs
    | none => fs

def valueRun (ops : List SliceOp) : List Fragment := ops.foldl valueStep []

end Oapi.Spec
