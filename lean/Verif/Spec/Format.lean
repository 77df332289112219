import Verif.Model.Format

/-! Specification vocabulary for formatting (C54–C56). -/
namespace Oapi.Spec

/-- The well-known sections in the order in which they are to be printed. -/
def wellKnown : List Str := [b!"openapi", b!"info", b!"components", b!"paths"]

/-- `a` stands before `b` in `l`. -/
def Precedes {α : Type} (l : List α) (a b : α) : Prop := ∃ x y z, l = x ++ a :: y ++ b :: z

/-- A Go raw string literal (Go spec, "String literals"): from a backquote to the next one; carriage returns are dropped from
the value.  The argument starts after the opening backquote; the result is the value and what follows the literal. -/
def rawLiteral : Str → Option (Str × Str)
  | [] => none
  | c :: t =>
    if c = 96 then some ([], t)
    else match rawLiteral t with
      | none => none
      | some (v, r) => some (if c = 13 then v else c :: v, r)

/-- The value of the first raw string literal in a source text, with what follows the literal. -/
def firstRaw : Str → Option (Str × Str)
  | [] => none
  | c :: t => if c = 96 then rawLiteral t else firstRaw t

/-- Quoted keys are self-delimiting: what follows cannot change what was quoted. -/
def SelfDelimiting (quote : Str → Str) : Prop := ∀ a b s t, quote a ++ s = quote b ++ t → a = b

end Oapi.Spec
