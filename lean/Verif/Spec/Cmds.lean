import Verif.Model.Cmds

/-! Specification vocabulary for comment commands (C47, C48). -/
namespace Oapi.Spec
open Cmds

/-- A word: no space in it. -/
def Word (w : Str) : Prop := (32 : UInt8) ∉ w

/-- `a` is written as a pointer rather than as the name of a type. -/
def PointerLike (a : Str) : Prop := (∃ s t, a = s ++ b!"://" ++ t) ∨ (35 : UInt8) ∈ a

/-- Comment `t` holds the command `body`: after the two characters that open a comment comes "openapi", then `body`, then spaces and
newlines. -/
def CommandIn (t body : Str) : Prop :=
  ∃ (c₁ c₂ : UInt8) (tail : Str), t = c₁ :: c₂ :: (b!"openapi" ++ body ++ tail) ∧ (∀ c ∈ tail, c = 32 ∨ c = 10) ∧
    ∀ c, body.getLast? = some c → c ≠ 32 ∧ c ≠ 10

/-- In package `pkg`, command `body` exports pointer `ptr` under `name`: it is ":schema name" or ":schema name target", where the target (the
name itself, if there is none) is written as a pointer or is the name of a type of `pkg`. -/
def ExportText (pkg body name : Str) (ptr : Pointer) : Prop :=
  ∃ target, (body = b!":schema " ++ name ∧ target = name ∨ body = b!":schema " ++ name ++ b!" " ++ target) ∧
    Word name ∧ Word target ∧ name ≠ [] ∧ target ≠ [] ∧
    (PointerLike target → ptr = Pointer.parseLoose target) ∧ (¬ PointerLike target → ptr = Pointer.parseLoose (b!"go://" ++ pkg ++ b!"#/" ++ target))

/-- A command without effect: its first word is empty or ":root". -/
def RootText (body : Str) : Prop := ∃ w, (w = [] ∨ w = b!":root") ∧ (body = w ∨ ∃ rest, body = w ++ b!" " ++ rest)

/-- The pointers of the schema commands, in order. -/
def schemaPtrs (cs : List Cmd) : List (Str × Pointer) :=
  cs.filterMap fun c => match c with
    | .schema _ n p => some (n, p)
    | .root _ => none

end Oapi.Spec
