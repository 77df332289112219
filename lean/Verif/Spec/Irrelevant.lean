import Verif.Spec.Prepare

/-! Inputs of a scan that differ only in what the scan does not look at: comments that are no commands, files that are no specifications, and
packages that are not visited. -/
namespace Oapi.Spec
open Oapi Scan

/-- `bodies` are the commands among the comments, in order. -/
inductive CommandsOf : List Str → List Str → Prop where
  | nil : CommandsOf [] []
  | command {t b l bs} : CommandIn t b → CommandsOf l bs → CommandsOf (t :: l) (b :: bs)
  | other {t l bs} : (∀ b, ¬ CommandIn t b) → CommandsOf l bs → CommandsOf (t :: l) bs

/-- `specs` are the specifications among the files, in order. -/
inductive SpecsOf : List Container.File → List Container.File → Prop where
  | nil : SpecsOf [] []
  | spec {f : Container.File} {l s} : IsSpec f.doc → SpecsOf l s → SpecsOf (f :: l) (f :: s)
  | other {f : Container.File} {l s} : ¬ IsSpec f.doc → SpecsOf l s → SpecsOf (f :: l) s

/-- The comments have the same commands. -/
def SameCommands (a b : List (List Str)) : Prop := ∃ bodies, CommandsOf a.flatten bodies ∧ CommandsOf b.flatten bodies

/-- The files cannot be read, in the same way, or have the same specifications. -/
def SameSpecs (a b : Res (List Container.File)) : Prop :=
  a = b ∨ ∃ l l' s, a = .ok l ∧ b = .ok l' ∧ SpecsOf l s ∧ SpecsOf l' s

variable {F : Type}

/-- The inputs agree on everything but the comments and the files, and on these in the visited packages, as far as commands and
specifications are concerned. -/
structure SameInput (inp inp' : Input F) : Prop where
  rest : inp' = { inp with comments := inp'.comments, files := inp'.files }
  comments : ∀ p, Visited inp p → SameCommands (inp.comments p) (inp'.comments p)
  files : ∀ p, Visited inp p → SameSpecs (inp.files p) (inp'.files p)

/-- `out` is an outcome of the scan of the input, for some order of Go's maps. -/
def CanYield (inp : Input F) (fuel : Nat) (out : Outcome) : Prop := ∃ o, OrdersOK inp o ∧ scan inp o fuel = out

end Oapi.Spec
