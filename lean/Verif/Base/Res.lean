/-
Outcomes of Go functions: a value, an error, or a panic.
-/
namespace Oapi

/-- Kinds of errors the model distinguishes. The text of messages is not modelled. -/
inductive Err where
  | range          -- index out of range reported as an error
  | syntaxErr      -- malformed pointer, tag, command …
  | collision      -- gabs ErrPathCollision / merge collision
  | notObj         -- gabs ErrNotObj, ErrNotArray, ErrNotObjOrArray
  | outOfBounds    -- gabs ErrOutOfBounds / index errors
  | unsupported    -- unsupported type or scheme
  | notFound
  | duplicate
  | loadErr        -- package errors
  | decode         -- JSON decoding error
  | fuel           -- never returned by the code: the model's recursion budget ran out
  deriving DecidableEq, Repr

/-- Result of a Go call. -/
inductive Res (α : Type) where
  | ok (a : α)
  | err (e : Err)
  | panic
  deriving Repr, DecidableEq

namespace Res
def bind {α β : Type} : Res α → (α → Res β) → Res β
  | ok a, f => f a
  | err e, _ => err e
  | panic, _ => panic

instance : Monad Res where
  pure := ok
  bind := bind

@[simp] theorem bind_ok {α β : Type} (a : α) (f : α → Res β) : (Res.ok a >>= f) = f a := rfl
@[simp] theorem bind_err {α β : Type} (e : Err) (f : α → Res β) : (Res.err e >>= f) = Res.err e := rfl
@[simp] theorem bind_panic {α β : Type} (f : α → Res β) : ((Res.panic : Res α) >>= f) = Res.panic := rfl
@[simp] theorem pure_eq {α : Type} (a : α) : (pure a : Res α) = Res.ok a := rfl

theorem bind_eq_ok {α β : Type} {x : Res α} {f : α → Res β} {b : β} :
    (x >>= f) = Res.ok b ↔ ∃ a, x = Res.ok a ∧ f a = Res.ok b := by
  cases x <;> simp

/-- The call returned without error. -/
def isOk {α : Type} : Res α → Bool
  | ok _ => true
  | _ => false
end Res
end Oapi
