import Verif.Proofs.GoString
import Verif.Props.PtrJson

/- C88: which texts of a reference are unquoted. -/
namespace Oapi.Props

open Oapi.PtrJson Oapi.Spec Oapi.Spec.PtrJson

/-- **C88** (every text): exactly the texts that are interpreted string literals of Go are unquoted, and then what the literal means is parsed;
every other text, also a literal with something behind it, is parsed as it stands. -/
theorem C88_go_strings (data : Str) :
    (∀ m, GoString data m → unmarshal data = Pointer.parse m) ∧ ((∀ m, ¬ GoString data m) → unmarshal data = Pointer.parse data) ∧
      ∀ m m', GoString data m → GoString data m' → m = m' := by
  refine ⟨fun m h => ?_, fun h => ?_, fun m m' h h' => ?_⟩
  · unfold unmarshal
    rw [(unquote_iff _ _).2 h]
  · unfold unmarshal
    cases hu : unquote data with
    | none => rfl
    | some m => exact absurd ((unquote_iff _ _).1 hu) (h m)
  · have h1 := (unquote_iff _ _).2 h
    rw [(unquote_iff _ _).2 h'] at h1
    exact (Option.some.inj h1).symm

/-- **C88** (text behind the literal): nothing may follow the closing quote. -/
theorem C88_nothing_behind (es : List Elem) (ho : ∀ e ∈ es, e.ok) (hf : ∀ e ∈ es, ¬ e.foreign) (c : UInt8) (x : Str) :
    unmarshal (literal es ++ c :: x) = Pointer.parse (literal es ++ c :: x) := by
  refine (C88_go_strings _).2.1 fun m h => ?_
  have hn : unquote (literal es ++ c :: x) = none := by
    have key : ∀ (es : List Elem), (∀ e ∈ es, e.ok) → (∀ e ∈ es, ¬ e.foreign) → ∀ fuel, unquoteLoop fuel (es.flatMap Elem.text ++ 34 :: c :: x) = none := by
      intro es
      induction es with
      | nil =>
        intro _ _ fuel
        cases fuel with
        | zero => rfl
        | succ fuel => rfl
      | cons e es ih =>
        intro ho hf fuel
        cases fuel with
        | zero => rfl
        | succ fuel =>
          rw [List.flatMap_cons, List.append_assoc, unquote_elem (ho e List.mem_cons_self) (hf e List.mem_cons_self),
            ih (fun e h => ho e (List.mem_cons_of_mem _ h)) (fun e h => hf e (List.mem_cons_of_mem _ h))]
          rfl
    unfold literal
    have e : (34 :: (List.flatMap Elem.text es ++ [34])) ++ c :: x = 34 :: (List.flatMap Elem.text es ++ 34 :: c :: x) := by simp
    rw [show (34 :: List.flatMap Elem.text es ++ [34] : Str) = 34 :: (List.flatMap Elem.text es ++ [34]) from rfl, e]
    exact key es ho hf _
  rw [(unquote_iff _ _).2 h] at hn
  cases hn

-- `"\157k"`: the letter o in octal digits.
example : GoString [34, 92, 49, 53, 55, 107, 34] b!"ok" :=
  ⟨_, rfl, .oct3 (ds := [49, 53, 55]) rfl ⟨[1, 5, 7], rfl, rfl⟩ (by decide) (.char (n := 107) (Or.inl (by decide)) (by decide) (by decide) (by decide) .stop)⟩

-- `\8` is no escape: 8 is no octal digit.
example : ∀ m, ¬ GoString [34, 92, 49, 56, 48, 34] m := fun m h => by
  have hn : unquote [34, 92, 49, 56, 48, 34] = none := by decide +kernel
  rw [(unquote_iff _ _).2 h] at hn
  cases hn

example : unmarshal b!"\"#/a\" " = Pointer.parse b!"\"#/a\" " ∧ unmarshal b!"\"#/a\"" = Pointer.parse b!"#/a" := by
  refine ⟨C88_nothing_behind [.plain 35, .plain 47, .plain 97] ?_ ?_ 32 [], C88_decode [.plain 35, .plain 47, .plain 97] ?_ ?_⟩ <;>
    simp [Elem.ok, Elem.foreign, Scalar]

end Oapi.Props
