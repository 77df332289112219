import Verif.Proofs.Check
import Verif.Proofs.Refs
import Verif.Spec.Resolver

/-! Decision procedures used to exhibit concrete instances of the resolver's hypotheses. -/
namespace Oapi.Spec
open Oapi

/-- The reference text of a member. -/
def refText (k : Str) (v : Json) : List Str :=
  if k = refKey then (match v with | .str s => [s] | _ => []) else []

mutual
/-- The reference texts of a document. -/
def refsB (j : Json) : List Str :=
  match j with
  | .arr xs => refsBL xs
  | .obj m => refsBO m
  | _ => []
termination_by structural j
def refsBL (xs : List Json) : List Str :=
  match xs with
  | [] => []
  | x :: t => refsB x ++ refsBL t
termination_by structural xs
def refsBO (m : List (Str × Json)) : List Str :=
  match m with
  | [] => []
  | (k, v) :: t => refText k v ++ refsB v ++ refsBO t
termination_by structural m
end

mutual
/-- Objects with a `$ref` have no other member. -/
def singleB (j : Json) : Bool :=
  match j with
  | .arr xs => singleBL xs
  | .obj m => (!(Obj.keys m).contains refKey || m.length == 1) && singleBO m
  | _ => true
termination_by structural j
def singleBL (xs : List Json) : Bool :=
  match xs with
  | [] => true
  | x :: t => singleB x && singleBL t
termination_by structural xs
def singleBO (m : List (Str × Json)) : Bool :=
  match m with
  | [] => true
  | (_, v) :: t => singleB v && singleBO t
termination_by structural m
end

theorem refsBL_mem {xs : List Json} {x : Json} (h : x ∈ xs) {s : Str} (hs : s ∈ refsB x) : s ∈ refsBL xs := by
  induction xs with
  | nil => cases h
  | cons y t ih =>
    rw [refsBL]
    rcases List.mem_cons.1 h with rfl | h
    · exact List.mem_append_left _ hs
    · exact List.mem_append_right _ (ih h)

theorem refsBO_mem {m : Obj} {k : Str} {v : Json} (h : (k, v) ∈ m) {s : Str} (hs : s ∈ refsB v ∨ (k = refKey ∧ v = .str s)) : s ∈ refsBO m := by
  induction m with
  | nil => cases h
  | cons y t ih =>
    obtain ⟨k', v'⟩ := y
    rw [refsBO]
    rcases List.mem_cons.1 h with e | h
    · cases e
      rcases hs with hs | ⟨rfl, rfl⟩
      · simp [hs]
      · simp [refText]
    · exact List.mem_append_right _ (ih h)

theorem hasRef_mem {j : Json} {s : Str} (h : HasRef j s) : s ∈ refsB j := by
  obtain ⟨L, h⟩ := h
  induction L generalizing j with
  | nil =>
    cases j with
    | obj m =>
      rw [List.nil_append, getAt_obj_key] at h
      cases hl : Obj.lookup refKey m with
      | none => rw [hl] at h; simp at h
      | some c =>
        rw [hl] at h
        have : c = .str s := by simpa [getAt] using h
        subst this
        rw [refsB]
        exact refsBO_mem (Obj.lookup_mem hl) (Or.inr ⟨rfl, rfl⟩)
    | arr xs => simp [getAt, child] at h
    | null | bool _ | num _ | str _ => simp [getAt, child] at h
  | cons st L ih =>
    rw [List.cons_append] at h
    cases j with
    | obj m =>
      cases st with
      | idx n => simp [getAt, child] at h
      | key k =>
        rw [getAt_obj_key] at h
        cases hl : Obj.lookup k m with
        | none => rw [hl] at h; simp at h
        | some c => rw [hl] at h; rw [refsB]; exact refsBO_mem (Obj.lookup_mem hl) (Or.inl (ih h))
    | arr xs =>
      cases st with
      | key n => simp [getAt, child] at h
      | idx n =>
        rw [getAt_arr_idx] at h
        cases hl : xs[n]? with
        | none => rw [hl] at h; simp at h
        | some c => rw [hl] at h; rw [refsB]; exact refsBL_mem (List.mem_of_getElem? hl) (ih h)
    | null | bool _ | num _ | str _ => cases st <;> simp [getAt, child] at h

theorem singleBL_mem {xs : List Json} (h : singleBL xs = true) : ∀ x ∈ xs, singleB x = true := by
  induction xs with
  | nil => simp
  | cons x t ih => simp [singleBL] at h; simp [h.1]; exact ih h.2

theorem singleBO_mem {m : Obj} (h : singleBO m = true) : ∀ p ∈ m, singleB p.2 = true := by
  induction m with
  | nil => simp
  | cons p t ih =>
    obtain ⟨k, v⟩ := p
    simp only [singleBO, Bool.and_eq_true] at h
    intro q hq
    rcases List.mem_cons.1 hq with rfl | hq
    · exact h.1
    · exact ih h.2 q hq

theorem singleB_sound {j : Json} (h : singleB j = true) {L : Loc} {x : Str} (hg : getAt j (L ++ [.key refKey]) = some (.str x)) :
    getAt j L = some (refObj x) := by
  induction L generalizing j with
  | nil =>
    cases j with
    | obj m =>
      rw [List.nil_append, getAt_obj_key] at hg
      cases hl : Obj.lookup refKey m with
      | none => rw [hl] at hg; simp at hg
      | some c =>
        rw [hl] at hg
        have : c = .str x := by simpa [getAt] using hg
        subst this
        have hm := Obj.lookup_mem hl
        simp only [singleB, Bool.and_eq_true, Bool.or_eq_true, beq_iff_eq] at h
        have hlen : m.length = 1 := by
          rcases h.1 with h | h
          · have hk : (Obj.keys m).contains refKey = true := List.contains_iff_mem.2 (List.mem_map.2 ⟨_, hm, rfl⟩)
            rw [hk] at h; cases h
          · exact h
        match m, hlen, hm with
        | [y], _, hm =>
          rw [List.mem_singleton] at hm
          subst hm
          rfl
    | arr xs => simp [getAt, child] at hg
    | null | bool _ | num _ | str _ => simp [getAt, child] at hg
  | cons st L ih =>
    rw [List.cons_append] at hg
    cases j with
    | obj m =>
      cases st with
      | idx n => simp [getAt, child] at hg
      | key k =>
        rw [getAt_obj_key] at hg ⊢
        cases hl : Obj.lookup k m with
        | none => rw [hl] at hg; simp at hg
        | some c =>
          rw [hl] at hg
          simp only [singleB, Bool.and_eq_true] at h
          exact ih (singleBO_mem h.2 _ (Obj.lookup_mem hl)) hg
    | arr xs =>
      cases st with
      | key n => simp [getAt, child] at hg
      | idx n =>
        rw [getAt_arr_idx] at hg ⊢
        cases hl : xs[n]? with
        | none => rw [hl] at hg; simp at hg
        | some c =>
          rw [hl] at hg
          simp only [singleB] at h
          exact ih (singleBL_mem h _ (List.mem_of_getElem? hl)) hg
    | null | bool _ | num _ | str _ => cases st <;> simp [getAt, child] at hg

/-- The text of an external reference, as a check. -/
def extB (x : Str) : Bool := match Pointer.parse x with
  | .ok p => !p.url.scheme.isEmpty
  | _ => false

theorem extB_of {x : Str} (h : ∃ p, ExtRef x p) : extB x = true := by
  obtain ⟨p, h1, h2⟩ := h
  unfold extB
  rw [h1]
  cases hs : p.url.scheme with
  | nil => exact absurd hs h2
  | cons a b => simp [hs]

theorem tidy_of_checks {m : Obj} (h1 : wfB (.obj m) = true) (h2 : routedB extB (.obj m) = true) (h3 : singleB (.obj m) = true) : Tidy (.obj m) :=
  ⟨⟨m, rfl⟩, wfB_sound _ h1, routedB_sound (wfB_sound _ h1) (fun _ => extB_of) h2, fun _ _ _ hr => singleB_sound h3 hr.1⟩

theorem RefAt.mem {j : Json} {L : Loc} {x : Str} {p : Pointer} (h : RefAt j L x p) : x ∈ refsB j := hasRef_mem ⟨L, h.1⟩

theorem refLike_mem {j : Json} (hw : wfB j = true) (hs : routedB (fun _ => false) j = true) {x : Str} (h : RefLike j x) : x ∈ refsB j := by
  obtain ⟨L, k, h, hk⟩ := h
  rcases hk with rfl | ⟨a, rfl⟩
  · exact hasRef_mem ⟨L, h⟩
  · exact absurd h ((routedB_sound (P := fun _ => False) (wfB_sound _ hw) (fun _ h => h.elim) hs).plain L a x)

end Oapi.Spec
