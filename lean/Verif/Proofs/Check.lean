import Verif.Proofs.Flatten

/-! Executable checkers for the document hypotheses, used to show that concrete documents meet them. -/
namespace Oapi
open Spec

def dotSafeTail : Str → Bool
  | [] => true
  | [_] => true
  | c :: d :: t => !(c = 126 && (d = 48 || d = 49)) && dotSafeTail (d :: t)

def dotSafeB (k : Str) : Bool := !k.isEmpty && !(List.elem 46 k) && dotSafeTail k

theorem dotSafeTail_sound (k : Str) (h : dotSafeTail k = true) :
    ∀ i : Nat, k[i]? = some 126 → k[i+1]? ≠ some 48 ∧ k[i+1]? ≠ some 49 := by
  fun_induction dotSafeTail k with
  | case1 => simp
  | case2 c => intro i; cases i <;> simp
  | case3 c d t ih =>
    simp only [Bool.and_eq_true] at h
    intro i
    cases i with
    | zero =>
      simp only [List.getElem?_cons_zero, List.getElem?_cons_succ, Option.some.injEq]
      intro hc; have := h.1; simp [hc] at this; simpa using this
    | succ i => simpa using ih h.2 i

theorem dotSafeB_sound {k : Str} (h : dotSafeB k = true) : DotSafe k := by
  simp only [dotSafeB, Bool.and_eq_true, Bool.not_eq_true'] at h
  refine ⟨by rintro rfl; simp at h, by simpa using h.1.2, dotSafeTail_sound k h.2⟩

mutual
def safeB (j : Json) : Bool :=
  match j with
  | .arr xs => safeBL xs
  | .obj m => safeBO m
  | _ => true
termination_by structural j
def safeBL (xs : List Json) : Bool :=
  match xs with
  | [] => true
  | x :: t => safeB x && safeBL t
termination_by structural xs
def safeBO (m : List (Str × Json)) : Bool :=
  match m with
  | [] => true
  | (k, v) :: t => dotSafeB k && safeB v && safeBO t
termination_by structural m
end

theorem safeBL_mem {xs : List Json} (h : safeBL xs = true) : ∀ x ∈ xs, safeB x = true := by
  induction xs with
  | nil => simp
  | cons x t ih => simp [safeBL] at h; simp [h.1]; exact ih h.2

theorem safeBO_mem {m : Obj} (h : safeBO m = true) : ∀ p ∈ m, dotSafeB p.1 = true ∧ safeB p.2 = true := by
  induction m with
  | nil => simp
  | cons p t ih =>
    obtain ⟨k, v⟩ := p
    simp only [safeBO, Bool.and_eq_true] at h
    intro q hq
    rcases List.mem_cons.1 hq with rfl | hq
    · exact h.1
    · exact ih h.2 q hq

theorem safeB_sound {j : Json} (h : safeB j = true) : SafeDoc j := by
  intro l m hg
  induction l generalizing j with
  | nil =>
    simp [getAt] at hg; subst hg
    simp [safeB] at h
    intro k hk
    obtain ⟨p, hp, rfl⟩ := List.mem_map.1 hk
    exact dotSafeB_sound (safeBO_mem h p hp).1
  | cons st l ih =>
    cases j with
    | obj m' =>
      cases st with
      | idx n => simp [getAt, child] at hg
      | key k =>
        rw [getAt_obj_key] at hg
        cases hl : Obj.lookup k m' with
        | none => rw [hl] at hg; simp at hg
        | some c =>
          rw [hl] at hg
          simp [safeB] at h
          exact ih (safeBO_mem h _ (Obj.lookup_mem hl)).2 hg
    | arr xs =>
      cases st with
      | key n => simp [getAt, child] at hg
      | idx n =>
        rw [getAt_arr_idx] at hg
        cases hl : xs[n]? with
        | none => rw [hl] at hg; simp at hg
        | some c =>
          rw [hl] at hg
          simp [safeB] at h
          exact ih (safeBL_mem h _ (List.mem_of_getElem? hl)) hg
    | null | bool _ | num _ | str _ => cases st <;> simp [getAt, child] at hg

def sortedB : Obj → Bool
  | [] => true
  | (k, _) :: t => (Obj.keys t).all (fun k' => Str.lt k k') && sortedB t

theorem sortedB_sound {m : Obj} (h : sortedB m = true) : Obj.Sorted m := by
  induction m with
  | nil => trivial
  | cons p t ih =>
    obtain ⟨k, v⟩ := p
    simp only [sortedB, Bool.and_eq_true, List.all_eq_true] at h
    exact ⟨h.1, ih h.2⟩

mutual
def wfB (j : Json) : Bool :=
  match j with
  | .arr xs => wfBL xs
  | .obj m => sortedB m && wfBO m
  | _ => true
termination_by structural j
def wfBL (xs : List Json) : Bool :=
  match xs with
  | [] => true
  | x :: t => wfB x && wfBL t
termination_by structural xs
def wfBO (m : List (Str × Json)) : Bool :=
  match m with
  | [] => true
  | (_, v) :: t => wfB v && wfBO t
termination_by structural m
end

mutual
theorem wfB_sound (j : Json) (h : wfB j = true) : Json.WF j := by
  match j with
  | .null | .bool _ | .num _ | .str _ => simp
  | .arr xs => simp [wfB] at h; simp; exact wfBL_sound xs h
  | .obj m => simp [wfB] at h; simp; exact ⟨sortedB_sound h.1, wfBO_sound m h.2⟩
termination_by structural j
theorem wfBL_sound (xs : List Json) (h : wfBL xs = true) : Json.WFL xs := by
  match xs with
  | [] => simp [Json.WFL]
  | x :: t => simp [wfBL] at h; exact ⟨wfB_sound x h.1, wfBL_sound t h.2⟩
termination_by structural xs
theorem wfBO_sound (m : List (Str × Json)) (h : wfBO m = true) : Json.WFO m := by
  match m with
  | [] => simp
  | (_, v) :: t => simp [wfBO] at h; exact ⟨wfB_sound v h.1, wfBO_sound t h.2⟩
termination_by structural m
end

end Oapi
