import Verif.Model.Fragment
import Verif.Proofs.Str

/-! Lemmas about fragments. -/
namespace Oapi.Fragment
open Str

/-- One-pass description of `escapeToken`. -/
theorem escapeToken_eq (tok : Str) :
    escapeToken tok = tok.flatMap fun c =>
      if c = 126 then [126, 48] else if c = 47 then [126, 49] else [c] := by
  unfold escapeToken tilde separator escapedTilde escapedSeparator
  rw [replaceAll_byte, replaceAll_byte, List.flatMap_assoc]
  congr 1; funext c
  by_cases h : c = 126
  · subst h; decide
  · by_cases h2 : c = 47 <;> simp [h, h2]

@[simp] theorem escapeToken_nil : escapeToken [] = [] := rfl

theorem escapeToken_cons (c : UInt8) (t : Str) :
    escapeToken (c :: t) =
      (if c = 126 then [126, 48] else if c = 47 then [126, 49] else [c]) ++ escapeToken t := by
  simp [escapeToken_eq]

/-- One-pass unescaping. -/
def unesc : Str → Str
  | [] => []
  | [c] => [c]
  | c :: d :: t =>
    if c = 126 ∧ d = 49 then 47 :: unesc t
    else if c = 126 ∧ d = 48 then 126 :: unesc t
    else c :: unesc (d :: t)

private abbrev p1 (s : Str) : Str := replaceGo [126, 49] [47] 0 s
private abbrev p2 (s : Str) : Str := replaceGo [126, 48] [126] 0 s

private theorem p1_cons2 (c d : UInt8) (t : Str) :
    p1 (c :: d :: t) = if c = 126 ∧ d = 49 then 47 :: p1 t else c :: p1 (d :: t) := by
  show replaceGo _ _ 0 (c :: d :: t) = _
  rw [replaceGo]
  by_cases h : c = 126 ∧ d = 49
  · obtain ⟨rfl, rfl⟩ := h
    simp [hasPrefix, replaceGo]
  · have : hasPrefix (c :: d :: t) [126, 49] = false := by
      simp only [hasPrefix, List.isPrefixOf, Bool.and_true, Bool.and_eq_false_imp, beq_eq_false_iff_ne, beq_iff_eq]
      intro h1 h2; exact h ⟨h1.symm, h2.symm⟩
    simp [this, h]

private theorem p2_cons2 (c d : UInt8) (t : Str) :
    p2 (c :: d :: t) = if c = 126 ∧ d = 48 then 126 :: p2 t else c :: p2 (d :: t) := by
  show replaceGo _ _ 0 (c :: d :: t) = _
  rw [replaceGo]
  by_cases h : c = 126 ∧ d = 48
  · obtain ⟨rfl, rfl⟩ := h
    simp [hasPrefix, replaceGo]
  · have : hasPrefix (c :: d :: t) [126, 48] = false := by
      simp only [hasPrefix, List.isPrefixOf, Bool.and_true, Bool.and_eq_false_imp, beq_eq_false_iff_ne, beq_iff_eq]
      intro h1 h2; exact h ⟨h1.symm, h2.symm⟩
    simp [this, h]

private theorem p_single1 (c : UInt8) : p1 [c] = [c] := by
  simp [p1, replaceGo, hasPrefix]
private theorem p_single2 (c : UInt8) : p2 [c] = [c] := by
  simp [p2, replaceGo, hasPrefix]

private theorem p2_cons_ne (c : UInt8) (t : Str) (h : c ≠ 126) : p2 (c :: t) = c :: p2 t := by
  cases t with
  | nil => rw [p_single2]; rfl
  | cons d t => rw [p2_cons2]; simp [h]

/-- the first byte after pass one is '0' only if it was '0' before -/
private theorem p1_shape (d : UInt8) (t : Str) :
    (∃ t', p1 (d :: t) = d :: t' ∧ (d ≠ 126 → t' = p1 t)) ∨ (d = 126 ∧ ∃ t', p1 (d :: t) = 47 :: t') := by
  cases t with
  | nil => left; rw [p_single1]; exact ⟨[], rfl, fun _ => rfl⟩
  | cons e t =>
    rw [p1_cons2]
    by_cases h : d = 126 ∧ e = 49
    · right; simp [h]
    · left; simp [h]

theorem unescapeToken_eq (s : Str) : unescapeToken s = unesc s := by
  show p2 (p1 s) = unesc s
  fun_induction unesc s with
  | case1 => rfl
  | case2 c => rw [p_single1, p_single2]
  | case3 c d t h ih => rw [p1_cons2, if_pos h, p2_cons_ne _ _ (by decide), ih]
  | case4 c d t h h2 ih =>
    obtain ⟨rfl, rfl⟩ := h2
    rw [p1_cons2, if_neg h]
    rcases p1_shape 48 t with ⟨t', e, e2⟩ | ⟨e, _⟩
    · rw [e, p2_cons2]; simp [e2 (by decide), ih]
    · exact absurd e (by decide)
  | case5 c d t h h2 ih =>
    rw [p1_cons2, if_neg h, ← ih]
    by_cases hc : c = 126
    · rcases p1_shape d t with ⟨t', e, _⟩ | ⟨_, t', e⟩
      · rw [e, p2_cons2, if_neg h2]
      · rw [e, p2_cons2]; simp
    · rw [p2_cons_ne _ _ hc]

theorem unesc_cons_ne (c : UInt8) (s : Str) (h : c ≠ 126) : unesc (c :: s) = c :: unesc s := by
  cases s with
  | nil => simp [unesc]
  | cons d t => simp [unesc, h]

theorem unesc_escape (tok : Str) : unesc (escapeToken tok) = tok := by
  induction tok with
  | nil => rfl
  | cons c t ih =>
    rw [escapeToken_cons]
    by_cases h : c = 126
    · subst h; simp [unesc, ih]
    · by_cases h2 : c = 47
      · subst h2; simp [unesc, ih]
      · simp [h, h2, unesc_cons_ne, ih]

theorem unescape_escape (tok : Str) : unescapeToken (escapeToken tok) = tok := by
  rw [unescapeToken_eq, unesc_escape]

theorem escape_no_sep (tok : Str) : (47 : UInt8) ∉ escapeToken tok := by
  induction tok with
  | nil => simp
  | cons c t ih =>
    rw [escapeToken_cons]
    by_cases h : c = 126
    · simp [h, ih]
    · by_cases h2 : c = 47
      · simp [h2, ih]
      · simp [h, h2, ih, Ne.symm h2]

/-- a non-empty fragment prints as '/' and the join of the escaped tokens -/
theorem toStr_cons (t : Str) (r : Fragment) :
    toStr (t :: r) = 47 :: join 47 ((t :: r).map escapeToken) := by
  induction r generalizing t with
  | nil => simp [toStr, join, sepByte]
  | cons u r ih =>
    rw [toStr, ih]; simp [join, sepByte]

theorem new_toStr (f : Fragment) : new (toStr f) = .ok f := by
  cases f with
  | nil => rfl
  | cons t r =>
    rw [toStr_cons]
    simp only [new, parseFragment, sepByte, ne_eq, not_true_eq_false, ↓reduceIte]
    rw [split_join]
    · simp [Function.comp_def, unescape_escape]
    · simp
    · simp only [List.mem_map, forall_exists_index, and_imp, forall_apply_eq_imp_iff₂]
      intro a _; exact escape_no_sep a

theorem toStr_inj {f g : Fragment} (h : toStr f = toStr g) : f = g := by
  have := new_toStr f
  rw [h, new_toStr] at this
  simpa using this.symm

theorem toStr_append (a b : Fragment) : toStr (a ++ b) = toStr a ++ toStr b := by
  induction a with
  | nil => rfl
  | cons t r ih => simp [toStr, ih]

theorem toStr_eq_slash {p : Fragment} : toStr p = separator ↔ p = [[]] := by
  constructor
  · intro h; exact toStr_inj (h.trans rfl)
  · rintro rfl; rfl

/-- every '~' is directly followed by '0' or '1' -/
def tildeOk : Str → Bool
  | [] => true
  | [c] => c ≠ 126
  | c :: d :: t => (c ≠ 126 || (d = 48 || d = 49)) && tildeOk (d :: t)

theorem tildeOk_iff (s : Str) :
    tildeOk s = true ↔ ∀ i : Nat, s[i]? = some 126 → s[i+1]? = some 48 ∨ s[i+1]? = some 49 := by
  fun_induction tildeOk s with
  | case1 => simp
  | case2 c =>
    simp only [decide_not, Bool.not_eq_eq_eq_not, Bool.not_true, decide_eq_false_iff_not]
    constructor
    · intro h i
      cases i with
      | zero => simp [h]
      | succ n => simp
    · intro h e; have := h 0; simp [e] at this
  | case3 c d t ih =>
    simp only [Bool.and_eq_true, ih]
    constructor
    · rintro ⟨h1, h2⟩ i
      cases i with
      | zero => simp; intro e; simpa [e] using h1
      | succ n => simpa using h2 n
    · intro h
      refine ⟨?_, fun i => by simpa using h (i+1)⟩
      have := h 0
      simp at this
      by_cases e : c = 126
      · simp [e, this e]
      · simp [e]

theorem tildeOk_cons_ne (c : UInt8) (t : Str) (h : c ≠ 126) : tildeOk (c :: t) = tildeOk t := by
  cases t <;> simp [tildeOk, h]

/-- for a token without '/': escaping after unescaping is the identity exactly on RFC 6901 tokens -/
theorem escape_unesc_iff (s : Str) (hs : (47 : UInt8) ∉ s) :
    escapeToken (unesc s) = s ↔ tildeOk s = true := by
  fun_induction unesc s with
  | case1 => simp [tildeOk]
  | case2 c =>
    rw [escapeToken_cons]
    by_cases h : c = 126
    · subst h; simp [tildeOk]
    · have : c ≠ 47 := fun e => hs (by simp [e])
      simp [h, this, tildeOk]
  | case3 c d t h ih =>
    obtain ⟨rfl, rfl⟩ := h
    rw [escapeToken_cons]
    simp [tildeOk, tildeOk_cons_ne 49 t (by decide)]
    exact ih (fun e => hs (by simp [e]))
  | case4 c d t h h2 ih =>
    obtain ⟨rfl, rfl⟩ := h2
    rw [escapeToken_cons]
    simp [tildeOk, tildeOk_cons_ne 48 t (by decide)]
    exact ih (fun e => hs (by simp [e]))
  | case5 c d t h h2 ih =>
    have hc : c ≠ 47 := fun e => hs (by simp [e])
    rw [escapeToken_cons]
    by_cases e : c = 126
    · subst e
      have h' : d ≠ 49 := fun e => h ⟨rfl, e⟩
      have h2' : d ≠ 48 := fun e => h2 ⟨rfl, e⟩
      simp [tildeOk, h', h2', Ne.symm h2']
    · simp [e, hc, tildeOk]
      exact ih (fun e => hs (by simp at e ⊢; right; exact e))

theorem tildeOk_append_sep (a s : Str) : tildeOk (a ++ 47 :: s) = (tildeOk a && tildeOk s) := by
  fun_induction tildeOk a with
  | case1 => simp [tildeOk_cons_ne]
  | case2 c => simp [tildeOk, tildeOk_cons_ne]
  | case3 c d t ih =>
    rw [List.cons_append, List.cons_append, tildeOk]
    rw [List.cons_append] at ih
    rw [ih, Bool.and_assoc]

theorem tildeOk_join (xs : List Str) : tildeOk (join 47 xs) = xs.all tildeOk := by
  induction xs with
  | nil => rfl
  | cons x r ih =>
    cases r with
    | nil => simp [join]
    | cons y r => rw [join, tildeOk_append_sep, ih]; simp

theorem map_eq_self_iff {α : Type} (f : α → α) (xs : List α) : xs.map f = xs ↔ ∀ x ∈ xs, f x = x := by
  induction xs <;> simp_all

theorem join_inj_len (xs ys : List Str) (hx : xs ≠ []) (hy : ys ≠ [])
    (h1 : ∀ x ∈ xs, (47:UInt8) ∉ x) (h2 : ∀ x ∈ ys, (47:UInt8) ∉ x)
    (h : join 47 xs = join 47 ys) : xs = ys := by
  rw [← split_join 47 xs hx h1, ← split_join 47 ys hy h2, h]

theorem toStr_new_iff (s : Str) (f : Fragment) (h : new s = .ok f) :
    toStr f = s ↔ tildeOk s = true := by
  cases s with
  | nil => simp [new, parseFragment] at h; subst h; simp [toStr, tildeOk]
  | cons c s =>
    simp only [new, parseFragment, sepByte] at h
    by_cases hc : c = 47
    · subst hc
      simp at h
      obtain ⟨t, r, hs⟩ : ∃ t r, split 47 s = t :: r := by
        cases hs : split 47 s with
        | nil => exact absurd hs (split_ne_nil _ _)
        | cons t r => exact ⟨t, r, rfl⟩
      have hns := mem_split_no_sep 47 s
      have hj := join_split 47 s
      rw [hs] at h hns hj
      rw [← h, List.map_cons, toStr_cons, tildeOk_cons_ne _ _ (by decide)]
      rw [← hj, tildeOk_join]
      simp only [List.cons.injEq, true_and]
      constructor
      · intro e
        have e := join_inj_len _ _ (by simp) (by simp) (by
          simp only [List.mem_map]; rintro x ⟨y, _, rfl⟩; exact escape_no_sep y) hns e
        rw [← List.map_cons, List.map_map, map_eq_self_iff] at e
        rw [List.all_eq_true]
        intro x hx
        rw [← escape_unesc_iff x (hns x hx), ← unescapeToken_eq]
        exact e x hx
      · intro e
        rw [List.all_eq_true] at e
        rw [← List.map_cons, List.map_map]
        congr 1
        rw [map_eq_self_iff]
        intro x hx
        have := (escape_unesc_iff x (hns x hx)).2 (e x hx)
        rw [← unescapeToken_eq] at this
        exact this
    · simp [hc] at h

end Oapi.Fragment
