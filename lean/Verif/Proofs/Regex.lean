import Verif.Model.Regex
import Verif.Spec.Regex
import Verif.Proofs.Route

/-! Proofs about the expressions of `Regex`: derivatives decide the language, and the parser reads what `Written` says. -/
namespace Oapi.Regex
open Oapi Spec Route

/-- The language of an expression. -/
inductive Lang : Re → Runes → Prop where
  | eps : Lang .eps []
  | chr {c} : Lang (.chr c) [c]
  | dot {c} : c ≠ 10 → Lang .dot [c]
  | cls {neg rs c} : inRanges c rs ≠ neg → Lang (.cls neg rs) [c]
  | cat {a b u v} : Lang a u → Lang b v → Lang (.cat a b) (u ++ v)
  | left {a b u} : Lang a u → Lang (.alt a b) u
  | right {a b u} : Lang b u → Lang (.alt a b) u
  | once {a u} : Lang a u → Lang (.plus a) u
  | again {a u v} : Lang a u → Lang (.plus a) v → Lang (.plus a) (u ++ v)
  | without {a} : Lang (.opt a) []
  | with_ {a u} : Lang a u → Lang (.opt a) u

theorem nullable_of {r : Re} {q : Runes} (h : Lang r q) : q = [] → nullable r = true := by
  induction h with
  | eps => intro _; rfl
  | chr => intro e; cases e
  | dot _ => intro e; cases e
  | cls _ => intro e; cases e
  | cat _ _ i1 i2 => intro e; obtain ⟨e1, e2⟩ := List.append_eq_nil_iff.1 e; simp [nullable, i1 e1, i2 e2]
  | left _ i => intro e; simp [nullable, i e]
  | right _ i => intro e; simp [nullable, i e]
  | once _ i => intro e; simp [nullable, i e]
  | again _ _ i _ => intro e; simp [nullable, i (List.append_eq_nil_iff.1 e).1]
  | without => intro _; rfl
  | with_ _ _ => intro _; rfl

theorem lang_nil {r : Re} (h : nullable r = true) : Lang r [] := by
  induction r with
  | none => cases h
  | eps => exact .eps
  | chr _ => cases h
  | dot => cases h
  | cls _ _ => cases h
  | cat a b ia ib => simp only [nullable, Bool.and_eq_true] at h; exact Lang.cat (u := []) (v := []) (ia h.1) (ib h.2)
  | alt a b ia ib =>
    simp only [nullable, Bool.or_eq_true] at h
    rcases h with h | h
    · exact .left (ia h)
    · exact .right (ib h)
  | plus a ia => exact .once (ia h)
  | opt a _ => exact .without

theorem lang_cat_iff {a b : Re} {q : Runes} : Lang (.cat a b) q ↔ ∃ u v, q = u ++ v ∧ Lang a u ∧ Lang b v := by
  constructor
  · intro h; cases h with | cat h1 h2 => exact ⟨_, _, rfl, h1, h2⟩
  · rintro ⟨u, v, rfl, h1, h2⟩; exact .cat h1 h2

theorem deriv_of {r : Re} {q : Runes} (h : Lang r q) : ∀ {c t}, q = c :: t → Lang (deriv c r) t := by
  induction h with
  | eps => intro c t e; cases e
  | chr => intro c t e; cases e; simp only [deriv, if_true]; exact .eps
  | dot hc => intro c t e; cases e; simp only [deriv, if_neg hc]; exact .eps
  | cls hc => intro c t e; cases e; simp only [deriv, if_neg hc]; exact .eps
  | @cat a b u v h1 h2 i1 i2 =>
    intro c t e
    cases u with
    | nil =>
      simp only [deriv, if_pos (nullable_of h1 rfl)]
      exact .right (i2 e)
    | cons d u =>
      obtain ⟨rfl, rfl⟩ : d = c ∧ u ++ v = t := by simpa using e
      have : Lang (.cat (deriv d a) b) (u ++ v) := .cat (i1 rfl) h2
      simp only [deriv]
      split
      · exact .left this
      · exact this
  | left _ i => intro c t e; exact .left (i e)
  | right _ i => intro c t e; exact .right (i e)
  | @once a u _ i => intro c t e; have := Lang.cat (i e) (Lang.without (a := .plus a)); rw [List.append_nil] at this; exact this
  | @again a u v h1 h2 i1 i2 =>
    intro c t e
    cases u with
    | nil => exact i2 e
    | cons d u =>
      obtain ⟨rfl, rfl⟩ : d = c ∧ u ++ v = t := by simpa using e
      exact .cat (i1 rfl) (.with_ h2)
  | without => intro c t e; cases e
  | with_ _ i => intro c t e; exact i e

theorem lang_cons {r : Re} {c : Nat} : ∀ {t}, Lang (deriv c r) t → Lang r (c :: t) := by
  induction r with
  | none => intro t h; cases h
  | eps => intro t h; cases h
  | chr x =>
    intro t h; simp only [deriv] at h; split at h
    · rename_i e; subst e; cases h; exact .chr
    · cases h
  | dot =>
    intro t h; simp only [deriv] at h; split at h
    · cases h
    · rename_i e; cases h; exact .dot e
  | cls neg rs =>
    intro t h; simp only [deriv] at h; split at h
    · cases h
    · rename_i e; cases h; exact .cls e
  | cat a b ia ib =>
    intro t h; simp only [deriv] at h
    have key : Lang (.cat (deriv c a) b) t → Lang (.cat a b) (c :: t) := by
      intro h; obtain ⟨u, v, rfl, h1, h2⟩ := lang_cat_iff.1 h
      exact Lang.cat (ia h1) h2
    split at h
    · rename_i hn
      cases h with
      | left h => exact key h
      | right h => exact Lang.cat (u := []) (lang_nil hn) (ib h)
    · exact key h
  | alt a b ia ib =>
    intro t h; cases h with
    | left h => exact .left (ia h)
    | right h => exact .right (ib h)
  | plus a ia =>
    intro t h; obtain ⟨u, v, rfl, h1, h2⟩ := lang_cat_iff.1 h
    cases h2 with
    | without => simpa using Lang.once (ia h1)
    | with_ h2 => exact Lang.again (ia h1) h2
  | opt a ia => intro t h; exact .with_ (ia h)

theorem full_iff (q : Runes) : ∀ r, full r q = true ↔ Lang r q := by
  induction q with
  | nil => intro r; exact ⟨lang_nil, fun h => nullable_of h rfl⟩
  | cons c t ih => intro r; rw [full, ih]; exact ⟨lang_cons, fun h => deriv_of h rfl⟩

theorem pre_iff {r : Re} {q : Runes} : pre r q = true ↔ ∃ u v, q = u ++ v ∧ Lang r u := by
  simp only [pre, List.any_eq_true, List.mem_range, full_iff]
  constructor
  · rintro ⟨i, _, h⟩; exact ⟨_, _, (List.take_append_drop i q).symm, h⟩
  · rintro ⟨u, v, rfl, h⟩; exact ⟨u.length, by simp; omega, by simpa using h⟩

theorem suf_iff {r : Re} {q : Runes} : suf r q = true ↔ ∃ u v, q = u ++ v ∧ Lang r v := by
  simp only [suf, List.any_eq_true, List.mem_range, full_iff]
  constructor
  · rintro ⟨i, _, h⟩; exact ⟨_, _, (List.take_append_drop i q).symm, h⟩
  · rintro ⟨u, v, rfl, h⟩; exact ⟨u.length, by simp; omega, by simpa using h⟩

theorem anywhere_iff {r : Re} {q : Runes} : anywhere r q = true ↔ ∃ u v w, q = u ++ v ++ w ∧ Lang r v := by
  simp only [anywhere, List.any_eq_true, List.mem_range, pre_iff]
  constructor
  · rintro ⟨i, _, v, w, e, h⟩
    exact ⟨q.take i, v, w, by rw [List.append_assoc, ← e, List.take_append_drop], h⟩
  · rintro ⟨u, v, w, rfl, h⟩; exact ⟨u.length, by simp; omega, v, w, by simp, h⟩

theorem later_iff {q : Runes} : ∀ l : List Re, later l q = true ↔
    (∃ m ∈ l.dropLast, ∃ u v w, q = u ++ v ++ w ∧ Lang m v) ∨ ∃ z, l.getLast? = some z ∧ ∃ u v, q = u ++ v ∧ Lang z v
  | [] => by simp [later]
  | [z] => by simp [later, suf_iff]
  | m :: a :: t => by
    have ih := later_iff (q := q) (a :: t)
    simp only [later, Bool.or_eq_true, anywhere_iff, ih, List.dropLast_cons₂, List.mem_cons, List.getLast?_cons_cons]
    constructor
    · rintro (h | ⟨x, hx, h⟩ | h)
      · exact .inl ⟨m, .inl rfl, h⟩
      · exact .inl ⟨x, .inr hx, h⟩
      · exact .inr h
    · rintro (⟨x, rfl | hx, h⟩ | h)
      · exact .inl h
      · exact .inr (.inl ⟨x, hx, h⟩)
      · exact .inr (.inr h)

/-! ### From `Expr` -/

/-- The expression of an expression. -/
def tr : Expr → Re
  | .nothing => .eps
  | .char c => .chr c
  | .anyChar => .dot
  | .oneOf rs => .cls false rs
  | .noneOf rs => .cls true rs
  | .seq a b => .cat (tr a) (tr b)
  | .either a b => .alt (tr a) (tr b)
  | .many a => .plus (tr a)
  | .maybe a => .opt (tr a)

theorem inRanges_iff {c : Nat} {rs : List (Nat × Nat)} : inRanges c rs = true ↔ ∃ r ∈ rs, r.1 ≤ c ∧ c ≤ r.2 := by
  simp [inRanges]

theorem lang_of {e : Expr} {q : Runes} (h : StandsFor e q) : Lang (tr e) q := by
  induction h with
  | nothing => exact .eps
  | char => exact .chr
  | anyChar h => exact .dot h
  | oneOf h => exact .cls (by rw [inRanges_iff.2 h]; decide)
  | noneOf h => exact .cls fun e => h (inRanges_iff.1 e)
  | seq _ _ i1 i2 => exact .cat i1 i2
  | left _ i => exact .left i
  | right _ i => exact .right i
  | once _ i => exact .once i
  | again _ _ i1 i2 => exact .again i1 i2
  | without => exact .without
  | with_ _ i => exact .with_ i

theorem many_of {a : Expr} (ih : ∀ u, Lang (tr a) u → StandsFor a u) {r : Re} {q : Runes} (h : Lang r q) :
    r = .plus (tr a) → StandsFor (.many a) q := by
  induction h with
  | once h _ => intro e; cases e; exact .once (ih _ h)
  | again h _ _ i => intro e; cases e; exact .again (ih _ h) (i rfl)
  | _ => intro e; cases e

theorem denotes_of : ∀ (e : Expr) (q : Runes), Lang (tr e) q → StandsFor e q := by
  intro e
  induction e with
  | nothing => intro q h; cases h; exact .nothing
  | char c => intro q h; cases h; exact .char
  | anyChar => intro q h; cases h with | dot h => exact .anyChar h
  | oneOf rs => intro q h; cases h with | cls h => exact .oneOf (inRanges_iff.1 (by simpa using h))
  | noneOf rs => intro q h; cases h with | cls h => exact .noneOf fun e => h (inRanges_iff.2 e)
  | seq a b ia ib => intro q h; obtain ⟨u, v, rfl, h1, h2⟩ := lang_cat_iff.1 h; exact .seq (ia _ h1) (ib _ h2)
  | either a b ia ib =>
    intro q h; cases h with
    | left h => exact .left (ia _ h)
    | right h => exact .right (ib _ h)
  | many a ia => intro q h; exact many_of ia h rfl
  | maybe a ia =>
    intro q h; cases h with
    | without => exact .without
    | with_ h => exact .with_ (ia _ h)

theorem lang_tr {e : Expr} {q : Runes} : Lang (tr e) q ↔ StandsFor e q := ⟨denotes_of e q, lang_of⟩

/-! ### Reading -/

theorem run_cons (f : Frame) (st : List Frame) (c : Nat) (t : Runes) : run 0 f st (c :: t) =
    if (ascii b!"(.*)").isPrefixOf (c :: t) then run 3 (f.push (.opt (.plus .dot), false)) st t
    else if c = 92 then
      match t with
      | d :: _ => if decide (d < 128) && !isAlnum d then run 1 (f.push (.chr d, false)) st t
        else match perl d with
          | some x => run 1 (f.push (x, false)) st t
          | Option.none => Option.none
      | [] => Option.none
    else if c = 46 then run 0 (f.push (.dot, false)) st t
    else if c = 91 then
      match cls t with
      | some (neg, rs, k) => run k (f.push (.cls neg rs, false)) st t
      | Option.none => Option.none
    else if c = 40 then
      if t.head? = some 63 ∨ limit ≤ st.length then Option.none else run 0 {} (f :: st) t
    else if c = 41 then
      match st with
      | g :: st => run 0 (g.push (alternate f.close, false)) st t
      | [] => Option.none
    else if c = 124 then run 0 { alts := f.close } st t
    else if c = 43 ∨ c = 63 then
      match f.cur with
      | (x, false) :: r => run 0 { f with cur := ((if c = 43 then .plus x else .opt x), true) :: r } st t
      | _ => Option.none
    else if special c then Option.none
    else run 0 (f.push (.chr c, false)) st t := by
  cases st <;> rfl

theorem run_skip (f : Frame) (st : List Frame) (u r : Runes) : run u.length f st (u ++ r) = run 0 f st r := by
  induction u with
  | nil => rfl
  | cons c u ih => cases st <;> exact ih

theorem run_end (f : Frame) : run 0 f [] [] = some f.close := rfl

theorem not_group {c : Nat} (h : c ≠ 40) (t : Runes) :
    (ascii b!"(.*)").isPrefixOf (c :: t) = false := not_prefix_of_ne h _ t

theorem run_chr {c : Nat} (h : special c = false) (f : Frame) (st : List Frame) (t : Runes) :
    run 0 f st (c :: t) = run 0 (f.push (.chr c, false)) st t := by
  have hne : ∀ x, special x = true → c ≠ x := by rintro x hx rfl; rw [h] at hx; cases hx
  have h40 := hne 40 rfl
  have : ¬ (c = 43 ∨ c = 63) := by rintro (e | e); exact hne 43 rfl e; exact hne 63 rfl e
  rw [run_cons, not_group h40 t]
  simp only [Bool.false_eq_true, if_false, if_neg (hne 92 rfl), if_neg (hne 46 rfl), if_neg (hne 91 rfl), if_neg h40, if_neg (hne 41 rfl), if_neg (hne 124 rfl),
    if_neg this, h]

theorem run_esc {c : Nat} (h : special c = true) (f : Frame) (st : List Frame) (t : Runes) :
    run 0 f st (92 :: c :: t) = run 0 (f.push (.chr c, false)) st t := by
  have hc : (decide (c < 128) && !isAlnum c) = true := by
    have : Meta c := (special_iff c).1 h
    simp only [Meta, List.mem_cons, List.not_mem_nil, or_false] at this
    rcases this with e | e | e | e | e | e | e | e | e | e | e | e | e | e <;> subst e <;> decide
  rw [run_cons, not_group (by decide) _]
  simp only [Bool.false_eq_true, if_false, if_true, hc]
  exact run_skip _ st [c] t

theorem run_dot (f : Frame) (st : List Frame) (t : Runes) : run 0 f st (46 :: t) = run 0 (f.push (.dot, false)) st t := by
  rw [run_cons, not_group (by decide) _]; rfl

theorem run_close (f g : Frame) (st : List Frame) (t : Runes) :
    run 0 f (g :: st) (41 :: t) = run 0 (g.push (alternate f.close, false)) st t := by
  rw [run_cons, not_group (by decide) _]; rfl

theorem run_bar (f : Frame) (st : List Frame) (t : Runes) : run 0 f st (124 :: t) = run 0 { alts := f.close } st t := by
  rw [run_cons, not_group (by decide) _]; rfl

theorem run_plus (f : Frame) (x : Re) (st : List Frame) (t : Runes) :
    run 0 (f.push (x, false)) st (43 :: t) = run 0 (f.push (.plus x, true)) st t := by
  rw [run_cons, not_group (by decide) _]; rfl

theorem run_question (f : Frame) (x : Re) (st : List Frame) (t : Runes) :
    run 0 (f.push (x, false)) st (63 :: t) = run 0 (f.push (.opt x, true)) st t := by
  rw [run_cons, not_group (by decide) _]; rfl

theorem run_star (f : Frame) (st : List Frame) (t : Runes) :
    run 0 f st (ascii b!"(.*)" ++ t) = run 0 (f.push (.opt (.plus .dot), false)) st t := by
  show run 0 f st (40 :: (ascii b!".*)" ++ t)) = _
  rw [run_cons, if_pos (by rfl)]
  exact run_skip _ st (ascii b!".*)") t

theorem run_open {f : Frame} {st : List Frame} {t : Runes} (h2 : t.head? ≠ some 63)
    (h3 : ∀ r, t ≠ 46 :: 42 :: r) (hst : st.length < limit) : run 0 f st (40 :: t) = run 0 {} (f :: st) t := by
  have e2 : (ascii b!"(.*)").isPrefixOf (40 :: t) = false := by
    cases t with
    | nil => rfl
    | cons a t =>
      cases t with
      | nil => show ((40 == 40) && ((46 == a) && false)) = false; simp
      | cons b t =>
        show ((40 == 40) && ((46 == a) && ((42 == b) && _))) = false
        by_cases ha : a = 46
        · have : (42 == b) = false := by simp only [beq_eq_false_iff_ne]; rintro rfl; exact h3 t (by rw [ha])
          rw [this]; simp
        · have : (46 == a) = false := by simp only [beq_eq_false_iff_ne]; exact fun e => ha e.symm
          rw [this]; rfl
  have e3 : ¬ (t.head? = some 63 ∨ limit ≤ st.length) := by rintro (h | h); exact h2 h; omega
  rw [run_cons, e2]
  simp only [Bool.false_eq_true, if_false, if_neg e3]
  rfl

/-! Character classes. -/

theorem ranges_skip (u r : Runes) : ranges u.length (u ++ r) = (ranges 0 r).map fun x => (x.1, x.2 + u.length) := by
  induction u with
  | nil => simp
  | cons c u ih =>
    show (ranges u.length (u ++ r)).map _ = _
    rw [ih, Option.map_map]
    cases ranges 0 r with
    | none => rfl
    | some x => simp; omega

theorem ranges_cons (c : Nat) (t : Runes) : ranges 0 (c :: t) =
    if c = 93 then some ([], 1)
    else if c = 91 ∨ c = 92 then Option.none
    else match t with
      | 45 :: e :: _ =>
        if e = 93 then (ranges 0 t).map fun r => ((c, c) :: r.1, r.2 + 1)
        else if e = 91 ∨ e = 92 ∨ e < c then Option.none
        else (ranges 2 t).map fun r => ((c, e) :: r.1, r.2 + 1)
      | _ => (ranges 0 t).map fun r => ((c, c) :: r.1, r.2 + 1) := rfl

theorem ranges_of {s : Runes} {rs : List (Nat × Nat)} (h : Ranges s rs) (r : Runes) : ranges 0 (s ++ 93 :: r) = some (rs, s.length + 1) := by
  induction h with
  | nil => rfl
  | @one c s rs hc hs _ ih =>
    rw [List.cons_append, ranges_cons, if_neg (fun e => hc (.inr (.inr e))),
      if_neg (fun e => hc (e.elim .inl fun e => .inr (.inl e)))]
    have key : (ranges 0 (s ++ 93 :: r)).map (fun r => ((c, c) :: r.1, r.2 + 1)) = some ((c, c) :: rs, (c :: s).length + 1) := by
      rw [ih]; rfl
    split
    · rename_i e u he
      have : e = 93 := by
        cases s with
        | nil => cases he
        | cons d s =>
          cases s with
          | nil => simp at he; exact he.2.1.symm
          | cons x s => simp at he; obtain ⟨rfl, rfl, _⟩ := he; exact absurd rfl (hs _ _)
      rw [if_pos this]; exact key
    · exact key
  | @range a b s rs ha hb hab _ ih =>
    show ranges 0 (a :: 45 :: b :: (s ++ 93 :: r)) = _
    rw [ranges_cons, if_neg (fun e => ha (.inr (.inr e))), if_neg (fun e => ha (e.elim .inl fun e => .inr (.inl e)))]
    show (if b = 93 then _ else if b = 91 ∨ b = 92 ∨ b < a then _ else _) = _
    rw [if_neg (fun e => hb (.inr (.inr e))), if_neg (by
      rintro (e | e | e)
      · exact hb (.inl e)
      · exact hb (.inr (.inl e))
      · omega)]
    have := ranges_skip [45, b] (s ++ 93 :: r)
    rw [ih] at this
    have e : ranges 2 (45 :: b :: (s ++ 93 :: r)) = some (rs, s.length + 1 + 2) := this
    rw [e]
    rfl

theorem ranges_head {s : Runes} {rs : List (Nat × Nat)} (h : Ranges s rs) (hs : s ≠ []) (r : Runes) : (s ++ r).head? ≠ some 93 := by
  cases h with
  | nil => exact absurd rfl hs
  | one hc _ _ => intro e; exact hc (.inr (.inr (by simpa using e)))
  | range hc _ _ _ => intro e; exact hc (.inr (.inr (by simpa using e)))

theorem run_class {t : Runes} {neg : Bool} {rs : List (Nat × Nat)} {k : Nat} (h : cls t = some (neg, rs, k)) (f : Frame) (st : List Frame) :
    run 0 f st (91 :: t) = run k (f.push (.cls neg rs, false)) st t := by
  rw [run_cons, not_group (by decide) _]
  simp only [Bool.false_eq_true, if_false, if_true, h]
  rfl

theorem run_oneOf {s : Runes} {rs : List (Nat × Nat)} (h : Ranges s rs) (hs : s ≠ []) (h94 : s.head? ≠ some 94) (f : Frame) (st : List Frame)
    (r : Runes) : run 0 f st (91 :: s ++ [93] ++ r) = run 0 (f.push (.cls false rs, false)) st r := by
  have e : 91 :: s ++ [93] ++ r = 91 :: (s ++ 93 :: r) := by simp
  have e2 : (s ++ 93 :: r).head? ≠ some 94 := by
    cases s with
    | nil => exact absurd rfl hs
    | cons a s => exact h94
  rw [e, run_class (neg := false) (rs := rs) (k := s.length + 1)]
  · have := run_skip (f.push (.cls false rs, false)) st (s ++ [93]) r
    simpa using this
  · rw [cls, if_neg e2, if_neg (ranges_head h hs _), ranges_of h]; rfl

theorem run_noneOf {s : Runes} {rs : List (Nat × Nat)} (h : Ranges s rs) (hs : s ≠ []) (f : Frame) (st : List Frame)
    (r : Runes) : run 0 f st (91 :: 94 :: s ++ [93] ++ r) = run 0 (f.push (.cls true rs, false)) st r := by
  have e : 91 :: 94 :: s ++ [93] ++ r = 91 :: 94 :: (s ++ 93 :: r) := by simp
  rw [e, run_class (neg := true) (rs := rs) (k := s.length + 1 + 1)]
  · have := run_skip (f.push (.cls true rs, false)) st (94 :: s ++ [93]) r
    simpa using this
  · rw [cls, if_pos (by rfl)]
    show (if (s ++ 93 :: r).head? = some 93 then _ else (ranges 0 (s ++ 93 :: r)).map _) = _
    rw [if_neg (ranges_head h hs _), ranges_of h]; rfl

theorem run_perl {d : Nat} {e : Expr} (h : Perl d e) (f : Frame) (st : List Frame) (t : Runes) :
    run 0 f st (92 :: d :: t) = run 0 (f.push (tr e, false)) st t := by
  rw [run_cons, not_group (by decide) _]
  cases h <;> exact run_skip _ st [_] t

/-- The expression of a variable. -/
def seg : Re := .cat (.plus (.cls true [(47, 47)])) .eps

theorem run_seg (f : Frame) (st : List Frame) (t : Runes) (hst : st.length < limit) :
    run 0 f st (ascii b!"([^/]+)" ++ t) = run 0 (f.push (seg, false)) st t := by
  show run 0 f st (40 :: (ascii b!"[^/]+)" ++ t)) = _
  rw [run_open (by show some 91 ≠ _; decide) (by intro r e; cases e) hst]
  show run 0 {} (f :: st) (91 :: 94 :: [47] ++ [93] ++ (43 :: 41 :: t)) = _
  rw [run_noneOf (rs := [(47, 47)]) (.one (by simp [NoClass]) (by simp) .nil) (by simp), run_plus, run_close]
  rfl

/-- What a written text starts with. -/
theorem written_head {l : Level} {n : Nat} {s : Runes} {e : Expr} (h : Written l n s e) :
    s = [] ∨ ∃ c t, s = c :: t ∧ c ≠ 42 ∧ (c = 63 → l = .rep ∧ False) := by
  induction h with
  | @char n c hc =>
    refine .inr ⟨c, [], rfl, ?_, ?_⟩
    · rintro rfl; exact hc (by simp [Meta])
    · rintro rfl; exact absurd (by simp [Meta]) hc
  | @escaped n c _ => exact .inr ⟨92, [c], rfl, by decide, fun h => by cases h⟩
  | perl _ => exact .inr ⟨92, _, rfl, by decide, fun h => by cases h⟩
  | oneOf _ _ _ => exact .inr ⟨91, _, rfl, by decide, fun h => by cases h⟩
  | noneOf _ _ => exact .inr ⟨91, _, rfl, by decide, fun h => by cases h⟩
  | dot => exact .inr ⟨46, [], rfl, by decide, fun h => by cases h⟩
  | group _ _ => exact .inr ⟨40, _, rfl, by decide, fun h => by cases h⟩
  | item _ i =>
    rcases i with i | ⟨c, t, e, h1, h3⟩
    · exact .inl i
    · exact .inr ⟨c, t, e, h1, fun h => ⟨rfl, (h3 h).2⟩⟩
  | plus hi i =>
    rcases i with i | ⟨c, t, e, h1, h3⟩
    · subst i; cases hi
    · exact .inr ⟨c, t ++ [43], by rw [e]; rfl, h1, fun h => ⟨rfl, (h3 h).2⟩⟩
  | question hi i =>
    rcases i with i | ⟨c, t, e, h1, h3⟩
    · subst i; cases hi
    · exact .inr ⟨c, t ++ [63], by rw [e]; rfl, h1, fun h => ⟨rfl, (h3 h).2⟩⟩
  | empty => exact .inl rfl
  | cons _ _ i1 i2 =>
    rcases i1 with i | ⟨c, t, e, h1, h3⟩
    · subst i
      rcases i2 with i | ⟨c, t, e, h1, h3⟩
      · exact .inl (by rw [i]; rfl)
      · exact .inr ⟨c, t, by rw [e]; rfl, h1, fun h => absurd (h3 h).2 id⟩
    · exact .inr ⟨c, _, by rw [e]; rfl, h1, fun h => absurd (h3 h).2 id⟩
  | one _ i =>
    rcases i with i | ⟨c, t, e, h1, h3⟩
    · exact .inl i
    · exact .inr ⟨c, t, e, h1, fun h => absurd (h3 h).2 id⟩
  | more _ _ i _ =>
    rcases i with i | ⟨c, t, e, h1, h3⟩
    · exact .inr ⟨124, _, by rw [i]; rfl, by decide, fun h => by cases h⟩
    · exact .inr ⟨c, _, by rw [e]; rfl, h1, fun h => absurd (h3 h).2 id⟩

theorem head_ne {l : Level} {n : Nat} {s : Runes} {e : Expr} (h : Written l n s e) {x : Nat} (hx : x = 42 ∨ x = 63) {r : Runes}
    (hr : r.head? ≠ some x) : (s ++ r).head? ≠ some x := by
  rcases written_head h with e | ⟨c, t, e, h1, h3⟩
  · subst e; exact hr
  · subst e
    intro h; have h : c = x := by simpa using h
    subst h
    rcases hx with e | e
    · exact h1 e
    · exact (h3 e).2

/-- Nothing written looks like the expression of a star. -/
theorem no_star {l : Level} {n : Nat} {s : Runes} {e : Expr} (h : Written l n s e) :
    ∀ {r : Runes}, r.head? ≠ some 42 → (∀ t, r ≠ 46 :: 42 :: t) → ∀ t, s ++ r ≠ 46 :: 42 :: t := by
  induction h with
  | char hc => intro r _ _ t e; cases e; exact hc (by simp [Meta])
  | escaped _ => intro r _ _ t e; cases e
  | dot => intro r h _ t e; cases e; exact h rfl
  | perl _ => intro r _ _ t e; cases e
  | oneOf _ _ _ => intro r _ _ t e; cases e
  | noneOf _ _ => intro r _ _ t e; cases e
  | group _ _ => intro r _ _ t e; cases e
  | item _ i => exact i
  | plus _ i => intro r _ _ t e; rw [List.append_assoc] at e; exact i (by simp) (by simp) t e
  | question _ i => intro r _ _ t e; rw [List.append_assoc] at e; exact i (by simp) (by simp) t e
  | empty => intro r _ h; exact h
  | cons _ h2 i1 i2 => intro r ha hb t e; rw [List.append_assoc] at e; exact i1 (head_ne h2 (.inl rfl) ha) (i2 ha hb) t e
  | one _ i => exact i
  | more _ _ i _ => intro r _ _ t e; rw [List.append_assoc] at e; exact i (by simp) (by simp) t e

theorem concat_snoc (its : List (Re × Bool)) (x : Re × Bool) : concat (its ++ [x]) = .cat x.1 (concat its) := by
  simp [concat]

theorem alternate_cons {l : List Re} (h : l ≠ []) (e : Re) : alternate (e :: l) = .alt e (alternate l) := by
  cases l with
  | nil => exact absurd rfl h
  | cons a t => rfl

/-- What reading a written text does to the parser, level by level. -/
def ReadsAs : Level → Nat → Runes → Expr → Prop
  | .item, n, s, e => ∀ (f : Frame) st r, st.length + n ≤ limit → run 0 f st (s ++ r) = run 0 (f.push (tr e, false)) st r
  | .rep, n, s, e => ∃ b, ∀ (f : Frame) st r, st.length + n ≤ limit → run 0 f st (s ++ r) = run 0 (f.push (tr e, b)) st r
  | .seq, n, s, e => ∃ its, concat its = tr e ∧ ∀ (f : Frame) st r, st.length + n ≤ limit →
      run 0 f st (s ++ r) = run 0 { f with cur := its ++ f.cur } st r
  | .alts, n, s, e => ∃ l, l ≠ [] ∧ alternate l = tr e ∧ ∀ a st r, st.length + n ≤ limit →
      ∃ f' : Frame, f'.close = a ++ l ∧ run 0 { alts := a } st (s ++ r) = run 0 f' st r

theorem reads_as {l : Level} {n : Nat} {s : Runes} {e : Expr} (h : Written l n s e) : ReadsAs l n s e := by
  induction h with
  | char hc => intro f st r _; exact run_chr (by rw [← Bool.not_eq_true, special_iff]; exact hc) f st r
  | escaped hc => intro f st r _; exact run_esc ((special_iff _).2 hc) f st r
  | dot => intro f st r _; exact run_dot f st r
  | perl h => intro f st r _; exact run_perl h f st r
  | oneOf hs h94 h => intro f st r _; exact run_oneOf h hs h94 f st r
  | noneOf hs h => intro f st r _; exact run_noneOf h hs f st r
  | @group n s e hw i =>
    intro f st r hl
    obtain ⟨l, hl0, hl1, hrun⟩ := i
    obtain ⟨f', hf, hr⟩ := hrun [] (f :: st) (41 :: r) (by simp only [List.length_cons]; omega)
    have e1 : (40 :: s ++ [41]) ++ r = 40 :: (s ++ 41 :: r) := by simp
    rw [e1, run_open (head_ne hw (.inr rfl) (by simp)) (no_star hw (by simp) (by simp)) (by omega),
      hr, run_close, hf, List.nil_append, hl1]
  | item _ i => exact ⟨false, i⟩
  | plus _ i =>
    refine ⟨true, fun f st r hl => ?_⟩
    rw [List.append_assoc, i f st _ hl]; exact run_plus f _ st r
  | question _ i =>
    refine ⟨true, fun f st r hl => ?_⟩
    rw [List.append_assoc, i f st _ hl]; exact run_question f _ st r
  | empty => exact ⟨[], rfl, fun f st r _ => rfl⟩
  | cons _ _ i1 i2 =>
    obtain ⟨b, h1⟩ := i1
    obtain ⟨its, hc, h2⟩ := i2
    refine ⟨its ++ [(_, b)], by rw [concat_snoc, hc]; rfl, fun f st r hl => ?_⟩
    rw [List.append_assoc, h1 f st _ hl, h2 _ st r hl]
    simp [Frame.push]
  | one _ i =>
    obtain ⟨its, hc, h⟩ := i
    refine ⟨[concat its], by simp, by rw [hc]; rfl, fun a st r hl => ⟨_, ?_, h _ st r hl⟩⟩
    simp [Frame.close]
  | more _ _ i1 i2 =>
    obtain ⟨its, hc, h1⟩ := i1
    obtain ⟨l, hl0, hl1, h2⟩ := i2
    refine ⟨concat its :: l, by simp, by rw [alternate_cons hl0, hl1, hc]; rfl, fun a st r hl => ?_⟩
    obtain ⟨f', hf, hr⟩ := h2 (a ++ [concat its]) st r hl
    refine ⟨f', by rw [hf]; simp, ?_⟩
    rw [List.append_assoc, h1 _ st _ hl]
    show run 0 _ st (124 :: (_ ++ r)) = _
    rw [run_bar, ← hr]
    simp [Frame.close]

end Oapi.Regex
