import Verif.Proofs.Regex2

/-! Property C118: the text behind the last variable of a route pattern is an expression.  `rest` is the (unmodelled) behaviour of expressions
that `Regex.behaviour` does not read; the theorems hold for every such behaviour. -/
namespace Oapi.Props
open Oapi Spec Route Regex

/-- C118: a pattern without method prefix whose last text is written with items, groups, repetitions and alternatives matches exactly the
paths that these accept behind what the rest of the pattern describes. -/
theorem C118_expression_at_the_end (rest : Runes → Option Regexp) {p q : List Nat} (hp : ∀ n ∈ p, Scalar n) (hq : ∀ n ∈ q, Scalar n)
    (hu : Unprefixed p) {ts : List Tok} (hr : Reads p ts) {l : List Nat} (hl : LastText ts l) {n : Nat} {es : List Expr}
    (hc : Choices n l es) (hn : n ≤ 400) (method : Str) :
    ∃ b, matchPure (behaviour rest) (utf8s p) method (utf8s q) = .ok b ∧ (b = true ↔ Accepts ts.dropLast es q) := by
  have h1 : prepare (utf8s p) method = .need (rexp ts) := by
    simp only [prepare, stripMethod_none hp hu, validRunes_utf8s hp, toRegexp_reads hr]
    simp
  obtain ⟨its, e, es', rfl, hcat, hrun⟩ := run_choices hc hn
  have h2 := run_head hr hl {}
  rw [hrun] at h2
  obtain ⟨g, hg, hpath⟩ := compile_run rest h2
  refine ⟨g (utf8s q), by simp only [matchPure, h1, hg], ?_⟩
  rw [hpath, runes_utf8s hq]
  simpa using anchored_iff hcat q

theorem plain_of {s : List Nat} (h : ∀ r ∈ s, r ≠ 42 ∧ r ≠ 123) : PlainText s := by
  intro u v m e
  constructor
  · rintro rfl; exact (h 42 (by rw [e]; simp)).1 rfl
  · rintro n _ rfl; exact (h 123 (by rw [e]; simp)).2 rfl

theorem written_plain {n : Nat} : ∀ {s : List Nat}, (∀ r ∈ s, ¬ Meta r) → ∃ e, Written .seq n s e ∧ ∀ q, StandsFor e q ↔ q = s := by
  intro s
  induction s with
  | nil => intro _; exact ⟨.nothing, .empty, fun q => ⟨fun h => by cases h; rfl, by rintro rfl; exact .nothing⟩⟩
  | cons c s ih =>
    intro h
    obtain ⟨e, he, hd⟩ := ih fun r hr => h r (by simp [hr])
    refine ⟨.seq (.char c) e, Written.cons (s := [c]) (.item (.char (h c (by simp)))) he, fun q => ⟨?_, ?_⟩⟩
    · intro hq; cases hq with
      | seq h1 h2 => cases h1; rw [(hd _).1 h2]; rfl
    · rintro rfl; exact StandsFor.seq (u := [c]) .char ((hd s).2 rfl)

/-- C118: a bar between two plain texts: the first one need only be the beginning of the path, the second one only its end. -/
theorem C118_bar_opens_the_pattern (rest : Runes → Option Regexp) {a b q : List Nat} (ha : ∀ n ∈ a, Scalar n ∧ ¬ Meta n)
    (hb : ∀ n ∈ b, Scalar n ∧ ¬ Meta n) (hq : ∀ n ∈ q, Scalar n) (hu : Unprefixed (a ++ 124 :: b)) (method : Str) :
    ∃ x, matchPure (behaviour rest) (utf8s (a ++ 124 :: b)) method (utf8s q) = .ok x ∧ (x = true ↔ a <+: q ∨ b <:+ q) := by
  have hmem : ∀ n ∈ a ++ 124 :: b, Scalar n ∧ (n = 124 ∨ ¬ Meta n) := by
    intro n hn
    simp only [List.mem_append, List.mem_cons] at hn
    rcases hn with h | rfl | h
    · exact ⟨(ha n h).1, .inr (ha n h).2⟩
    · exact ⟨.inl (by decide), .inl rfl⟩
    · exact ⟨(hb n h).1, .inr (hb n h).2⟩
  have hpl : PlainText (a ++ 124 :: b) := plain_of fun r hr => by
    rcases (hmem r hr).2 with rfl | h
    · exact ⟨by decide, by decide⟩
    · exact ⟨by rintro rfl; exact h (by simp [Meta]), by rintro rfl; exact h (by simp [Meta])⟩
  obtain ⟨e1, w1, d1⟩ := written_plain (n := 0) fun r hr => (ha r hr).2
  obtain ⟨e2, w2, d2⟩ := written_plain (n := 0) fun r hr => (hb r hr).2
  obtain ⟨x, hx, hi⟩ := C118_expression_at_the_end rest (fun n hn => (hmem n hn).1) hq hu (.last hpl) (l := a ++ 124 :: b) rfl
    (.more w1 (.one w2)) (Nat.zero_le _) method
  refine ⟨x, hx, hi.trans ?_⟩
  simp only [Accepts, d1, d2]
  constructor
  · rintro (⟨u, v, w, rfl, hd, rfl⟩ | ⟨m, hm, _⟩ | ⟨z, hz, u, v, rfl, hv⟩)
    · cases hd; exact .inl ⟨w, rfl⟩
    · cases hm
    · cases hz; have hv : StandsFor e2 v := hv; rw [d2] at hv; subst hv; exact .inr ⟨u, rfl⟩
  · rintro (⟨w, rfl⟩ | ⟨u, rfl⟩)
    · exact .inl ⟨[], a, w, rfl, .nil, rfl⟩
    · exact .inr (.inr ⟨e2, rfl, u, b, rfl, (d2 _).2 rfl⟩)

theorem items_var (ts : List Tok) (n : List Nat) : itemsOf (ts ++ [.var n]) = (seg, false) :: itemsOf ts := by
  induction ts with
  | nil => rfl
  | cons t ts ih => cases t <;> simp [itemsOf, ih]

theorem lastText_snoc (l : List Nat) : ∀ ts : List Tok, LastText (ts ++ [.text l]) l
  | [] => rfl
  | [a] => by cases a <;> rfl
  | a :: b :: ts => by
    have := lastText_snoc l (b :: ts)
    cases a <;> exact this

/-- C118: a '?' behind the last variable is no text: it makes the variable optional. -/
theorem C118_question_makes_variable_optional (rest : Runes → Option Regexp) {p q : List Nat} (hp : ∀ n ∈ p, Scalar n)
    (hq : ∀ n ∈ q, Scalar n) (hu : Unprefixed p) {ts : List Tok} {name : List Nat} (hr : Reads p (ts ++ [.var name, .text [63]])) (method : Str) :
    ∃ b, matchPure (behaviour rest) (utf8s p) method (utf8s q) = .ok b ∧
      (b = true ↔ Describes ts q ∨ Describes (ts ++ [.var name]) q) := by
  have h1 : prepare (utf8s p) method = .need (rexp (ts ++ [.var name, .text [63]])) := by
    simp only [prepare, stripMethod_none hp hu, validRunes_utf8s hp, toRegexp_reads hr]
    simp
  have e0 : ts ++ [Tok.var name, Tok.text [63]] = (ts ++ [Tok.var name]) ++ [Tok.text [63]] := by simp
  have hl : LastText (ts ++ [.var name, .text [63]]) [63] := by rw [e0]; exact lastText_snoc _ _
  have h2 := run_head hr hl {}
  have e1 : (ts ++ [Tok.var name, Tok.text [63]]).dropLast = ts ++ [.var name] := by rw [e0]; exact List.dropLast_concat
  rw [e1, items_var] at h2
  have h3 : run 0 {} [] (rexp (ts ++ [.var name, .text [63]])) = some [concat ((.opt seg, true) :: itemsOf ts)] := by
    rw [h2, show ({} : Frame).cur = [] from rfl, List.append_nil]
    show run 0 (Frame.push { cur := itemsOf ts } (seg, false)) [] [63] = _
    rw [run_question]
    simp [run_end, Frame.push, Frame.close]
  obtain ⟨g, hg, hpath⟩ := compile_run rest h3
  refine ⟨g (utf8s q), by simp only [matchPure, h1, hg], ?_⟩
  rw [hpath, runes_utf8s hq]
  show full _ q = true ↔ _
  have e2 : ∀ x, concat (x :: itemsOf ts) = before (itemsOf ts) (concat [x]) := fun x => concat_append [x] (itemsOf ts)
  have key : ∀ q, Lang (before (itemsOf ts) (concat [(seg, false)])) q ↔ Describes (ts ++ [.var name]) q := by
    intro q
    rw [← e2, ← items_var ts name]
    have := lang_items (ts ++ [.var name]) .eps q
    rw [show concat (itemsOf (ts ++ [.var name])) = before (itemsOf (ts ++ [.var name])) .eps from concat_append [] _, this]
    constructor
    · rintro ⟨u, v, rfl, h, hv⟩; cases hv; simpa using h
    · intro h; exact ⟨q, [], by simp, h, .eps⟩
  rw [full_iff, e2, ← key, lang_items, lang_items]
  have hcat : ∀ (r : Re) (b : Bool) (v : Runes), Lang (concat [(r, b)]) v ↔ Lang r v := by
    intro r b v
    show Lang (.cat r .eps) v ↔ _
    rw [lang_cat_iff]
    constructor
    · rintro ⟨x, y, rfl, h, hy⟩; cases hy; simpa using h
    · intro h; exact ⟨v, [], by simp, h, .eps⟩
  simp only [hcat]
  constructor
  · rintro ⟨u, v, rfl, hd, h⟩
    cases h with
    | without => exact .inl (by simpa using hd)
    | with_ h => exact .inr ⟨u, v, rfl, hd, h⟩
  · rintro (h | ⟨u, v, rfl, hd, h⟩)
    · exact ⟨q, [], by simp, h, .without⟩
    · exact ⟨u, v, rfl, hd, .with_ h⟩

theorem choices_of {l : Level} {n : Nat} {s : List Nat} {e : Expr} (h : Written l n s e) : l = .alts → ∃ es, Choices n s es := by
  induction h with
  | one h _ => intro _; exact ⟨_, .one h⟩
  | more h _ _ ih => intro _; obtain ⟨es, hes⟩ := ih rfl; exact ⟨_, .more h hes⟩
  | _ => intro e; cases e

/-- C118: a text written as alternatives can be split at its bars outside groups. -/
theorem C118_alternatives_are_choices {n : Nat} {s : List Nat} {e : Expr} (h : Written .alts n s e) : ∃ es, Choices n s es := choices_of h rfl

theorem written_append {n : Nat} {t : List Nat} {b : Expr} (hb : Written .seq n t b) : ∀ {s : List Nat}, (∀ r ∈ s, ¬ Meta r) →
    ∃ e, Written .seq n (s ++ t) e ∧ ∀ q, StandsFor e q ↔ ∃ v, q = s ++ v ∧ StandsFor b v := by
  intro s
  induction s with
  | nil => intro _; exact ⟨b, hb, fun q => ⟨fun h => ⟨q, rfl, h⟩, by rintro ⟨v, rfl, h⟩; exact h⟩⟩
  | cons c s ih =>
    intro h
    obtain ⟨e, he, hd⟩ := ih fun r hr => h r (by simp [hr])
    refine ⟨.seq (.char c) e, Written.cons (s := [c]) (.item (.char (h c (by simp)))) he, fun q => ⟨?_, ?_⟩⟩
    · intro hq; cases hq with
      | seq h1 h2 => cases h1; obtain ⟨v, rfl, h⟩ := (hd _).1 h2; exact ⟨v, rfl, h⟩
    · rintro ⟨v, rfl, h⟩; exact StandsFor.seq (u := [c]) .char ((hd _).2 ⟨v, rfl, h⟩)

/-- C118: brackets in a pattern without variables stand for one character: any of those between them. -/
theorem C118_brackets (rest : Runes → Option Regexp) {a b s q : List Nat} {rs : List (Nat × Nat)} (ha : ∀ n ∈ a, Scalar n ∧ ¬ Meta n)
    (hb : ∀ n ∈ b, Scalar n ∧ ¬ Meta n) (hs : ∀ n ∈ s, Scalar n ∧ n ≠ 42 ∧ n ≠ 123) (hne : s ≠ []) (h94 : s.head? ≠ some 94) (hr : Ranges s rs)
    (hq : ∀ n ∈ q, Scalar n) (hu : Unprefixed (a ++ (91 :: s ++ [93]) ++ b)) (method : Str) :
    ∃ x, matchPure (behaviour rest) (utf8s (a ++ (91 :: s ++ [93]) ++ b)) method (utf8s q) = .ok x ∧
      (x = true ↔ ∃ c, q = a ++ c :: b ∧ ∃ r ∈ rs, r.1 ≤ c ∧ c ≤ r.2) := by
  have hmem : ∀ n ∈ a ++ (91 :: s ++ [93]) ++ b, Scalar n ∧ n ≠ 42 ∧ n ≠ 123 := by
    have hm : ∀ n, ¬ Meta n → n ≠ 42 ∧ n ≠ 123 := fun n h =>
      ⟨by rintro rfl; exact h (by simp [Meta]), by rintro rfl; exact h (by simp [Meta])⟩
    intro n hn
    simp only [List.mem_append, List.mem_cons, List.not_mem_nil, or_false] at hn
    rcases hn with (h | (rfl | h) | rfl) | h
    · exact ⟨(ha n h).1, hm n (ha n h).2⟩
    · exact ⟨.inl (by decide), by decide, by decide⟩
    · exact hs n h
    · exact ⟨.inl (by decide), by decide, by decide⟩
    · exact ⟨(hb n h).1, hm n (hb n h).2⟩
  obtain ⟨e1, w1, d1⟩ := written_plain (n := 0) fun r hr => (hb r hr).2
  obtain ⟨e2, w2, d2⟩ := written_append (Written.cons (.item (.oneOf hne h94 hr)) w1) fun r hr => (ha r hr).2
  rw [← List.append_assoc] at w2
  obtain ⟨x, hx, hi⟩ := C118_expression_at_the_end rest (fun n hn => (hmem n hn).1) hq hu (.last (plain_of fun r hr => (hmem r hr).2)) rfl
    (.one w2) (Nat.zero_le _) method
  refine ⟨x, hx, hi.trans ?_⟩
  simp only [Accepts, d2]
  constructor
  · rintro ⟨u, v, rfl, hd, w, rfl, hw⟩
    cases hd
    cases hw with
    | seq h1 h2 => cases h1 with | oneOf h1 => exact ⟨_, by rw [(d1 _).1 h2]; rfl, h1⟩
  · rintro ⟨c, rfl, h⟩
    exact ⟨[], _, rfl, .nil, _, rfl, StandsFor.seq (u := [c]) (.oneOf h) ((d1 b).2 rfl)⟩

/-! ### Examples -/

/-- What is left open answers nothing. -/
def noRest : Runes → Option Regexp := fun _ => none

/-- `/a/{id}.json|/b(c|d)+x?` -/
def barPattern : Str := b!"/a/{id}.json|/b(c|d)+x?"

example : matchPure (behaviour noRest) barPattern b!"" b!"/a/7.json" = .ok true := by decide +kernel
example : matchPure (behaviour noRest) barPattern b!"" b!"/a/7.jsonp" = .ok true := by decide +kernel
example : matchPure (behaviour noRest) barPattern b!"" b!"/a/7Xjson" = .ok true := by decide +kernel
example : matchPure (behaviour noRest) barPattern b!"" b!"/z/bcdcx" = .ok true := by decide +kernel
example : matchPure (behaviour noRest) barPattern b!"" b!"/z/bcdcxx" = .ok false := by decide +kernel
example : matchPure (behaviour noRest) b!"/users|/admin" b!"" b!"/users/7/secret" = .ok true := by decide +kernel
example : matchPure (behaviour noRest) b!"/users|/admin" b!"" b!"/other/admin" = .ok true := by decide +kernel
example : matchPure (behaviour noRest) b!"/users|/admin" b!"" b!"/admin/users" = .ok false := by decide +kernel
example : matchPure (behaviour noRest) b!"/users/{id}?" b!"" b!"/users/" = .ok true := by decide +kernel
example : matchPure (behaviour noRest) b!"/users/{id}?" b!"" b!"/users/7" = .ok true := by decide +kernel
example : matchPure (behaviour noRest) b!"/users/{id}?" b!"" b!"/users/7?" = .ok true := by decide +kernel
example : matchPure (behaviour noRest) b!"/c++" b!"" b!"/c++" = .err .syntaxErr := by decide +kernel

example : matchPure (behaviour noRest) b!"/v[12]/users" b!"" b!"/v2/users" = .ok true := by decide +kernel
example : matchPure (behaviour noRest) b!"/v[12]/users" b!"" b!"/v[12]/users" = .ok false := by decide +kernel
example : matchPure (behaviour noRest) b!"/a/{id}\\.[^x-z-]+" b!"" b!"/a/7.y" = .ok false := by decide +kernel
example : matchPure (behaviour noRest) b!"/a/{id}\\.[^x-z-]+" b!"" b!"/a/7.json" = .ok true := by decide +kernel
example : matchPure (behaviour noRest) b!"/a/\\d+" b!"" b!"/a/17" = .ok true := by decide +kernel
example : matchPure (behaviour noRest) b!"/a/\\d+" b!"" b!"/a/1x" = .ok false := by decide +kernel
/-- A range the wrong way round. -/
example : matchPure (behaviour noRest) b!"/a/[z-a]" b!"" b!"/a/b" = .err .syntaxErr := by decide +kernel

/-- The hypotheses of C118_brackets for `/v[1-3x]`. -/
example : Ranges (b!"1-3x".map UInt8.toNat) [(49, 51), (120, 120)] :=
  .range (by simp [NoClass]) (by simp [NoClass]) (by decide) (.one (by simp [NoClass]) (by simp) .nil)

/-- The hypotheses of C118_expression_at_the_end for `/a.b|(c)+`. -/
example : ∃ es, Choices 1 (b!"/a.b|(c)+".map UInt8.toNat) es := by
  have hm : ∀ c : Nat, c = 47 ∨ c = 97 ∨ c = 98 ∨ c = 99 → ¬ Meta c := by
    intro c h; rcases h with rfl | rfl | rfl | rfl <;> simp [Meta]
  have c1 : ∀ n c, (c = 47 ∨ c = 97 ∨ c = 98 ∨ c = 99) → Written .rep n [c] (.char c) := fun n c h => .item (.char (hm c h))
  exact ⟨_, Choices.more (s := [47, 97, 46, 98])
    (Written.cons (s := [47]) (c1 _ _ (by simp)) (Written.cons (s := [97]) (c1 _ _ (by simp))
      (Written.cons (s := [46]) (.item .dot) (Written.cons (s := [98]) (c1 _ _ (by simp)) .empty))))
    (.one (Written.cons (s := [40, 99, 41, 43]) (t := []) (.plus (s := [40, 99, 41]) (.group (s := [99]) (.one (Written.cons (s := [99]) (c1 _ _ (by simp)) .empty)))) .empty))⟩

end Oapi.Props
