import Verif.Model.JsonText
import Verif.Spec.JsonText
import Verif.Proofs.PtrJson

/- The JSON scanner on texts of the grammar. -/
namespace Oapi.JsonText
open Spec.JsonText
open Spec.PtrJson (hexOf)

/-- Steps that only copy. -/
inductive Run : Sc → Str → Sc → Prop where
  | nil {s : Sc} : Run s [] s
  | cons {s s1 s' : Sc} {c : UInt8} {t : Str} : step s c = (s1, .cont) → Run s1 t s' → Run s (c :: t) s'

theorem Run.append {s s1 s' : Sc} {a b : Str} (h : Run s a s1) (h' : Run s1 b s') : Run s (a ++ b) s' := by
  induction h with
  | nil => exact h'
  | cons e _ ih => exact .cons e (ih h')

/-- A byte that ends a number. -/
def Delim (r : Str) : Prop := ∀ c t, r = c :: t → isNumByte c = false

/-- States that do the same for what follows a value. -/
def Eqv (s s' : Sc) : Prop := (∀ c, isNumByte c = false → step s c = step s' c) ∧ eof s = eof s'

theorem Eqv.refl (s : Sc) : Eqv s s := ⟨fun _ _ => rfl, rfl⟩

theorem validGo_eqv {s s' : Sc} (h : Eqv s s') {r : Str} (hr : Delim r) : validGo s r = validGo s' r := by
  cases r with
  | nil => exact h.2
  | cons c t => simp only [validGo]; rw [h.1 c (hr c t rfl)]

theorem compactGo_eqv {s s' : Sc} (h : Eqv s s') {r : Str} (hr : Delim r) : compactGo 0 s r = compactGo 0 s' r := by
  cases r with
  | nil => simp only [compactGo]; rw [h.2]
  | cons c t => simp only [compactGo]; rw [h.1 c (hr c t rfl)]

theorem indentGo_eqv {s s' : Sc} (h : Eqv s s') {r : Str} (hr : Delim r) (n : Bool) (d : Nat) : indentGo n d s r = indentGo n d s' r := by
  cases r with
  | nil => simp only [indentGo]; rw [h.2]
  | cons c t => simp only [indentGo]; rw [h.1 c (hr c t rfl)]

theorem validGo_run {s s' : Sc} {w : Str} (h : Run s w s') (r : Str) : validGo s (w ++ r) = validGo s' r := by
  induction h with
  | nil => rfl
  | cons e _ ih => simp only [List.cons_append, validGo, e]; rw [if_neg (by decide)]; exact ih

theorem indentGo_run {s s' : Sc} {w : Str} (h : Run s w s') (d : Nat) (r : Str) :
    indentGo false d s (w ++ r) = (indentGo false d s' r).map (w ++ ·) := by
  induction h with
  | nil => simp
  | cons e _ ih =>
    simp only [List.cons_append, indentGo, e]
    rw [if_neg (by decide), if_neg (by decide)]
    simp only [Bool.false_and, Bool.false_eq_true, if_false, if_true, ih, Option.map_map, Bool.not_false]
    cases indentGo false d _ r <;> rfl

theorem isSpace_iff (c : UInt8) : isSpace c = true ↔ c ∈ ([32, 9, 10, 13] : List UInt8) := by
  simp only [isSpace, Bool.or_eq_true, beq_iff_eq, List.mem_cons, List.not_mem_nil, or_false]
  constructor
  · rintro (((h | h) | h) | h) <;> subst h <;> decide
  · rintro (h | h | h | h) <;> subst h <;> decide

theorem isDigit_iff (c : UInt8) : isDigit c = true ↔ 48 ≤ c ∧ c ≤ 57 := by simp [isDigit]

theorem step_space {q : State} (hq : q ∈ [State.beginValue, .beginValueOrEmpty, .beginString, .beginStringOrEmpty]) (st : List Ctx) {c : UInt8}
    (hc : isSpace c = true) : step ⟨q, st⟩ c = (⟨q, st⟩, .skipSpace) := by
  simp only [List.mem_cons, List.not_mem_nil, or_false] at hq
  rcases hq with rfl | rfl | rfl | rfl <;> simp [step, beginValue, beginString, hc]

theorem step_space_end (x : Ctx) (st : List Ctx) {c : UInt8} (hc : isSpace c = true) :
    step ⟨.endValue, x :: st⟩ c = (⟨.endValue, x :: st⟩, .skipSpace) := by
  simp [step, endValue, hc]

/-- States in which white space is skipped. -/
def Skips (s : Sc) : Prop := ∀ c, isSpace c = true → step s c = (s, .skipSpace)

theorem skips_begin {q : State} (hq : q ∈ [State.beginValue, .beginValueOrEmpty, .beginString, .beginStringOrEmpty]) (st : List Ctx) :
    Skips ⟨q, st⟩ := fun _ hc => step_space hq st hc

theorem skips_end (x : Ctx) (st : List Ctx) : Skips ⟨.endValue, x :: st⟩ := fun _ hc => step_space_end x st hc

theorem validGo_blank {s : Sc} (hs : Skips s) {w : Str} (hw : Blank w) (r : Str) : validGo s (w ++ r) = validGo s r := by
  induction w with
  | nil => rfl
  | cons c t ih =>
    have hc := (isSpace_iff c).2 (hw c (by simp))
    simp only [List.cons_append, validGo, hs c hc]
    rw [if_neg (by decide)]
    exact ih fun c h => hw c (by simp [h])

theorem space_plain {c : UInt8} (h : isSpace c = true) : ¬ (c = 60 ∨ c = 62 ∨ c = 38) ∧ c ≠ 0xE2 := by
  rw [isSpace_iff] at h
  simp only [List.mem_cons, List.not_mem_nil, or_false] at h
  rcases h with h | h | h | h <;> subst h <;> decide

theorem compactGo_blank {s : Sc} (hs : Skips s) {w : Str} (hw : Blank w) (r : Str) : compactGo 0 s (w ++ r) = compactGo 0 s r := by
  induction w with
  | nil => rfl
  | cons c t ih =>
    have hc := (isSpace_iff c).2 (hw c (by simp))
    have hp := space_plain hc
    simp only [List.cons_append, compactGo, hs c hc]
    rw [if_neg (by decide)]
    have : emit .skipSpace c (t ++ r) = ([], 0) := by simp [emit, hp.1, hp.2]
    rw [this, ih fun c h => hw c (by simp [h])]
    simp

theorem indentGo_blank {s : Sc} (hs : Skips s) {w : Str} (hw : Blank w) (n : Bool) (d : Nat) (r : Str) :
    indentGo n d s (w ++ r) = indentGo n d s r := by
  induction w with
  | nil => rfl
  | cons c t ih =>
    have hc := (isSpace_iff c).2 (hw c (by simp))
    simp only [List.cons_append, indentGo, hs c hc]
    rw [if_pos trivial]
    exact ih fun c h => hw c (by simp [h])

/-! ### Numbers -/

theorem digit_num {c : UInt8} (h : isDigit c = true) : isNumByte c = true := by simp [isNumByte, h]

theorem run_digits {q : State} {st : List Ctx} (hq : ∀ c, isDigit c = true → step ⟨q, st⟩ c = (⟨q, st⟩, .cont)) {d : Str}
    (hd : ∀ c ∈ d, 48 ≤ c ∧ c ≤ 57) : Run ⟨q, st⟩ d ⟨q, st⟩ := by
  induction d with
  | nil => exact .nil
  | cons c t ih => exact .cons (hq c ((isDigit_iff c).2 (hd c (by simp)))) (ih fun c h => hd c (by simp [h]))

theorem num_not {c : UInt8} (h : isNumByte c = false) : isDigit c = false ∧ c ≠ 46 ∧ ¬ (c = 101 ∨ c = 69) := by
  simp only [isNumByte, Bool.or_eq_false_iff, beq_eq_false_iff_ne] at h
  exact ⟨h.1.1.1.1.1, h.1.1.2, fun h' => h'.elim h.1.2 h.2⟩

theorem eqv_number {q : State} (hq : q = .one ∨ q = .zero ∨ q = .dot0 ∨ q = .e0) (st : List Ctx) : Eqv ⟨q, st⟩ ⟨.endValue, st⟩ := by
  have key : ∀ c, isNumByte c = false → step ⟨q, st⟩ c = step ⟨.endValue, st⟩ c := by
    intro c hc
    obtain ⟨h1, h2, h3⟩ := num_not hc
    rcases hq with rfl | rfl | rfl | rfl <;> simp only [step, zero, h1, if_neg h2, if_neg h3, Bool.false_eq_true, if_false]
  refine ⟨key, ?_⟩
  have h32 := key 32 (by decide)
  rcases hq with rfl | rfl | rfl | rfl <;> simp only [eof] <;> rw [h32]

theorem eqv_top : Eqv ⟨.endTop, []⟩ ⟨.endValue, []⟩ := by
  refine ⟨fun c _ => rfl, ?_⟩
  decide

theorem eqv_pop (x : Ctx) (st : List Ctx) : Eqv (pop (x :: st)) ⟨.endValue, st⟩ := by
  cases st with
  | nil => exact eqv_top
  | cons y t => exact Eqv.refl _

/-- After the exponent. -/
theorem run_exp {q : State} (hq : q = .one ∨ q = .zero ∨ q = .dot0) {st : List Ctx} {x : Str} (hx : Exponent x) :
    ∃ s', Run ⟨q, st⟩ x s' ∧ Eqv s' ⟨.endValue, st⟩ := by
  rcases hx with rfl | ⟨e, s, d, he, hs, hd, rfl⟩
  · exact ⟨_, .nil, eqv_number (by rcases hq with h | h | h <;> simp [h]) st⟩
  · have hstep : step ⟨q, st⟩ e = (⟨.e, st⟩, .cont) := by
      simp only [List.mem_cons, List.not_mem_nil, or_false] at he
      rcases he with rfl | rfl <;> rcases hq with rfl | rfl | rfl <;> rfl
    obtain ⟨hne, hd⟩ := hd
    obtain ⟨c, t, rfl⟩ := List.exists_cons_of_ne_nil hne
    have hc := (isDigit_iff c).2 (hd c (by simp))
    have hd0 : Run ⟨.e0, st⟩ t ⟨.e0, st⟩ := run_digits (fun c h => by simp [step, h]) (fun c h => hd c (by simp [h]))
    have hc0 : c ≠ 43 ∧ c ≠ 45 := by
      constructor <;> (rintro rfl; exact absurd hc (by decide))
    refine ⟨⟨.e0, st⟩, .cons hstep ?_, eqv_number (by simp) st⟩
    rcases hs with rfl | rfl | rfl
    · exact .cons (by simp [step, hc0.1, hc0.2, eSign, hc]) hd0
    · exact .cons (s1 := ⟨.eSign, st⟩) rfl (.cons (by simp [step, eSign, hc]) hd0)
    · exact .cons (s1 := ⟨.eSign, st⟩) rfl (.cons (by simp [step, eSign, hc]) hd0)

theorem run_frac {q : State} (hq : q = .one ∨ q = .zero) {st : List Ctx} {f x : Str} (hf : Fraction f) (hx : Exponent x) :
    ∃ s', Run ⟨q, st⟩ (f ++ x) s' ∧ Eqv s' ⟨.endValue, st⟩ := by
  rcases hf with rfl | ⟨d, ⟨hne, hd⟩, rfl⟩
  · exact run_exp (by rcases hq with h | h <;> simp [h]) hx
  · obtain ⟨c, t, rfl⟩ := List.exists_cons_of_ne_nil hne
    have hc := (isDigit_iff c).2 (hd c (by simp))
    obtain ⟨s', h1, h2⟩ := run_exp (q := .dot0) (by simp) (st := st) hx
    refine ⟨s', ?_, h2⟩
    refine .cons (s1 := ⟨.dot, st⟩) ?_ (.cons (s1 := ⟨.dot0, st⟩) (by simp [step, hc]) (Run.append
      (run_digits (fun c h => by simp [step, h]) (fun c h => hd c (by simp [h]))) h1))
    rcases hq with rfl | rfl <;> rfl

theorem run_whole {st : List Ctx} {c : UInt8} {t f x : Str} (hw : Whole (c :: t)) (hf : Fraction f) (hx : Exponent x) :
    ∃ q, (q = State.one ∨ q = .zero) ∧ step ⟨.beginValue, st⟩ c = (⟨q, st⟩, .beginLiteral) ∧ step ⟨.neg, st⟩ c = (⟨q, st⟩, .cont) ∧
      ∃ s', Run ⟨q, st⟩ (t ++ (f ++ x)) s' ∧ Eqv s' ⟨.endValue, st⟩ := by
  obtain ⟨⟨_, hd⟩, hz⟩ := hw
  by_cases hc : c = 48
  · subst hc
    have : t = [] := by simpa using hz rfl
    subst this
    exact ⟨.zero, by simp, rfl, rfl, by simpa using run_frac (q := .zero) (by simp) (st := st) hf hx⟩
  · obtain ⟨s', h1, h2⟩ := run_frac (q := .one) (by simp) (st := st) hf hx
    have hb := hd c (by simp)
    have hb' : 49 ≤ c ∧ c ≤ 57 := by
      refine ⟨?_, hb.2⟩
      have h1 := UInt8.le_iff_toNat_le.1 hb.1
      have : c.toNat ≠ 48 := fun h => hc (UInt8.toNat_inj.1 h)
      exact UInt8.le_iff_toNat_le.2 (by have : (49 : UInt8).toNat = 49 := rfl; have : (48 : UInt8).toNat = 48 := rfl; omega)
    have big : ∀ k : UInt8, k < 49 ∨ 57 < k → c ≠ k := by
      rintro k hk rfl
      rcases hk with hk | hk
      · exact absurd hb'.1 (UInt8.not_le.2 hk)
      · exact absurd hb'.2 (UInt8.not_le.2 hk)
    refine ⟨.one, by simp, ?_, ?_, s', Run.append (run_digits (fun c h => by simp [step, h]) (fun c h => hd c (by simp [h]))) h1, h2⟩
    · have hs : isSpace c = false := by
        simp only [isSpace, Bool.or_eq_false_iff, beq_eq_false_iff_ne]
        exact ⟨⟨⟨big 32 (by decide), big 9 (by decide)⟩, big 13 (by decide)⟩, big 10 (by decide)⟩
      simp only [step, beginValue, hs, Bool.false_eq_true, if_false, if_neg (big 123 (by decide)), if_neg (big 91 (by decide)), if_neg (big 34 (by decide)),
        if_neg (big 45 (by decide)), if_neg hc, if_neg (big 116 (by decide)), if_neg (big 102 (by decide)), if_neg (big 110 (by decide)), if_pos hb']
    · simp only [step, if_neg hc, if_pos hb']

/-- A number behind its first byte. -/
theorem run_number {t : Str} (h : Number t) : ∃ c t', t = c :: t' ∧ ∀ st, ∃ s1 s',
    step ⟨.beginValue, st⟩ c = (s1, .beginLiteral) ∧ Run s1 t' s' ∧ Eqv s' ⟨.endValue, st⟩ := by
  obtain ⟨sign, int, frac, exp, hs, hi, hf, hx, rfl⟩ := h
  obtain ⟨c, t, rfl⟩ := List.exists_cons_of_ne_nil hi.1.1
  rcases hs with rfl | rfl
  · refine ⟨c, t ++ (frac ++ exp), by simp, fun st => ?_⟩
    obtain ⟨q, _, h1, _, s', h2, h3⟩ := run_whole (st := st) hi hf hx
    exact ⟨_, s', h1, h2, h3⟩
  · refine ⟨45, c :: (t ++ (frac ++ exp)), by simp, fun st => ?_⟩
    obtain ⟨q, _, _, h1, s', h2, h3⟩ := run_whole (st := st) hi hf hx
    exact ⟨⟨.neg, st⟩, s', rfl, .cons h1 h2, h3⟩

/-! ### Strings and other literals -/

theorem run_char {st : List Ctx} {c : UInt8} (h1 : 32 ≤ c) (h2 : c ≠ 34) (h3 : c ≠ 92) : step ⟨.inString, st⟩ c = (⟨.inString, st⟩, .cont) := by
  simp only [step, if_neg h2, if_neg h3, if_neg (UInt8.not_lt.2 h1)]

theorem run_u {st : List Ctx} {a b c d : UInt8} (ha : (Url.hexVal a).isSome) (hb : (Url.hexVal b).isSome) (hc : (Url.hexVal c).isSome)
    (hd : (Url.hexVal d).isSome) : Run ⟨.inString, st⟩ [92, 117, a, b, c, d] ⟨.inString, st⟩ :=
  .cons (s1 := ⟨.esc, st⟩) rfl (.cons (s1 := ⟨.u0, st⟩) rfl (.cons (s1 := ⟨.u1, st⟩) (by simp [step, hexStep, ha])
    (.cons (s1 := ⟨.u2, st⟩) (by simp [step, hexStep, hb]) (.cons (s1 := ⟨.u3, st⟩) (by simp [step, hexStep, hc])
      (.cons (s1 := ⟨.inString, st⟩) (by simp [step, hexStep, hd]) .nil)))))

theorem run_short {st : List Ctx} {c : UInt8} (h : c ∈ b!"bfnrt\\/\"") : Run ⟨.inString, st⟩ [92, c] ⟨.inString, st⟩ :=
  .cons (s1 := ⟨.esc, st⟩) rfl (.cons (s1 := ⟨.inString, st⟩) (by simp only [step, if_pos h]) .nil)

theorem run_lax {b : Str} (h : LaxBody b) (st : List Ctx) : Run ⟨.inString, st⟩ b ⟨.inString, st⟩ := by
  induction h with
  | nil => exact .nil
  | byte h1 h2 h3 _ ih => exact .cons (run_char h1 h2 h3) ih
  | short h _ ih =>
    refine Run.append (a := [92, _]) (run_short ?_) ih
    simp only [List.mem_cons, List.not_mem_nil, or_false] at h
    rcases h with h | h | h | h | h | h | h | h <;> subst h <;> decide
  | uni ha hb hc hd _ ih =>
    rw [← PtrJson.hexVal_hexOf] at ha hb hc hd
    exact Run.append (run_u ha hb hc hd) ih

/-- Texts that are string literals for the scanner. -/
def IsKey (k : Str) : Prop := ∃ t, k = 34 :: t ∧ ∀ st, Run ⟨.inString, st⟩ t ⟨.endValue, st⟩

theorem key_lax {k : Str} (h : LaxString k) : IsKey k := by
  obtain ⟨b, hb, rfl⟩ := h
  exact ⟨_, rfl, fun st => Run.append (run_lax hb st) (.cons rfl .nil)⟩

/-- Texts that are literals for the scanner. -/
def IsLit (w : Str) : Prop := ∃ c t, w = c :: t ∧ ∀ st, ∃ s1 s',
    step ⟨.beginValue, st⟩ c = (s1, .beginLiteral) ∧ Run s1 t s' ∧ Eqv s' ⟨.endValue, st⟩

theorem lit_key {k : Str} (h : IsKey k) : IsLit k := by
  obtain ⟨t, rfl, h⟩ := h
  exact ⟨34, t, rfl, fun st => ⟨⟨.inString, st⟩, _, rfl, h st, Eqv.refl _⟩⟩

theorem lit_null : IsLit b!"null" := ⟨110, b!"ull", rfl, fun st => ⟨_, ⟨.endValue, st⟩, rfl, .cons rfl (.cons rfl (.cons rfl .nil)), Eqv.refl _⟩⟩
theorem lit_true : IsLit b!"true" := ⟨116, b!"rue", rfl, fun st => ⟨_, ⟨.endValue, st⟩, rfl, .cons rfl (.cons rfl (.cons rfl .nil)), Eqv.refl _⟩⟩
theorem lit_false : IsLit b!"false" :=
  ⟨102, b!"alse", rfl, fun st => ⟨_, ⟨.endValue, st⟩, rfl, .cons rfl (.cons rfl (.cons rfl (.cons rfl .nil))), Eqv.refl _⟩⟩

theorem lit_number {t : Str} (h : Number t) : IsLit t := run_number h

theorem step_orEmpty {st : List Ctx} {c : UInt8} {s1 : Sc} {op : Op} (h : step ⟨.beginValue, st⟩ c = (s1, op)) (ho : op ≠ .skipSpace) (he : op ≠ .err)
    {q : State} (hq : q = .beginValue ∨ q = .beginValueOrEmpty) : step ⟨q, st⟩ c = (s1, op) := by
  rcases hq with rfl | rfl
  · exact h
  · have hs : isSpace c = false := by
      cases hs : isSpace c with
      | false => rfl
      | true => rw [step_space (by simp) st hs] at h; cases h; exact absurd rfl ho
    have h93 : c ≠ 93 := by
      rintro rfl
      exact he (congrArg Prod.snd h).symm
    simp only [step, hs, Bool.false_eq_true, if_false, if_neg h93]
    exact h

theorem delim_cons {c : UInt8} (h : isNumByte c = false) (r : Str) : Delim (c :: r) := by
  intro x t e; cases e; exact h

theorem delim_nil : Delim [] := fun _ _ h => by cases h

theorem delim_blank {b : Str} (hb : Blank b) {r : Str} (hr : Delim r) : Delim (b ++ r) := by
  cases b with
  | nil => exact hr
  | cons c t =>
    have := hb c (by simp)
    refine delim_cons ?_ _
    simp only [List.mem_cons, List.not_mem_nil, or_false] at this
    rcases this with h | h | h | h <;> subst h <;> decide

/-! ### Validity -/

section
variable {N : Str → Int → Prop} {S : Str → Str → Prop}

/-- What the scanner makes of a piece. -/
def ValidPiece (w : Str) : What → Prop
  | .value _ => ∀ st r q, (q = State.beginValue ∨ q = .beginValueOrEmpty) → Delim r → validGo ⟨q, st⟩ (w ++ r) = validGo ⟨.endValue, st⟩ r
  | .elems _ => ∀ st r q, (q = State.beginValue ∨ q = .beginValueOrEmpty) → validGo ⟨q, .arr :: st⟩ (w ++ 93 :: r) = validGo (pop (.arr :: st)) r
  | .members _ => ∀ st r q, (q = State.beginString ∨ q = .beginStringOrEmpty) → validGo ⟨q, .key :: st⟩ (w ++ 125 :: r) = validGo (pop (.val :: st)) r

theorem valid_step {s s1 : Sc} {c : UInt8} {op : Op} (h : step s c = (s1, op)) (ho : op ≠ .err) (t : Str) : validGo s (c :: t) = validGo s1 t := by
  simp only [validGo, h]; rw [if_neg ho]

theorem valid_lit {w : Str} (h : IsLit w) (st : List Ctx) (r : Str) {q : State} (hq : q = .beginValue ∨ q = .beginValueOrEmpty) (hr : Delim r) :
    validGo ⟨q, st⟩ (w ++ r) = validGo ⟨.endValue, st⟩ r := by
  obtain ⟨c, t, rfl, h⟩ := h
  obtain ⟨s1, s', h1, h2, h3⟩ := h st
  rw [List.cons_append, valid_step (step_orEmpty h1 (by decide) (by decide) hq) (by decide), validGo_run h2, validGo_eqv h3 hr]

theorem q_value {q : State} (hq : q = .beginValue ∨ q = .beginValueOrEmpty) :
    q ∈ [State.beginValue, .beginValueOrEmpty, .beginString, .beginStringOrEmpty] := by rcases hq with rfl | rfl <;> decide

theorem q_string {q : State} (hq : q = .beginString ∨ q = .beginStringOrEmpty) :
    q ∈ [State.beginValue, .beginValueOrEmpty, .beginString, .beginStringOrEmpty] := by rcases hq with rfl | rfl <;> decide

theorem step_quote {q : State} (hq : q = .beginString ∨ q = .beginStringOrEmpty) (st : List Ctx) :
    step ⟨q, st⟩ 34 = (⟨.inString, st⟩, .beginLiteral) := by rcases hq with rfl | rfl <;> rfl

theorem step_brace {q : State} (hq : q = .beginValue ∨ q = .beginValueOrEmpty) (st : List Ctx) :
    step ⟨q, st⟩ 123 = (⟨.beginStringOrEmpty, .key :: st⟩, .beginObject) := by rcases hq with rfl | rfl <;> rfl

theorem step_bracket {q : State} (hq : q = .beginValue ∨ q = .beginValueOrEmpty) (st : List Ctx) :
    step ⟨q, st⟩ 91 = (⟨.beginValueOrEmpty, .arr :: st⟩, .beginArray) := by rcases hq with rfl | rfl <;> rfl

theorem valid_piece (hN : ∀ t n, N t n → Number t) (hS : ∀ k s, S k s → IsKey k) {x : What} {w : Str} (h : Means N S x w) : ValidPiece w x := by
  induction h with
  | null => exact fun st r q hq hr => valid_lit lit_null st r hq hr
  | true_ => exact fun st r q hq hr => valid_lit lit_true st r hq hr
  | false_ => exact fun st r q hq hr => valid_lit lit_false st r hq hr
  | num h => exact fun st r q hq hr => valid_lit (lit_number (hN _ _ h)) st r hq hr
  | str h => exact fun st r q hq hr => valid_lit (lit_key (hS _ _ h)) st r hq hr
  | arr0 hw =>
    intro st r q hq hr
    rw [List.cons_append, valid_step (step_bracket hq st) (by decide), List.append_assoc, validGo_blank (skips_begin (by decide) _) hw,
      List.cons_append, valid_step (s1 := pop (.arr :: st)) (op := .endArray) rfl (by decide)]
    exact validGo_eqv (eqv_pop _ st) hr
  | arr _ ih =>
    intro st r q hq hr
    rw [List.cons_append, valid_step (step_bracket hq st) (by decide), List.append_assoc]
    have := ih st r .beginValueOrEmpty (.inr rfl)
    rw [List.singleton_append, this]
    exact validGo_eqv (eqv_pop _ st) hr
  | obj0 hw =>
    intro st r q hq hr
    rw [List.cons_append, valid_step (step_brace hq st) (by decide), List.append_assoc, validGo_blank (skips_begin (by decide) _) hw,
      List.cons_append, valid_step (s1 := pop (.val :: st)) (op := .endObject) rfl (by decide)]
    exact validGo_eqv (eqv_pop _ st) hr
  | obj _ _ ih =>
    intro st r q hq hr
    rw [List.cons_append, valid_step (step_brace hq st) (by decide), List.append_assoc]
    have := ih st r .beginStringOrEmpty (.inr rfl)
    rw [List.singleton_append, this]
    exact validGo_eqv (eqv_pop _ st) hr
  | elem ha _ hb ih =>
    intro st r q hq
    rw [List.append_assoc, validGo_blank (skips_begin (q_value hq) _) ha, List.append_assoc,
      ih (.arr :: st) _ q hq (delim_blank hb (delim_cons (by decide) _)), validGo_blank (skips_end _ _) hb]
    exact valid_step (s1 := pop (.arr :: st)) (op := .endArray) rfl (by decide) r
  | elems ha _ hb _ ih ih' =>
    intro st r q hq
    simp only [List.append_assoc, List.cons_append]
    rw [validGo_blank (skips_begin (q_value hq) _) ha,
      ih (.arr :: st) _ q hq (delim_blank hb (delim_cons (by decide) _)), validGo_blank (skips_end _ _) hb,
      valid_step (s1 := ⟨.beginValue, .arr :: st⟩) (op := .arrayValue) rfl (by decide)]
    exact ih' st r .beginValue (.inl rfl)
  | member ha hk hb hc _ hd ih =>
    intro st r q hq
    obtain ⟨t, rfl, hrun⟩ := hS _ _ hk
    simp only [List.append_assoc, List.cons_append]
    rw [validGo_blank (skips_begin (q_string hq) _) ha, valid_step (step_quote hq _) (by decide), validGo_run (hrun _), validGo_blank (skips_end _ _) hb,
      valid_step (s1 := ⟨.beginValue, .val :: st⟩) (op := .objectKey) rfl (by decide), validGo_blank (skips_begin (by decide) _) hc,
      ih _ _ _ (.inl rfl) (delim_blank hd (delim_cons (by decide) _)), validGo_blank (skips_end _ _) hd]
    exact valid_step (s1 := pop (.val :: st)) (op := .endObject) rfl (by decide) r
  | members ha hk hb hc _ hd _ ih ih' =>
    intro st r q hq
    obtain ⟨t, rfl, hrun⟩ := hS _ _ hk
    simp only [List.append_assoc, List.cons_append]
    rw [validGo_blank (skips_begin (q_string hq) _) ha, valid_step (step_quote hq _) (by decide), validGo_run (hrun _), validGo_blank (skips_end _ _) hb,
      valid_step (s1 := ⟨.beginValue, .val :: st⟩) (op := .objectKey) rfl (by decide), validGo_blank (skips_begin (by decide) _) hc,
      ih _ _ _ (.inl rfl) (delim_blank hd (delim_cons (by decide) _)), validGo_blank (skips_end _ _) hd,
      valid_step (s1 := ⟨.beginString, .key :: st⟩) (op := .objectValue) rfl (by decide)]
    exact ih' st r .beginString (.inl rfl)

theorem validGo_top {b : Str} (hb : Blank b) : validGo ⟨.endValue, []⟩ b = true := by
  have : ∀ b : Str, Blank b → validGo ⟨.endTop, []⟩ b = true := by
    intro b hb
    induction b with
    | nil => rfl
    | cons c t ih =>
      have hc := (isSpace_iff c).2 (hb c (by simp))
      rw [valid_step (s1 := ⟨.endTop, []⟩) (op := .fin) (by simp [step, endTop, hc]) (by decide)]
      exact ih fun c h => hb c (by simp [h])
  rw [← validGo_eqv eqv_top (by have := delim_blank hb delim_nil; simpa using this)]
  exact this b hb

/-- Every JSON text passes the check. -/
theorem valid_doc (hN : ∀ t n, N t n → Number t) (hS : ∀ k s, S k s → IsKey k) {t : Str} {j : Json} (h : Doc N S t j) : valid t = true := by
  obtain ⟨a, w, b, ha, hb, rfl, hm⟩ := h
  unfold valid
  rw [start, validGo_blank (skips_begin (by decide) _) ha, valid_piece hN hS hm [] b _ (.inl rfl) (by have := delim_blank hb delim_nil; simpa using this)]
  exact validGo_top hb
end

end Oapi.JsonText
