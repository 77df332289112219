import Verif.Proofs.JsonDecode

/- Only JSON texts are decoded. -/
namespace Oapi.JsonText
open Spec Spec.JsonText

theorem valid_inv {s : Sc} {c : UInt8} {t : Str} (h : validGo s (c :: t) = true) : (step s c).2 ≠ .err ∧ validGo (step s c).1 t = true := by
  simp only [validGo] at h
  split at h
  · cases h
  · exact ⟨by assumption, h⟩

theorem valid_error (st : List Ctx) (t : Str) : validGo ⟨.error, st⟩ t = false := by
  cases t with
  | nil => rfl
  | cons c t => simp only [validGo, step]; rfl

theorem valid_fail {s : Sc} {c : UInt8} {st : List Ctx} (h : step s c = fail st) (t : Str) : validGo s (c :: t) = false := by
  simp only [validGo, h, fail, if_true]

/-- No byte of a number follows a value. -/
theorem valid_end_delim {st : List Ctx} {r : Str} (h : validGo ⟨.endValue, st⟩ r = true) : Delim r := by
  rintro c t rfl
  cases hc : isNumByte c with
  | false => rfl
  | true =>
    exfalso
    have hs : isSpace c = false := by
      have : ∀ c : UInt8, isNumByte c = true → isSpace c = false := by
        refine Url.all_bytes ?_
        decide +kernel
      exact this c hc
    have hne : c ≠ 58 ∧ c ≠ 44 ∧ c ≠ 125 ∧ c ≠ 93 := by
      refine ⟨?_, ?_, ?_, ?_⟩ <;> (rintro rfl; exact absurd hc (by decide))
    obtain ⟨h1, h2, h3, h4⟩ := hne
    cases st with
    | nil =>
      have := (valid_inv h).2
      simp only [step, endValue, endTop, hs, Bool.false_eq_true, if_false] at this
      rw [valid_error] at this
      cases this
    | cons x st =>
      have e : step ⟨.endValue, x :: st⟩ c = fail (x :: st) := by
        cases x <;> simp only [step, endValue, hs, Bool.false_eq_true, if_false, if_neg h1, if_neg h2, if_neg h3, if_neg h4]
      rw [valid_fail e] at h
      cases h

/-! ### Numbers -/

theorem digits_split (s : Str) : ∃ d x, s = d ++ x ∧ (∀ c ∈ d, 48 ≤ c ∧ c ≤ 57) ∧ ∀ c t, x = c :: t → isDigit c = false := by
  induction s with
  | nil => exact ⟨[], [], rfl, nofun, nofun⟩
  | cons c t ih =>
    cases hc : isDigit c with
    | true =>
      obtain ⟨d, x, rfl, h1, h2⟩ := ih
      refine ⟨c :: d, x, rfl, ?_, h2⟩
      intro y hy
      rcases List.mem_cons.1 hy with rfl | hy
      · exact (isDigit_iff _).1 hc
      · exact h1 y hy
    | false => exact ⟨[], c :: t, rfl, nofun, fun y z e => by cases e; exact hc⟩

theorem valid_same {s s' : Sc} {x : Str} (h : ∀ c t, x = c :: t → step s c = step s' c) (he : eof s = eof s') : validGo s x = validGo s' x := by
  cases x with
  | nil => exact he
  | cons c t => simp only [validGo]; rw [h c t rfl]

theorem valid_e0 {st : List Ctx} {s : Str} (h : validGo ⟨.e0, st⟩ s = true) : ∃ d x, s = d ++ x ∧ (∀ c ∈ d, 48 ≤ c ∧ c ≤ 57) ∧ validGo ⟨.endValue, st⟩ x = true := by
  obtain ⟨d, x, rfl, h1, h2⟩ := digits_split s
  rw [validGo_run (run_digits (fun c h => by simp [step, h]) h1)] at h
  refine ⟨d, x, rfl, h1, ?_⟩
  rw [← h]
  symm
  refine valid_same (fun c t e => ?_) (eqv_number (by simp) st).2
  simp only [step, h2 c t e, Bool.false_eq_true, if_false]

theorem valid_eSign {st : List Ctx} {s : Str} (h : validGo ⟨.eSign, st⟩ s = true) : ∃ d x, s = d ++ x ∧ Digits d ∧ validGo ⟨.endValue, st⟩ x = true := by
  cases s with
  | nil => simp [validGo, eof, step, eSign, isDigit, fail] at h
  | cons c t =>
    cases hc : isDigit c with
    | false => rw [valid_fail (st := st) (by simp [step, eSign, hc])] at h; cases h
    | true =>
      rw [valid_step (s1 := ⟨.e0, st⟩) (op := .cont) (by simp [step, eSign, hc]) (by decide)] at h
      obtain ⟨d, x, rfl, h1, h2⟩ := valid_e0 h
      refine ⟨c :: d, x, rfl, ⟨by simp, ?_⟩, h2⟩
      intro y hy
      rcases List.mem_cons.1 hy with rfl | hy
      · exact (isDigit_iff _).1 hc
      · exact h1 y hy

theorem valid_e {st : List Ctx} {s : Str} (h : validGo ⟨.e, st⟩ s = true) : ∃ g d x, s = g ++ d ++ x ∧ (g = [] ∨ g = [43] ∨ g = [45]) ∧ Digits d ∧
    validGo ⟨.endValue, st⟩ x = true := by
  cases s with
  | nil => simp [validGo, eof, step, eSign, isDigit, fail] at h
  | cons c t =>
    by_cases hc : c = 43 ∨ c = 45
    · rw [valid_step (s1 := ⟨.eSign, st⟩) (op := .cont) (by simp [step, hc]) (by decide)] at h
      obtain ⟨d, x, rfl, h1, h2⟩ := valid_eSign h
      refine ⟨[c], d, x, rfl, ?_, h1, h2⟩
      rcases hc with rfl | rfl
      · exact .inr (.inl rfl)
      · exact .inr (.inr rfl)
    · have h' : validGo ⟨.eSign, st⟩ (c :: t) = true := by
        rw [← h]
        symm
        refine valid_same (fun x y e => ?_) rfl
        cases e
        simp only [step, if_neg hc]
      obtain ⟨d, x, e, h1, h2⟩ := valid_eSign h'
      exact ⟨[], d, x, by simpa using e, .inl rfl, h1, h2⟩

/-- Behind the digits of a whole number or of a fraction. -/
theorem valid_exp {q : State} (hq : q = .zero ∨ q = .dot0) {st : List Ctx} {s : Str} (h : validGo ⟨q, st⟩ s = true)
    (hd : ∀ c t, s = c :: t → isDigit c = false) (hdot : q = .zero → ∀ t, s ≠ 46 :: t) :
    ∃ f x, s = f ++ x ∧ Exponent f ∧ validGo ⟨.endValue, st⟩ x = true := by
  cases s with
  | nil =>
    refine ⟨[], [], rfl, .inl rfl, ?_⟩
    rw [← h]
    exact (validGo_eqv (eqv_number (by rcases hq with h | h <;> simp [h]) st) delim_nil).symm
  | cons c t =>
    have hdc := hd c t rfl
    by_cases hc : c = 101 ∨ c = 69
    · rw [valid_step (s1 := ⟨.e, st⟩) (op := .cont) (by
        rcases hq with rfl | rfl
        · rcases hc with rfl | rfl <;> rfl
        · rcases hc with rfl | rfl <;> rfl) (by decide)] at h
      obtain ⟨g, d, x, rfl, h1, h2, h3⟩ := valid_e h
      refine ⟨c :: g ++ d, x, by simp, .inr ⟨c, g, d, ?_, h1, h2, rfl⟩, h3⟩
      rcases hc with rfl | rfl <;> decide
    · refine ⟨[], c :: t, rfl, .inl rfl, ?_⟩
      rw [← h]
      symm
      refine valid_same (fun x y e => ?_) (eqv_number (by rcases hq with h | h <;> simp [h]) st).2
      cases e
      rcases hq with rfl | rfl
      · have : c ≠ 46 := fun e => hdot rfl t (by rw [e])
        simp only [step, zero, if_neg this, if_neg hc]
      · simp only [step, hdc, Bool.false_eq_true, if_false, if_neg hc]

theorem valid_frac {st : List Ctx} {s : Str} (h : validGo ⟨.zero, st⟩ s = true) (hd : ∀ c t, s = c :: t → isDigit c = false) :
    ∃ f g x, s = f ++ g ++ x ∧ Fraction f ∧ Exponent g ∧ validGo ⟨.endValue, st⟩ x = true := by
  by_cases hdot : ∃ t, s = 46 :: t
  · obtain ⟨t, rfl⟩ := hdot
    rw [valid_step (s1 := ⟨.dot, st⟩) (op := .cont) rfl (by decide)] at h
    cases t with
    | nil => simp [validGo, eof, step, isDigit, fail] at h
    | cons c t =>
      cases hc : isDigit c with
      | false => rw [valid_fail (st := st) (by simp [step, hc])] at h; cases h
      | true =>
        rw [valid_step (s1 := ⟨.dot0, st⟩) (op := .cont) (by simp [step, hc]) (by decide)] at h
        obtain ⟨d, x, rfl, h1, h2⟩ := digits_split t
        rw [validGo_run (run_digits (fun c h => by simp [step, h]) h1)] at h
        obtain ⟨g, y, rfl, h3, h4⟩ := valid_exp (.inr rfl) h h2 nofun
        refine ⟨46 :: c :: d, g, y, by simp, .inr ⟨c :: d, ⟨by simp, ?_⟩, rfl⟩, h3, h4⟩
        intro z hz
        rcases List.mem_cons.1 hz with rfl | hz
        · exact (isDigit_iff _).1 hc
        · exact h1 z hz
  · obtain ⟨g, x, rfl, h1, h2⟩ := valid_exp (.inl rfl) h hd fun _ t e => hdot ⟨t, e⟩
    exact ⟨[], g, x, by simp, .inl rfl, h1, h2⟩

/-- Behind the first digit. -/
theorem valid_one {st : List Ctx} {s : Str} (h : validGo ⟨.one, st⟩ s = true) :
    ∃ d f g x, s = d ++ f ++ g ++ x ∧ (∀ c ∈ d, 48 ≤ c ∧ c ≤ 57) ∧ Fraction f ∧ Exponent g ∧ validGo ⟨.endValue, st⟩ x = true := by
  obtain ⟨d, x, rfl, h1, h2⟩ := digits_split s
  rw [validGo_run (run_digits (fun c h => by simp [step, h]) h1)] at h
  have h' : validGo ⟨.zero, st⟩ x = true := by
    rw [← h]
    symm
    refine valid_same (fun c t e => ?_) ?_
    · simp only [step, h2 c t e, Bool.false_eq_true, if_false]
    · rfl
  obtain ⟨f, g, y, rfl, h3, h4, h5⟩ := valid_frac h' h2
  exact ⟨d, f, g, y, by simp, h1, h3, h4, h5⟩

theorem valid_after_zero {st : List Ctx} {s : Str} (h : validGo ⟨.zero, st⟩ s = true) :
    ∃ f g x, s = f ++ g ++ x ∧ Fraction f ∧ Exponent g ∧ validGo ⟨.endValue, st⟩ x = true := by
  refine valid_frac h ?_
  rintro c t rfl
  cases hc : isDigit c with
  | false => rfl
  | true =>
    exfalso
    have h46 : c ≠ 46 := by rintro rfl; exact absurd hc (by decide)
    have he : ¬ (c = 101 ∨ c = 69) := by rintro (rfl | rfl) <;> exact absurd hc (by decide)
    have h' : validGo ⟨.endValue, st⟩ (c :: t) = true := by
      rw [← h]
      symm
      refine valid_same (fun x y e => ?_) (eqv_number (by simp) st).2
      cases e
      simp only [step, zero, if_neg h46, if_neg he]
    have := valid_end_delim h' c t rfl
    rw [digit_num hc] at this
    cases this

theorem whole_of {c : UInt8} {d : Str} (h1 : 49 ≤ c ∧ c ≤ 57) (h2 : ∀ c ∈ d, 48 ≤ c ∧ c ≤ 57) : Whole (c :: d) := by
  have h48 : 48 ≤ c := by
    have := UInt8.le_iff_toNat_le.1 h1.1
    refine UInt8.le_iff_toNat_le.2 ?_
    have : (49 : UInt8).toNat = 49 := rfl
    have : (48 : UInt8).toNat = 48 := rfl
    omega
  refine ⟨⟨by simp, ?_⟩, ?_⟩
  · intro y hy
    rcases List.mem_cons.1 hy with rfl | hy
    · exact ⟨h48, h1.2⟩
    · exact h2 y hy
  · intro e
    simp only [List.head?_cons, Option.some.injEq] at e
    subst e
    exact absurd h1.1 (by decide)

theorem whole_zero : Whole [48] := ⟨⟨by simp, by decide⟩, fun _ => rfl⟩

/-- A value that starts like a number is one. -/
theorem valid_number {st : List Ctx} {c : UInt8} {t : Str} (h : validGo ⟨.beginValue, st⟩ (c :: t) = true) (hs : isSpace c = false)
    (hc : c ≠ 123 ∧ c ≠ 91 ∧ c ≠ 34 ∧ c ≠ 116 ∧ c ≠ 102 ∧ c ≠ 110) :
    ∃ w x, c :: t = w ++ x ∧ Number w ∧ validGo ⟨.endValue, st⟩ x = true := by
  obtain ⟨c1, c2, c3, c4, c5, c6⟩ := hc
  by_cases h45 : c = 45
  · subst h45
    rw [valid_step (s1 := ⟨.neg, st⟩) (op := .beginLiteral) rfl (by decide)] at h
    cases t with
    | nil => simp [validGo, eof, step, fail] at h
    | cons b t =>
      by_cases h48 : b = 48
      · subst h48
        rw [valid_step (s1 := ⟨.zero, st⟩) (op := .cont) rfl (by decide)] at h
        obtain ⟨f, g, x, rfl, h1, h2, h3⟩ := valid_after_zero h
        exact ⟨[45] ++ [48] ++ f ++ g, x, by simp, ⟨[45], [48], f, g, .inr rfl, whole_zero, h1, h2, rfl⟩, h3⟩
      · by_cases h49 : 49 ≤ b ∧ b ≤ 57
        · rw [valid_step (s1 := ⟨.one, st⟩) (op := .cont) (by simp [step, h48, h49]) (by decide)] at h
          obtain ⟨d, f, g, x, rfl, h0, h1, h2, h3⟩ := valid_one h
          exact ⟨[45] ++ (b :: d) ++ f ++ g, x, by simp, ⟨[45], b :: d, f, g, .inr rfl, whole_of h49 h0, h1, h2, rfl⟩, h3⟩
        · rw [valid_fail (st := st) (by simp only [step, if_neg h48, if_neg h49])] at h
          cases h
  · by_cases h48 : c = 48
    · subst h48
      rw [valid_step (s1 := ⟨.zero, st⟩) (op := .beginLiteral) rfl (by decide)] at h
      obtain ⟨f, g, x, rfl, h1, h2, h3⟩ := valid_after_zero h
      exact ⟨[] ++ [48] ++ f ++ g, x, by simp, ⟨[], [48], f, g, .inl rfl, whole_zero, h1, h2, rfl⟩, h3⟩
    · by_cases h49 : 49 ≤ c ∧ c ≤ 57
      · rw [valid_step (s1 := ⟨.one, st⟩) (op := .beginLiteral) (by
          simp only [step, beginValue, hs, Bool.false_eq_true, if_false, if_neg c1, if_neg c2, if_neg c3, if_neg c4, if_neg c5, if_neg c6, if_neg h45, if_neg h48,
            if_pos h49]) (by decide)] at h
        obtain ⟨d, f, g, x, rfl, h0, h1, h2, h3⟩ := valid_one h
        exact ⟨[] ++ (c :: d) ++ f ++ g, x, by simp, ⟨[], c :: d, f, g, .inl rfl, whole_of h49 h0, h1, h2, rfl⟩, h3⟩
      · rw [valid_fail (st := st) (by
          simp only [step, beginValue, hs, Bool.false_eq_true, if_false, if_neg c1, if_neg c2, if_neg c3, if_neg c4, if_neg c5, if_neg c6, if_neg h45, if_neg h48,
            if_neg h49])] at h
        cases h

/-! ### Texts -/

theorem valid_pop (x : Ctx) (st : List Ctx) (r : Str) : validGo (pop (x :: st)) r = validGo ⟨.endValue, st⟩ r := by
  cases st with
  | nil => exact valid_same (fun _ _ _ => rfl) rfl
  | cons y t => rfl

section
variable {numOf : Str → Option Int}

abbrev M (numOf : Str → Option Int) : What → Str → Prop := Means (NumberText numOf) GoString

theorem literal_inv {l : Str} {j j' : Json} {t r : Str} (h : literal l j t = some (j', r)) : t = l ++ r ∧ j' = j := by
  unfold literal at h
  split at h
  · rename_i hp
    obtain ⟨x, rfl⟩ := List.isPrefixOf_iff_prefix.1 hp
    simp only [List.drop_left, Option.some.injEq, Prod.mk.injEq] at h
    exact ⟨by rw [h.2], h.1.symm⟩
  · cases h

theorem valid_lit_run {w : Str} (h : IsLit w) (hex : ∀ st c t s1, w = c :: t → step ⟨.beginValue, st⟩ c = (s1, .beginLiteral) → Run s1 t ⟨.endValue, st⟩)
    (st : List Ctx) (r : Str) : validGo ⟨.beginValue, st⟩ (w ++ r) = validGo ⟨.endValue, st⟩ r := by
  obtain ⟨c, t, rfl, h⟩ := h
  obtain ⟨s1, s', h1, h2, h3⟩ := h st
  rw [List.cons_append, valid_step h1 (by decide), validGo_run (hex st c t s1 rfl h1)]

/-- What is read. -/
def SoundAt (numOf : Str → Option Int) (fuel : Nat) : Prop :=
  (∀ st s j r, (∀ c t, s = c :: t → isSpace c = false) → value numOf fuel s = some (j, r) → validGo ⟨.beginValue, st⟩ s = true →
    ∃ w, s = w ++ r ∧ M numOf (.value j) w ∧ validGo ⟨.endValue, st⟩ r = true) ∧
  (∀ st s l r, elems numOf fuel s = some (l, r) → validGo ⟨.beginValue, .arr :: st⟩ s = true →
    ∃ w, s = w ++ 93 :: r ∧ M numOf (.elems l) w ∧ validGo ⟨.endValue, st⟩ r = true) ∧
  (∀ st s o o' r, members numOf fuel o s = some (o', r) → validGo ⟨.beginString, .key :: st⟩ s = true →
    ∃ w ms, s = w ++ 125 :: r ∧ M numOf (.members ms) w ∧ o' = ms.foldl (fun o e => assign e.1 e.2 o) o ∧ validGo ⟨.endValue, st⟩ r = true)

theorem valid_string {st : List Ctx} {b s r : Str} (hb : GoBody b s) : validGo ⟨.inString, st⟩ (b ++ 34 :: r) = validGo ⟨.endValue, st⟩ r := by
  rw [validGo_run (body_run hb st), valid_step (s1 := ⟨.endValue, st⟩) (op := .cont) rfl (by decide)]

theorem sound (fuel : Nat) : SoundAt numOf fuel := by
  induction fuel with
  | zero => exact ⟨fun _ _ _ _ _ h => (by simp [value] at h), fun _ _ _ _ h => (by simp [elems] at h), fun _ _ _ _ _ h => (by simp [members] at h)⟩
  | succ fuel ih =>
    obtain ⟨ihV, ihE, ihM⟩ := ih
    refine ⟨?_, ?_, ?_⟩
    · intro st s j r hsp h hv
      cases s with
      | nil => simp [value] at h
      | cons c t =>
        have hs := hsp c t rfl
        simp only [value] at h
        by_cases c1 : c = 123
        · subst c1
          rw [if_pos rfl] at h
          rw [valid_step (s1 := ⟨.beginStringOrEmpty, .key :: st⟩) (op := .beginObject) rfl (by decide)] at hv
          obtain ⟨a, ha, e, hns⟩ := skipSpaces_inv t
          cases hsk : skipSpaces t with
          | nil => rw [hsk] at h; simp at h
          | cons d r' =>
            rw [hsk] at h e
            simp only at h
            rw [e, validGo_blank (skips_begin (by decide) _) ha] at hv
            by_cases hd : d = 125
            · subst hd
              simp only [if_true, Option.some.injEq, Prod.mk.injEq] at h
              obtain ⟨rfl, rfl⟩ := h
              refine ⟨123 :: (a ++ [125]), by rw [e]; simp, .obj0 ha, ?_⟩
              rw [valid_step (s1 := pop (.val :: st)) (op := .endObject) rfl (by decide), valid_pop] at hv
              exact hv
            · rw [if_neg hd] at h
              have hds := hns d r' hsk
              have hv' : validGo ⟨.beginString, .key :: st⟩ t = true := by
                rw [e, validGo_blank (skips_begin (by decide) _) ha, ← hv]
                symm
                refine valid_same (fun x y e => ?_) rfl
                cases e
                simp only [step, hds, Bool.false_eq_true, if_false, if_neg hd]
              cases hm : members numOf fuel [] t with
              | none => rw [hm] at h; simp at h
              | some p =>
                obtain ⟨o, x⟩ := p
                rw [hm] at h
                simp only [Option.map_some, Option.some.injEq, Prod.mk.injEq] at h
                obtain ⟨rfl, rfl⟩ := h
                obtain ⟨w, ms, rfl, h1, h2, h3⟩ := ihM st t [] o x hm hv'
                exact ⟨123 :: (w ++ [125]), by simp, .obj h1 ((collect_iff ms o).2 h2), h3⟩
        rw [if_neg c1] at h
        by_cases c2 : c = 91
        · subst c2
          rw [if_pos rfl] at h
          rw [valid_step (s1 := ⟨.beginValueOrEmpty, .arr :: st⟩) (op := .beginArray) rfl (by decide)] at hv
          obtain ⟨a, ha, e, hns⟩ := skipSpaces_inv t
          cases hsk : skipSpaces t with
          | nil => rw [hsk] at h; simp at h
          | cons d r' =>
            rw [hsk] at h e
            simp only at h
            rw [e, validGo_blank (skips_begin (by decide) _) ha] at hv
            by_cases hd : d = 93
            · subst hd
              simp only [if_true, Option.some.injEq, Prod.mk.injEq] at h
              obtain ⟨rfl, rfl⟩ := h
              refine ⟨91 :: (a ++ [93]), by rw [e]; simp, .arr0 ha, ?_⟩
              rw [valid_step (s1 := pop (.arr :: st)) (op := .endArray) rfl (by decide), valid_pop] at hv
              exact hv
            · rw [if_neg hd] at h
              have hds := hns d r' hsk
              have hv' : validGo ⟨.beginValue, .arr :: st⟩ t = true := by
                rw [e, validGo_blank (skips_begin (by decide) _) ha, ← hv]
                symm
                refine valid_same (fun x y e => ?_) rfl
                cases e
                simp only [step, hds, Bool.false_eq_true, if_false, if_neg hd]
              cases hm : elems numOf fuel t with
              | none => rw [hm] at h; simp at h
              | some p =>
                obtain ⟨o, x⟩ := p
                rw [hm] at h
                simp only [Option.map_some, Option.some.injEq, Prod.mk.injEq] at h
                obtain ⟨rfl, rfl⟩ := h
                obtain ⟨w, rfl, h1, h3⟩ := ihE st t o x hm hv'
                exact ⟨91 :: (w ++ [93]), by simp, .arr h1, h3⟩
        rw [if_neg c2] at h
        by_cases c3 : c = 34
        · subst c3
          rw [if_pos rfl] at h
          cases hg : strGo 0 t with
          | none => rw [hg] at h; simp at h
          | some p =>
            obtain ⟨v, x⟩ := p
            rw [hg] at h
            simp only [Option.map_some, Option.some.injEq, Prod.mk.injEq] at h
            obtain ⟨rfl, rfl⟩ := h
            obtain ⟨b, rfl, hb⟩ := (strGo_iff _ _ _).1 hg
            refine ⟨34 :: (b ++ [34]), by simp, .str ⟨b, hb, rfl⟩, ?_⟩
            rw [valid_step (s1 := ⟨.inString, st⟩) (op := .beginLiteral) rfl (by decide), valid_string hb] at hv
            exact hv
        rw [if_neg c3] at h
        by_cases c4 : c = 116
        · rw [if_pos c4] at h
          obtain ⟨e, rfl⟩ := literal_inv h
          rw [e] at hv ⊢
          refine ⟨_, rfl, .true_, ?_⟩
          rw [valid_lit_run lit_true] at hv
          · exact hv
          · intro st c t s1 e h
            cases e
            cases h
            exact .cons rfl (.cons rfl (.cons rfl .nil))
        rw [if_neg c4] at h
        by_cases c5 : c = 102
        · rw [if_pos c5] at h
          obtain ⟨e, rfl⟩ := literal_inv h
          rw [e] at hv ⊢
          refine ⟨_, rfl, .false_, ?_⟩
          rw [valid_lit_run lit_false] at hv
          · exact hv
          · intro st c t s1 e h
            cases e
            cases h
            exact .cons rfl (.cons rfl (.cons rfl (.cons rfl .nil)))
        rw [if_neg c5] at h
        by_cases c6 : c = 110
        · rw [if_pos c6] at h
          obtain ⟨e, rfl⟩ := literal_inv h
          rw [e] at hv ⊢
          refine ⟨_, rfl, .null, ?_⟩
          rw [valid_lit_run lit_null] at hv
          · exact hv
          · intro st c t s1 e h
            cases e
            cases h
            exact .cons rfl (.cons rfl (.cons rfl .nil))
        rw [if_neg c6] at h
        obtain ⟨w, x, e, hw, hx⟩ := valid_number hv hs ⟨c1, c2, c3, c4, c5, c6⟩
        rw [e] at h ⊢
        obtain ⟨h1, h2⟩ := takeWhile_all (number_bytes hw) (valid_end_delim hx)
        rw [h1, h2] at h
        cases hn : numOf w with
        | none => rw [hn] at h; simp at h
        | some n =>
          rw [hn] at h
          simp only [Option.map_some, Option.some.injEq, Prod.mk.injEq] at h
          obtain ⟨rfl, rfl⟩ := h
          exact ⟨w, rfl, .num ⟨hw, hn⟩, hx⟩
    · intro st s l r h hv
      simp only [elems] at h
      obtain ⟨a, ha, e, hns⟩ := skipSpaces_inv s
      rw [e, validGo_blank (skips_begin (by decide) _) ha] at hv
      cases hval : value numOf fuel (skipSpaces s) with
      | none => rw [hval] at h; simp at h
      | some p =>
        obtain ⟨j, x⟩ := p
        rw [hval] at h
        simp only at h
        obtain ⟨w, e1, hw, hx⟩ := ihV _ _ _ _ hns hval hv
        obtain ⟨b, hb, e2, _⟩ := skipSpaces_inv x
        cases hsk : skipSpaces x with
        | nil => rw [hsk] at h; simp at h
        | cons c y =>
          rw [hsk] at h e2
          simp only at h
          rw [e2, validGo_blank (skips_end _ _) hb] at hx
          by_cases h44 : c = 44
          · subst h44
            rw [if_pos rfl] at h
            rw [valid_step (s1 := ⟨.beginValue, .arr :: st⟩) (op := .arrayValue) rfl (by decide)] at hx
            cases hm : elems numOf fuel y with
            | none => rw [hm] at h; simp at h
            | some p =>
              obtain ⟨l', z⟩ := p
              rw [hm] at h
              simp only [Option.map_some, Option.some.injEq, Prod.mk.injEq] at h
              obtain ⟨rfl, rfl⟩ := h
              obtain ⟨w', rfl, hw', hz⟩ := ihE st y l' z hm hx
              exact ⟨a ++ (w ++ (b ++ 44 :: w')), by rw [e, e1, e2]; simp, .elems ha hw hb hw', hz⟩
          · rw [if_neg h44] at h
            by_cases h93 : c = 93
            · subst h93
              simp only [if_true, Option.some.injEq, Prod.mk.injEq] at h
              obtain ⟨rfl, rfl⟩ := h
              rw [valid_step (s1 := pop (.arr :: st)) (op := .endArray) rfl (by decide), valid_pop] at hx
              exact ⟨a ++ (w ++ b), by rw [e, e1, e2]; simp, .elem ha hw hb, hx⟩
            · rw [if_neg h93] at h; cases h
    · intro st s o o' r h hv
      simp only [members] at h
      obtain ⟨a, ha, e, hns⟩ := skipSpaces_inv s
      rw [e, validGo_blank (skips_begin (by decide) _) ha] at hv
      cases hsk : skipSpaces s with
      | nil => rw [hsk] at h; simp at h
      | cons c s1 =>
        rw [hsk] at h e hv
        simp only at h
        by_cases h34 : c = 34
        · subst h34
          rw [if_pos rfl] at h
          cases hg : strGo 0 s1 with
          | none => rw [hg] at h; simp at h
          | some p =>
            obtain ⟨k, s2⟩ := p
            rw [hg] at h
            simp only at h
            obtain ⟨b, rfl, hb⟩ := (strGo_iff _ _ _).1 hg
            rw [valid_step (s1 := ⟨.inString, .key :: st⟩) (op := .beginLiteral) rfl (by decide), valid_string hb] at hv
            obtain ⟨a2, ha2, e2, _⟩ := skipSpaces_inv s2
            cases hsk2 : skipSpaces s2 with
            | nil => rw [hsk2] at h; simp at h
            | cons c2 s3 =>
              rw [hsk2] at h e2
              simp only at h
              rw [e2, validGo_blank (skips_end _ _) ha2] at hv
              by_cases h58 : c2 = 58
              · subst h58
                rw [if_pos rfl] at h
                rw [valid_step (s1 := ⟨.beginValue, .val :: st⟩) (op := .objectKey) rfl (by decide)] at hv
                obtain ⟨a3, ha3, e3, hns3⟩ := skipSpaces_inv s3
                rw [e3, validGo_blank (skips_begin (by decide) _) ha3] at hv
                cases hval : value numOf fuel (skipSpaces s3) with
                | none => rw [hval] at h; simp at h
                | some p =>
                  obtain ⟨j, x⟩ := p
                  rw [hval] at h
                  simp only at h
                  obtain ⟨w, e1, hw, hx⟩ := ihV _ _ _ _ hns3 hval hv
                  obtain ⟨a4, ha4, e4, _⟩ := skipSpaces_inv x
                  cases hsk4 : skipSpaces x with
                  | nil => rw [hsk4] at h; simp at h
                  | cons c4 y =>
                    rw [hsk4] at h e4
                    simp only at h
                    rw [e4, validGo_blank (skips_end _ _) ha4] at hx
                    by_cases h44 : c4 = 44
                    · subst h44
                      rw [if_pos rfl] at h
                      rw [valid_step (s1 := ⟨.beginString, .key :: st⟩) (op := .objectValue) rfl (by decide)] at hx
                      obtain ⟨w', ms, rfl, hw', ho, hz⟩ := ihM st y _ o' r h hx
                      exact ⟨a ++ ((34 :: (b ++ [34])) ++ (a2 ++ 58 :: (a3 ++ (w ++ (a4 ++ 44 :: w'))))), (k, j) :: ms,
                        by rw [e, e2, e3, e1, e4]; simp, .members ha ⟨b, hb, rfl⟩ ha2 ha3 hw ha4 hw', ho, hz⟩
                    · rw [if_neg h44] at h
                      by_cases h125 : c4 = 125
                      · subst h125
                        simp only [if_true, Option.some.injEq, Prod.mk.injEq] at h
                        obtain ⟨rfl, rfl⟩ := h
                        rw [valid_step (s1 := pop (.val :: st)) (op := .endObject) rfl (by decide), valid_pop] at hx
                        exact ⟨a ++ ((34 :: (b ++ [34])) ++ (a2 ++ 58 :: (a3 ++ (w ++ a4)))), [(k, j)],
                          by rw [e, e2, e3, e1, e4]; simp, .member ha ⟨b, hb, rfl⟩ ha2 ha3 hw ha4, rfl, hx⟩
                      · rw [if_neg h125] at h; cases h
              · rw [if_neg h58] at h; cases h
        · rw [if_neg h34] at h; cases h

theorem valid_end_blank {r : Str} (h : validGo ⟨.endTop, []⟩ r = true) : Blank r := by
  induction r with
  | nil => exact blank_none
  | cons c t ih =>
    cases hc : isSpace c with
    | true =>
      rw [valid_step (s1 := ⟨.endTop, []⟩) (op := .fin) (by simp [step, endTop, hc]) (by decide)] at h
      intro x hx
      rcases List.mem_cons.1 hx with rfl | hx
      · exact (isSpace_iff _).1 hc
      · exact ih h x hx
    | false =>
      have := (valid_inv h).2
      simp only [step, endTop, hc, Bool.false_eq_true, if_false] at this
      rw [valid_error] at this
      cases this

/-- `json.Unmarshal` gives exactly the meanings of JSON texts. -/
theorem unmarshal_iff (t : Str) (j : Json) : unmarshal numOf t = some j ↔ Doc (NumberText numOf) GoString t j := by
  refine ⟨fun h => ?_, dec_doc⟩
  unfold unmarshal at h
  split at h
  · rename_i hv
    obtain ⟨a, ha, e, hns⟩ := skipSpaces_inv t
    cases hval : value numOf (t.length + 1) (skipSpaces t) with
    | none => rw [hval] at h; simp at h
    | some p =>
      obtain ⟨j', r⟩ := p
      rw [hval] at h
      simp only [Option.map_some, Option.some.injEq] at h
      subst h
      unfold valid start at hv
      rw [e, validGo_blank (skips_begin (by decide) _) ha] at hv
      obtain ⟨w, e1, hw, hr⟩ := (sound _).1 _ _ _ _ hns hval hv
      have hr' : validGo ⟨.endTop, []⟩ r = true := by
        rw [← hr]
        exact valid_same (fun _ _ _ => rfl) rfl
      exact ⟨a, w, r, ha, valid_end_blank hr', by rw [← e1]; exact e, hw⟩
  · cases h
end

end Oapi.JsonText
