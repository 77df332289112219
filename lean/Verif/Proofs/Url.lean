import Verif.Spec.Pointer
import Verif.Proofs.Fragment

namespace Oapi.Url
open Oapi Spec

/-! ### Character classes -/

instance (c : UInt8) : Decidable (UriByte c) := by unfold UriByte; infer_instance
instance (c : UInt8) : Decidable (ImportByte c) := by unfold ImportByte; infer_instance

theorem all_bytes {P : UInt8 → Prop} [DecidablePred P] (h : ∀ n : Fin 256, P (UInt8.ofNat n.val)) (c : UInt8) : P c := by
  have := h ⟨c.toNat, c.toNat_lt⟩
  simpa using this

set_option maxRecDepth 4000 in
theorem uri_facts (c : UInt8) : UriByte c →
    c < 128 ∧ c ≠ 35 ∧ ¬ (c < 32) ∧ c ≠ 127 ∧ UriByte (Str.lowerByte c) ∧
    (c ≠ 63 → (decide (c ∈ b!"!$&'()*+,;=:@[]%") || !shouldEscape .path c) = true) ∧
    (c ≠ 63 → c ≠ 47 → c ≠ 64 → c ≠ 37 → shouldEscape .host c = false) := by
  refine all_bytes (P := fun c => UriByte c →
    c < 128 ∧ c ≠ 35 ∧ ¬ (c < 32) ∧ c ≠ 127 ∧ UriByte (Str.lowerByte c) ∧
    (c ≠ 63 → (decide (c ∈ b!"!$&'()*+,;=:@[]%") || !shouldEscape .path c) = true) ∧
    (c ≠ 63 → c ≠ 47 → c ≠ 64 → c ≠ 37 → shouldEscape .host c = false)) ?_ c
  decide

set_option maxRecDepth 4000 in
theorem import_facts (c : UInt8) : ImportByte c →
    UriByte c ∧ c ≠ 63 ∧ c ≠ 58 ∧ c ≠ 64 ∧ c ≠ 91 ∧ c ≠ 42 ∧ shouldEscape .path c = false ∧ c ≠ 37 := by
  refine all_bytes (P := fun c => ImportByte c →
    UriByte c ∧ c ≠ 63 ∧ c ≠ 58 ∧ c ≠ 64 ∧ c ≠ 91 ∧ c ≠ 42 ∧ shouldEscape .path c = false ∧ c ≠ 37) ?_ c
  decide

/-! ### Splitting -/

theorem cut_none {c : UInt8} {s : Str} (h : c ∉ s) : Str.cut c s = (s, none) := by
  induction s with
  | nil => rfl
  | cons x t ih =>
    simp only [List.mem_cons, not_or] at h
    simp only [Str.cut]
    rw [if_neg (fun e => h.1 e.symm), ih h.2]

theorem cut_some {c : UInt8} {s t : Str} (h : c ∉ s) : Str.cut c (s ++ c :: t) = (s, some t) := by
  induction s with
  | nil => simp [Str.cut]
  | cons x s ih =>
    simp only [List.mem_cons, not_or] at h
    simp only [List.cons_append, Str.cut]
    rw [if_neg (fun e => h.1 e.symm), ih h.2]

theorem leftmost {c : UInt8} {s : Str} (h : c ∈ s) : ∃ a t, s = a ++ c :: t ∧ c ∉ a := by
  induction s with
  | nil => cases h
  | cons x s ih =>
    by_cases hx : x = c
    · exact ⟨[], s, by rw [hx]; rfl, by simp⟩
    · have hs : c ∈ s := by
        rcases List.mem_cons.1 h with e' | e'
        · exact absurd e'.symm hx
        · exact e'
      obtain ⟨a'', t'', e'', h''⟩ := ih hs
      exact ⟨x :: a'', t'', by rw [e'']; rfl, by simp only [List.mem_cons, not_or]; exact ⟨fun e => hx e.symm, h''⟩⟩

theorem cut_cases (c : UInt8) (s : Str) :
    (c ∉ s ∧ Str.cut c s = (s, none)) ∨ ∃ a t, c ∉ a ∧ s = a ++ c :: t ∧ Str.cut c s = (a, some t) := by
  by_cases h : c ∈ s
  · right
    obtain ⟨a, t, rfl, ha⟩ := leftmost h
    exact ⟨a, t, ha, rfl, cut_some ha⟩
  · exact Or.inl ⟨h, cut_none h⟩

theorem lastColon_none {s : Str} : fromLastColon s = none ↔ (58 : UInt8) ∉ s := by
  induction s with
  | nil => simp [fromLastColon]
  | cons c t ih =>
    rw [fromLastColon]
    cases h : fromLastColon t with
    | none =>
      have := ih.1 h
      by_cases hc : c = 58
      · simp [hc]
      · simp only [hc, if_false, List.mem_cons, this, or_false, true_iff]
        exact fun e => hc e.symm
    | some r =>
      have : (58 : UInt8) ∈ t := by
        by_cases hm : (58 : UInt8) ∈ t
        · exact hm
        · rw [ih.2 hm] at h; cases h
      simp [this]

theorem lastColon_some {s : Str} (a b : Str) (hb : (58 : UInt8) ∉ b) (e : s = a ++ 58 :: b) : fromLastColon s = some (58 :: b) := by
  subst e
  induction a with
  | nil => rw [List.nil_append, fromLastColon, lastColon_none.2 hb]; rfl
  | cons c t ih => rw [List.cons_append, fromLastColon, ih]

theorem lastColon_inv {s r : Str} (h : fromLastColon s = some r) : ∃ a b, (58 : UInt8) ∉ b ∧ s = a ++ 58 :: b ∧ r = 58 :: b := by
  induction s with
  | nil => cases h
  | cons c t ih =>
    rw [fromLastColon] at h
    cases ht : fromLastColon t with
    | none =>
      rw [ht] at h
      simp only at h
      split at h
      · rename_i hc
        injection h with h
        exact ⟨[], t, lastColon_none.1 ht, by rw [hc]; rfl, by rw [← h, hc]⟩
      · cases h
    | some r' =>
      rw [ht] at h
      obtain ⟨a, b, h1, h2, h3⟩ := ih (ht.trans h)
      exact ⟨c :: a, b, h1, by rw [h2]; rfl, h3⟩

/-- The printed query. -/
def queryStr (fq : Bool) (q : Str) : Str := if fq ∨ q ≠ [] then 63 :: q else []

theorem splitQuery_spec (rest : Str) : ∃ r fq q, splitQuery rest = (r, fq, q) ∧ rest = r ++ queryStr fq q ∧ (63 : UInt8) ∉ r ∧
    (fq = true → q = []) := by
  unfold splitQuery
  rcases cut_cases 63 rest with ⟨h, e⟩ | ⟨a, t, h, e1, e⟩
  · rw [e]; exact ⟨rest, false, [], rfl, by simp [queryStr], h, by simp⟩
  · rw [e]
    cases t with
    | nil => exact ⟨a, true, [], rfl, by simp [queryStr, e1], h, by simp⟩
    | cons x t => exact ⟨a, false, x :: t, rfl, by simp [queryStr, e1], h, by simp⟩

theorem splitQuery_of {r : Str} (h : (63 : UInt8) ∉ r) {fq : Bool} {q : Str} (hq : fq = true → q = []) :
    splitQuery (r ++ queryStr fq q) = (r, fq, q) := by
  unfold splitQuery queryStr
  cases fq with
  | true =>
    rw [hq rfl]
    simp only [true_or, if_true]
    rw [cut_some h]
  | false =>
    cases q with
    | nil => simp [cut_none h]
    | cons x t => simp only [ne_eq, reduceCtorEq, not_false_eq_true, or_true, if_true]; rw [cut_some h]

/-! ### Escaping -/

theorem unescape_plain {m : Mode} {s : Str} (h1 : (37 : UInt8) ∉ s) {t : Str} (h : unescape m s = some t) : t = s := by
  induction s generalizing t with
  | nil => unfold unescape at h; cases h; rfl
  | cons c s ih =>
    simp only [List.mem_cons, not_or] at h1
    unfold unescape at h
    rw [if_neg (fun e => h1.1 e.symm)] at h
    split at h
    · cases h
    · cases hu : unescape m s with
      | none => rw [hu] at h; cases h
      | some u =>
        rw [hu] at h; cases h
        rw [ih h1.2 hu]

theorem unescape_id {m : Mode} {s : Str} (h1 : (37 : UInt8) ∉ s) (h2 : m = .host ∨ m = .zone → ∀ c ∈ s, shouldEscape m c = false) :
    unescape m s = some s := by
  induction s with
  | nil => rfl
  | cons c s ih =>
    simp only [List.mem_cons, not_or] at h1
    unfold unescape
    rw [if_neg (fun e => h1.1 e.symm), if_neg, ih h1.2 (fun hm x hx => h2 hm x (by simp [hx]))]
    · rfl
    · rintro ⟨hm, _, hs⟩
      rw [h2 hm c (by simp)] at hs; cases hs

theorem escape_id {m : Mode} {s : Str} (h : ∀ c ∈ s, shouldEscape m c = false) : escape m s = s := by
  induction s with
  | nil => rfl
  | cons c s ih =>
    simp only [escape, List.flatMap_cons, h c (by simp), Bool.false_eq_true, if_false, List.singleton_append]
    have := ih (fun x hx => h x (by simp [hx]))
    rw [escape] at this; rw [this]

/-- A path made of URL characters prints as it was written, but for "*". -/
theorem escapedPath_setPath {u v : URL} {p : Str} (hp : ∀ c ∈ p, UriByte c ∧ c ≠ 63) (h : setPath u p = some v) :
    ∃ q, unescape .path p = some q ∧ v = { u with path := q, rawPath := if p = escape .path q then [] else p } ∧
      (escapedPath v = p ∨ p = b!"%2A" ∧ q = b!"*" ∧ escapedPath v = b!"*") := by
  unfold setPath at h
  split at h
  · cases h
  · rename_i q hu
    simp only [Option.some.injEq] at h
    subst h
    refine ⟨q, hu, rfl, ?_⟩
    unfold escapedPath
    by_cases e : p = escape .path q
    · simp only [if_pos e]
      rw [if_neg (by simp)]
      split
      · rename_i h
        rw [h] at e
        exact .inr ⟨e.trans (by decide), h, rfl⟩
      · exact .inl e.symm
    · simp only [if_neg e]
      have hv : validEncoded .path p = true := by
        unfold validEncoded
        rw [List.all_eq_true]
        intro c hc
        exact (uri_facts c (hp c hc).1).2.2.2.2.2.1 (hp c hc).2
      have hne : p ≠ [] := by
        rintro rfl
        cases hu
        exact e rfl
      rw [if_pos ⟨hne, hv, hu⟩]
      exact .inl rfl

theorem setPath_plain {u : URL} {p : Str} (hp : (37 : UInt8) ∉ p) :
    setPath u p = some { u with path := p, rawPath := if p = escape .path p then [] else p } := by
  unfold setPath
  rw [unescape_id hp (by intro e; rcases e with e | e <;> cases e)]

/-! ### Schemes -/

theorem getscheme_go (raw acc t : Str) :
    getscheme.go raw acc t = some ([], raw) ∨ getscheme.go raw acc t = none ∨
    ∃ s rest, t = s ++ 58 :: rest ∧ getscheme.go raw acc t = some (acc ++ s, rest) ∧ acc ++ s ≠ [] ∧
      (∀ c ∈ s, (isLower c || isUpper c || isDigit c || decide (c ∈ b!"+-.")) = true) ∧
      (acc = [] → ∃ c s', s = c :: s' ∧ (isLower c || isUpper c) = true) := by
  induction t generalizing acc with
  | nil => exact Or.inl rfl
  | cons c t ih =>
    unfold getscheme.go
    split
    · rename_i hc
      rcases ih (acc ++ [c]) with h | h | ⟨s, rest, e, h, hne, hs, _⟩
      · exact Or.inl h
      · exact Or.inr (Or.inl h)
      · refine Or.inr (Or.inr ⟨c :: s, rest, by rw [e]; rfl, by rw [h]; simp, by simp, ?_, fun _ => ⟨c, s, rfl, hc⟩⟩)
        intro x hx
        rcases List.mem_cons.1 hx with rfl | hx
        · simp [hc]
        · exact hs x hx
    · split
      · split
        · exact Or.inl rfl
        · rename_i hc hd ha
          rcases ih (acc ++ [c]) with h | h | ⟨s, rest, e, h, hne, hs, _⟩
          · exact Or.inl h
          · exact Or.inr (Or.inl h)
          · refine Or.inr (Or.inr ⟨c :: s, rest, by rw [e]; rfl, by rw [h]; simp, by simp, ?_, fun h => ?_⟩)
            · intro x hx
              rcases List.mem_cons.1 hx with rfl | hx
              · rw [Bool.or_assoc, hd]; simp
              · exact hs x hx
            · rw [h] at ha; simp at ha
      · split
        · rename_i hc
          split
          · exact Or.inr (Or.inl rfl)
          · rename_i ha
            refine Or.inr (Or.inr ⟨[], t, by rw [hc]; rfl, by simp, by simpa using ha, by simp, fun h => ?_⟩)
            rw [h] at ha; simp at ha
        · exact Or.inl rfl

theorem getscheme_go_of {raw : Str} {s rest : Str} : ∀ {acc : Str},
    (∀ c ∈ s, (isLower c || isUpper c || isDigit c || decide (c ∈ b!"+-.")) = true) → (acc ≠ [] ∨ ∃ c s', s = c :: s' ∧ (isLower c || isUpper c) = true) →
    getscheme.go raw acc (s ++ 58 :: rest) = some (acc ++ s, rest) := by
  induction s with
  | nil =>
    intro acc _ h
    rcases h with h | ⟨c, s', e, _⟩
    · simp only [List.nil_append, getscheme.go]
      rw [if_neg (by decide), if_neg (by decide), if_pos trivial, if_neg (by simpa using h), List.append_nil]
    · cases e
  | cons c s ih =>
    intro acc hs h
    simp only [List.cons_append]
    unfold getscheme.go
    have ih' := ih (acc := acc ++ [c]) (fun x hx => hs x (by simp [hx])) (Or.inl (by simp))
    have e : acc ++ [c] ++ s = acc ++ c :: s := by simp
    rw [e] at ih'
    by_cases hl : (isLower c || isUpper c) = true
    · rw [if_pos hl, ih']
    · rw [if_neg hl]
      have hc := hs c (by simp)
      have hd : (isDigit c || decide (c ∈ b!"+-.")) = true := by
        rw [Bool.or_assoc] at hc
        simp only [Bool.or_eq_true] at hc hl ⊢
        rcases hc with hc | hc
        · exact absurd hc hl
        · exact hc
      rw [if_pos hd]
      rcases h with h | ⟨c', s', e', h'⟩
      · rw [if_neg (by simpa using h), ih']
      · cases e'; exact absurd h' hl

set_option maxRecDepth 4000 in
theorem lower_scheme_byte (c : UInt8) : (isLower c || isUpper c || isDigit c || decide (c ∈ b!"+-.")) = true →
    (isLower (Str.lowerByte c) || isUpper (Str.lowerByte c) || isDigit (Str.lowerByte c) || decide (Str.lowerByte c ∈ b!"+-.")) = true ∧
    ((isLower c || isUpper c) = true → (isLower (Str.lowerByte c) || isUpper (Str.lowerByte c)) = true) ∧
    Str.lowerByte (Str.lowerByte c) = Str.lowerByte c ∧ UriByte (Str.lowerByte c) := by
  refine all_bytes (P := fun c => (isLower c || isUpper c || isDigit c || decide (c ∈ b!"+-.")) = true →
    (isLower (Str.lowerByte c) || isUpper (Str.lowerByte c) || isDigit (Str.lowerByte c) || decide (Str.lowerByte c ∈ b!"+-.")) = true ∧
    ((isLower c || isUpper c) = true → (isLower (Str.lowerByte c) || isUpper (Str.lowerByte c)) = true) ∧
    Str.lowerByte (Str.lowerByte c) = Str.lowerByte c ∧ UriByte (Str.lowerByte c)) ?_ c
  decide

/-- Either there is no scheme, or the text splits into a scheme and the rest; then any lower-cased scheme reads back. -/
theorem getscheme_spec {raw sch rest : Str} (h : getscheme raw = some (sch, rest)) :
    (sch = [] ∧ rest = raw) ∨ (raw = sch ++ 58 :: rest ∧ Str.lower sch ≠ [] ∧
      Str.lower (Str.lower sch) = Str.lower sch ∧ (∀ c ∈ Str.lower sch, UriByte c) ∧
      ∀ rest', getscheme (Str.lower sch ++ 58 :: rest') = some (Str.lower sch, rest')) := by
  unfold getscheme at h
  rcases getscheme_go raw [] raw with h' | h' | ⟨s, r, e, h', hne, hs, hf⟩
  · rw [h'] at h; cases h; exact Or.inl ⟨rfl, rfl⟩
  · rw [h'] at h; cases h
  · rw [h'] at h
    simp only [List.nil_append, Option.some.injEq, Prod.mk.injEq] at h hne
    obtain ⟨rfl, rfl⟩ := h
    right
    refine ⟨e, ?_, ?_, ?_, ?_⟩
    · simpa [Str.lower] using hne
    · unfold Str.lower
      rw [List.map_map]
      apply List.map_congr_left
      intro c hc
      exact (lower_scheme_byte c (hs c hc)).2.2.1
    · intro c hc
      obtain ⟨d, hd, rfl⟩ := List.mem_map.1 hc
      exact (lower_scheme_byte d (hs d hd)).2.2.2
    · intro rest'
      have := getscheme_go_of (raw := Str.lower s ++ 58 :: rest') (s := Str.lower s) (rest := rest') (acc := [])
        (by
          intro c hc
          obtain ⟨d, hd, rfl⟩ := List.mem_map.1 hc
          exact (lower_scheme_byte d (hs d hd)).1)
        (Or.inr (by
          obtain ⟨c, s', es, hc⟩ := hf rfl
          refine ⟨Str.lowerByte c, s'.map Str.lowerByte, by rw [es]; rfl, (lower_scheme_byte c (hs c (by rw [es]; simp))).2.1 hc⟩))
      simpa [getscheme] using this

/-! ### Printing and reading back -/

theorem hasPrefix_slash (s : Str) : Str.hasPrefix s b!"/" = decide (s.head? = some 47) := by
  cases s with
  | nil => rfl
  | cons c t =>
    by_cases h : c = 47
    · subst h; simp [Str.hasPrefix, List.isPrefixOf]
    · simp [Str.hasPrefix, List.isPrefixOf, h]
      exact fun e => h e.symm

theorem colonFirst_slash {s : Str} (h : s.head? = some 47) : colonFirst s = false := by
  cases s with
  | nil => cases h
  | cons c t =>
    simp at h; subst h
    unfold colonFirst
    rcases cut_cases 58 (47 :: t) with ⟨_, e⟩ | ⟨a, u, ha, e1, e⟩
    · rw [e]
    · rw [e]
      cases a with
      | nil => simp at e1
      | cons x a => simp at e1; simp [← e1.1]

theorem no_ctl {s : Str} (h : ∀ c ∈ s, UriByte c) : (s.any fun b => decide (b < 32) || b == 127) = false := by
  rw [List.any_eq_false]
  intro c hc
  have := uri_facts c (h c hc)
  simp [this.2.2.1, this.2.2.2.1]

theorem queryStr_uri {fq : Bool} {q : Str} (h : ∀ c ∈ q, UriByte c) : ∀ c ∈ queryStr fq q, UriByte c := by
  intro c hc
  unfold queryStr at hc
  split at hc
  · rcases List.mem_cons.1 hc with rfl | hc
    · decide
    · exact h c hc
  · cases hc

/-- What `parse` does once the scheme is known. -/
theorem parse_scheme' {raw sch rest : Str} (hu : ∀ c ∈ raw, ¬ c < 32 ∧ c ≠ 127) (hne : raw ≠ b!"*") (hg : getscheme raw = some (sch, rest))
    {r : Str} {fq : Bool} {q : Str} (hs : splitQuery rest = (r, fq, q)) :
    parse raw = parseRest { scheme := Str.lower sch, forceQuery := fq, rawQuery := q } r := by
  have hc : (raw.any fun b => decide (b < 32) || b == 127) = false := by
    rw [List.any_eq_false]
    intro c hc
    have := hu c hc
    simp [this.1, this.2]
  unfold parse
  rw [hc, if_neg (by simp), if_neg hne, hg]
  simp only [hs]

theorem parse_scheme {raw sch rest : Str} (hu : ∀ c ∈ raw, UriByte c) (hne : raw ≠ b!"*") (hg : getscheme raw = some (sch, rest))
    {r : Str} {fq : Bool} {q : Str} (hs : splitQuery rest = (r, fq, q)) :
    parse raw = parseRest { scheme := Str.lower sch, forceQuery := fq, rawQuery := q } r :=
  parse_scheme' (fun c hc => have := uri_facts c (hu c hc); ⟨this.2.2.1, this.2.2.2.1⟩) hne hg hs

/-- The part of a path after its first character. -/
def tailOf : Str → Option Str
  | [] => none
  | _ :: t => some t

end Oapi.Url
