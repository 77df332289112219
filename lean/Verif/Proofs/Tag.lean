import Verif.Spec.Tag

/-! Lemmas about the tag parser. -/
namespace Oapi.TagP
open Oapi Spec

variable {F : Type}

theorem words_disjoint {x : Str} (h : x ∈ trueWords) : x ∉ falseWords := by
  simp only [trueWords, List.mem_cons, List.not_mem_nil, or_false] at h
  rcases h with rfl | rfl | rfl | rfl | rfl | rfl <;> decide

theorem parseBool_none {x : Str} : parseBool x = none ↔ x ∉ trueWords ∧ x ∉ falseWords := by
  unfold parseBool
  by_cases h1 : x ∈ trueWords
  · simp [show x ∈ [b!"1", b!"t", b!"T", b!"true", b!"TRUE", b!"True"] from h1, h1]
  · rw [if_neg (show ¬ x ∈ [b!"1", b!"t", b!"T", b!"true", b!"TRUE", b!"True"] from h1)]
    by_cases h2 : x ∈ falseWords
    · simp [show x ∈ [b!"0", b!"f", b!"F", b!"false", b!"FALSE", b!"False"] from h2, h2]
    · rw [if_neg (show ¬ x ∈ [b!"0", b!"f", b!"F", b!"false", b!"FALSE", b!"False"] from h2)]; simp [h1, h2]

theorem parseBool_some {x : Str} {b : Bool} (h : parseBool x = some b) : b = decide (x ∈ trueWords) := by
  unfold parseBool at h
  by_cases h1 : x ∈ trueWords
  · rw [if_pos (show x ∈ [b!"1", b!"t", b!"T", b!"true", b!"TRUE", b!"True"] from h1)] at h
    cases h; simp [h1]
  · rw [if_neg (show ¬ x ∈ [b!"1", b!"t", b!"T", b!"true", b!"TRUE", b!"True"] from h1)] at h
    split at h
    · cases h; simp [h1]
    · cases h

theorem bool_iff {p : PTag} {k : Str} : TagP.bool p k = true ↔ FlagSet p k := by
  unfold TagP.bool FlagSet
  cases h : p.opt k with
  | none => simp
  | some x =>
    cases x with
    | nil => simp
    | cons a t =>
      simp only
      cases hb : parseBool (a :: t) with
      | none => 
        have := (parseBool_none.1 hb).1
        simp [this]
      | some b =>
        rw [parseBool_some hb]
        simp

theorem boolPtr_ok {p : PTag} {k : Str} {val r : Option Bool} (h : boolPtr p k val = .ok r) :
    r = (boolOpt p k).or val ∧ ¬ BadBool p k := by
  unfold boolPtr at h
  unfold boolOpt BadBool
  cases hx : p.opt k with
  | none => rw [hx] at h; cases h; simp
  | some x =>
    rw [hx] at h
    cases x with
    | nil => cases h; simp
    | cons a t =>
      simp only at h
      cases hb : parseBool (a :: t) with
      | none => rw [hb] at h; cases h
      | some b =>
        rw [hb] at h; cases h
        refine ⟨by rw [parseBool_some hb]; simp, ?_⟩
        rintro ⟨y, hy, _, h1, h2⟩
        cases hy
        rw [parseBool_none.2 ⟨h1, h2⟩] at hb; cases hb

theorem boolPtr_bad {p : PTag} {k : Str} {val : Option Bool} : BadBool p k ↔ ∃ e, boolPtr p k val = .err e := by
  constructor
  · rintro ⟨x, hx, hne, h1, h2⟩
    unfold boolPtr
    rw [hx]
    cases x with
    | nil => exact absurd rfl hne
    | cons a t => simp only [parseBool_none.2 ⟨h1, h2⟩]; exact ⟨_, rfl⟩
  · rintro ⟨e, h⟩
    unfold boolPtr at h
    cases hx : p.opt k with
    | none => rw [hx] at h; cases h
    | some x =>
      rw [hx] at h
      cases x with
      | nil => cases h
      | cons a t =>
        simp only at h
        cases hb : parseBool (a :: t) with
        | none => exact ⟨_, hx, by simp, parseBool_none.1 hb⟩
        | some b => rw [hb] at h; cases h

theorem boolPtr_cases (p : PTag) (k : Str) (val : Option Bool) :
    (BadBool p k ∧ ∃ e, boolPtr p k val = .err e) ∨ (¬ BadBool p k ∧ boolPtr p k val = .ok ((boolOpt p k).or val)) := by
  cases h : boolPtr p k val with
  | ok r => obtain ⟨rfl, h2⟩ := boolPtr_ok h; exact Or.inr ⟨h2, rfl⟩
  | err e => exact Or.inl ⟨boolPtr_bad.2 ⟨e, h⟩, e, rfl⟩
  | panic =>
    unfold boolPtr at h
    split at h
    · cases h
    · cases h
    · split at h <;> cases h

theorem digitVal_iff {c : UInt8} {d : Nat} : Str.digitVal c = some d ↔ d < 10 ∧ c = UInt8.ofNat (48 + d) := by
  unfold Str.digitVal
  constructor
  · intro h
    split at h
    · rename_i hc
      cases h
      have h1 : 48 ≤ c.toNat := hc.1
      have h2 : c.toNat ≤ 57 := hc.2
      refine ⟨by omega, ?_⟩
      apply UInt8.toNat_inj.1
      rw [UInt8.toNat_ofNat']
      omega
    · cases h
  · rintro ⟨hd, rfl⟩
    have ht : (UInt8.ofNat (48 + d)).toNat = 48 + d := by rw [UInt8.toNat_ofNat']; omega
    rw [if_pos ⟨UInt8.le_iff_toNat_le.2 (by rw [ht]; show 48 ≤ 48 + d; omega), UInt8.le_iff_toNat_le.2 (by rw [ht]; show 48 + d ≤ 57; omega)⟩, ht]
    congr 1; omega

theorem digitsVal_iff {s : Str} {n : Nat} : ∀ acc, Str.digitsVal acc s = some n ↔
    ∃ ds : List Nat, (∀ d ∈ ds, d < 10) ∧ s = ds.map (fun d => UInt8.ofNat (48 + d)) ∧ n = ds.foldl (fun n d => n * 10 + d) acc := by
  induction s with
  | nil =>
    intro acc
    constructor
    · intro h; simp only [Str.digitsVal] at h; cases h; exact ⟨[], by simp, rfl, rfl⟩
    · rintro ⟨ds, _, h2, h3⟩
      cases ds with
      | nil => subst h3; rfl
      | cons d t => cases h2
  | cons c t ih =>
    intro acc
    simp only [Str.digitsVal]
    constructor
    · intro h
      cases hc : Str.digitVal c with
      | none => rw [hc] at h; cases h
      | some d =>
        rw [hc] at h
        obtain ⟨ds, h1, h2, h3⟩ := (ih _).1 h
        obtain ⟨h4, h5⟩ := digitVal_iff.1 hc
        refine ⟨d :: ds, ?_, by rw [h5, h2]; rfl, by rw [h3]; rfl⟩
        intro x hx
        rcases List.mem_cons.1 hx with rfl | hx
        · exact h4
        · exact h1 x hx
    · rintro ⟨ds, h1, h2, h3⟩
      cases ds with
      | nil => cases h2
      | cons d ds =>
        obtain ⟨hc, ht⟩ := List.cons.inj h2
        rw [digitVal_iff.2 ⟨h1 d (by simp), hc⟩]
        exact (ih _).2 ⟨ds, fun x hx => h1 x (List.mem_cons_of_mem _ hx), ht, h3⟩

theorem parseNat_iff {s : Str} {n : Nat} : Str.parseNat s = some n ↔ Digits s n := by
  cases s with
  | nil =>
    constructor
    · intro h; cases h
    · rintro ⟨ds, h1, _, h3, _⟩
      cases ds with
      | nil => exact absurd rfl h1
      | cons d t => cases h3
  | cons c t =>
    show Str.digitsVal 0 (c :: t) = some n ↔ _
    rw [digitsVal_iff]
    constructor
    · rintro ⟨ds, h1, h2, h3⟩
      refine ⟨ds, ?_, h1, h2, h3⟩
      rintro rfl; cases h2
    · rintro ⟨ds, _, h1, h2, h3⟩
      exact ⟨ds, h1, h2, h3⟩

theorem digits_head {c : UInt8} {t : Str} {n : Nat} (h : Digits (c :: t) n) : c ≠ 45 ∧ c ≠ 43 := by
  obtain ⟨ds, _, h1, h2, _⟩ := h
  cases ds with
  | nil => cases h2
  | cons d ds =>
    obtain ⟨rfl, _⟩ := List.cons.inj h2
    have hd : d < 10 := h1 d (by simp)
    have : d = 0 ∨ d = 1 ∨ d = 2 ∨ d = 3 ∨ d = 4 ∨ d = 5 ∨ d = 6 ∨ d = 7 ∨ d = 8 ∨ d = 9 := by omega
    rcases this with rfl | rfl | rfl | rfl | rfl | rfl | rfl | rfl | rfl | rfl <;> decide

theorem atoi_iff {s : Str} {n : Int} : Str.atoi s = some n ↔
    ∃ k : Nat, (Digits s k ∧ n = k) ∨ (∃ t, s = 43 :: t ∧ Digits t k ∧ n = k) ∨ (∃ t, s = 45 :: t ∧ Digits t k ∧ n = -k) := by
  cases s with
  | nil =>
    constructor
    · intro h; cases h
    · rintro ⟨k, ⟨h, _⟩ | ⟨t, h, _⟩ | ⟨t, h, _⟩⟩
      · have := parseNat_iff.2 h; cases this
      · cases h
      · cases h
  | cons c t =>
    simp only [Str.atoi]
    constructor
    · intro h
      split at h
      · rename_i hc
        cases hp : Str.parseNat t with
        | none => rw [hp] at h; cases h
        | some k => rw [hp] at h; cases h; exact ⟨k, Or.inr (Or.inr ⟨t, by rw [hc], parseNat_iff.1 hp, rfl⟩)⟩
      · split at h
        · rename_i hc
          cases hp : Str.parseNat t with
          | none => rw [hp] at h; cases h
          | some k => rw [hp] at h; cases h; exact ⟨k, Or.inr (Or.inl ⟨t, by rw [hc], parseNat_iff.1 hp, rfl⟩)⟩
        · cases hp : Str.parseNat (c :: t) with
          | none => rw [hp] at h; cases h
          | some k => rw [hp] at h; cases h; exact ⟨k, Or.inl ⟨parseNat_iff.1 hp, rfl⟩⟩
    · rintro ⟨k, ⟨h, rfl⟩ | ⟨u, hu, h, rfl⟩ | ⟨u, hu, h, rfl⟩⟩
      · obtain ⟨h1, h2⟩ := digits_head h
        rw [if_neg h1, if_neg h2, parseNat_iff.2 h]; rfl
      · obtain ⟨rfl, rfl⟩ := List.cons.inj hu
        rw [if_neg (by decide), if_pos rfl, parseNat_iff.2 h]; rfl
      · obtain ⟨rfl, rfl⟩ := List.cons.inj hu
        rw [if_pos rfl, parseNat_iff.2 h]; rfl

theorem atoi64_iff {s : Str} {n : Int} : atoi64 s = some n ↔ IntText s n := by
  unfold atoi64 IntText
  rw [← atoi_iff]
  cases h : Str.atoi s with
  | none => simp
  | some m =>
    simp only
    constructor
    · intro h'
      split at h'
      · cases h'; refine ⟨rfl, ?_, ?_⟩ <;> omega
      · cases h'
    · rintro ⟨h1, h2, h3⟩
      cases h1
      rw [if_pos ⟨by omega, by omega⟩]

theorem atoi64_none {s : Str} : atoi64 s = none ↔ ¬ ∃ n, IntText s n := by
  cases h : atoi64 s with
  | none =>
    refine ⟨fun _ => ?_, fun _ => rfl⟩
    rintro ⟨n, hn⟩
    rw [atoi64_iff.2 hn] at h; cases h
  | some n => exact ⟨fun h' => (by cases h'), fun h' => absurd ⟨n, atoi64_iff.1 h⟩ h'⟩

theorem intOpt_bind {p : PTag} {k : Str} : IntOpt p k ((p.opt k).bind atoi64) := by
  intro n
  cases h : p.opt k with
  | none => simp
  | some x => simp [atoi64_iff]

theorem intPtr_cases (p : PTag) (k : Str) (val : Option Int) :
    (BadInt p k ∧ ∃ e, intPtr p k val = .err e) ∨ (¬ BadInt p k ∧ intPtr p k val = .ok (((p.opt k).bind atoi64).or val)) := by
  unfold BadInt intPtr
  simp only [← atoi64_none]
  cases h : p.opt k with
  | none => simp
  | some x => cases h2 : atoi64 x <;> simp [h2]

theorem floatPtr_cases (pf : Str → Option F) (p : PTag) (k : Str) (val : Option F) :
    (BadFloat pf p k ∧ ∃ e, floatPtr pf p k val = .err e) ∨ (¬ BadFloat pf p k ∧ floatPtr pf p k val = .ok (((p.opt k).bind pf).or val)) := by
  unfold BadFloat floatPtr
  cases h : p.opt k with
  | none => simp
  | some x => cases h2 : pf x <;> simp [h2]

/-- The tag an `oapi` tag makes of an earlier one. -/
def afterOAPI (pf : Str → Option F) (t : PTag) (mt : Tag F) : Tag F :=
  { mt with
    name := if t.name = [] then mt.name else t.name
    inline := (boolOpt t b!"inline").or mt.inline
    omitEmpty := TagP.bool t b!"omitempty"
    nullable := (boolOpt t b!"nullable").or mt.nullable
    readOnly := TagP.bool t b!"readonly"
    writeOnly := TagP.bool t b!"writeonly"
    deprecated := TagP.bool t b!"deprecated"
    uniqItems := TagP.bool t b!"unique"
    required := TagP.bool t b!"required"
    maxLen := ((t.opt b!"maxlen").bind atoi64).or mt.maxLen
    minLen := ((t.opt b!"minlen").bind atoi64).or mt.minLen
    maxItems := ((t.opt b!"maxitems").bind atoi64).or mt.maxItems
    minItems := ((t.opt b!"minitems").bind atoi64).or mt.minItems
    maxProps := ((t.opt b!"maxprops").bind atoi64).or mt.maxProps
    minProps := ((t.opt b!"minprops").bind atoi64).or mt.minProps
    pattern := TagP.string t b!"pattern" mt.pattern
    format := TagP.string t b!"format" mt.format
    type := TagP.string t b!"type" mt.type
    max := ((t.opt b!"max").bind pf).or mt.max
    min := ((t.opt b!"min").bind pf).or mt.min
    emax := ((t.opt b!"emax").bind pf).or mt.emax
    emin := ((t.opt b!"mulof").bind pf).or (((t.opt b!"emin").bind pf).or mt.emin) }

def afterJSON (t : PTag) (mt : Tag F) : Tag F :=
  { mt with
    name := if t.name = [] then mt.name else t.name
    inline := (boolOpt t b!"inline").or mt.inline
    omitEmpty := TagP.bool t b!"omitempty" }

/-- What makes an `oapi` tag malformed. -/
def BadOAPI (pf : Str → Option F) (t : PTag) : Prop :=
  BadBool t b!"inline" ∨ BadBool t b!"nullable" ∨ (∃ k ∈ intKeys, BadInt t k) ∨ ∃ k ∈ floatKeys, BadFloat pf t k

theorem parseJSON_cases (t : PTag) (mt : Tag F) (hn : t.name ≠ b!"-") :
    (BadBool t b!"inline" ∧ ∃ e, parseJSON (some t) mt = .err e) ∨
    (¬ BadBool t b!"inline" ∧ parseJSON (some t) mt = .ok (afterJSON t mt)) := by
  simp only [parseJSON, if_neg hn]
  rcases boolPtr_cases t b!"inline" mt.inline with ⟨h, e, he⟩ | ⟨h, he⟩
  · exact Or.inl ⟨h, e, by rw [he]; rfl⟩
  · exact Or.inr ⟨h, by rw [he]; rfl⟩

theorem parseOAPI_cases (pf : Str → Option F) (t : PTag) (mt : Tag F) (hn : t.name ≠ b!"-") :
    (BadOAPI pf t ∧ ∃ e, parseOAPI pf (some t) mt = .err e) ∨
    (¬ BadOAPI pf t ∧ parseOAPI pf (some t) mt = .ok (afterOAPI pf t mt)) := by
  have hi : ∀ k ∈ intKeys, BadInt t k → BadOAPI pf t := fun k hk h => Or.inr (Or.inr (Or.inl ⟨k, hk, h⟩))
  have hf : ∀ k ∈ floatKeys, BadFloat pf t k → BadOAPI pf t := fun k hk h => Or.inr (Or.inr (Or.inr ⟨k, hk, h⟩))
  simp only [parseOAPI, if_neg hn]
  rcases boolPtr_cases t b!"inline" mt.inline with ⟨h, e, he⟩ | ⟨h1, he1⟩
  · exact Or.inl ⟨Or.inl h, e, by rw [he]; rfl⟩
  rcases boolPtr_cases t b!"nullable" mt.nullable with ⟨h, e, he⟩ | ⟨h2, he2⟩
  · exact Or.inl ⟨Or.inr (Or.inl h), e, by rw [he1, he]; rfl⟩
  simp only [he1, he2, Res.bind_ok]
  rcases intPtr_cases t b!"maxlen" mt.maxLen with ⟨h, e, he⟩ | ⟨h3, he3⟩
  · exact Or.inl ⟨hi _ (by decide) h, e, by rw [he]; rfl⟩
  rcases intPtr_cases t b!"minlen" mt.minLen with ⟨h, e, he⟩ | ⟨h4, he4⟩
  · exact Or.inl ⟨hi _ (by decide) h, e, by rw [he3, he]; rfl⟩
  simp only [he3, he4, Res.bind_ok]
  rcases intPtr_cases t b!"maxitems" mt.maxItems with ⟨h, e, he⟩ | ⟨h5, he5⟩
  · exact Or.inl ⟨hi _ (by decide) h, e, by rw [he]; rfl⟩
  rcases intPtr_cases t b!"minitems" mt.minItems with ⟨h, e, he⟩ | ⟨h6, he6⟩
  · exact Or.inl ⟨hi _ (by decide) h, e, by rw [he5, he]; rfl⟩
  simp only [he5, he6, Res.bind_ok]
  rcases intPtr_cases t b!"maxprops" mt.maxProps with ⟨h, e, he⟩ | ⟨h7, he7⟩
  · exact Or.inl ⟨hi _ (by decide) h, e, by rw [he]; rfl⟩
  rcases intPtr_cases t b!"minprops" mt.minProps with ⟨h, e, he⟩ | ⟨h8, he8⟩
  · exact Or.inl ⟨hi _ (by decide) h, e, by rw [he7, he]; rfl⟩
  simp only [he7, he8, Res.bind_ok]
  rcases floatPtr_cases pf t b!"max" mt.max with ⟨h, e, he⟩ | ⟨h9, he9⟩
  · exact Or.inl ⟨hf _ (by decide) h, e, by rw [he]; rfl⟩
  rcases floatPtr_cases pf t b!"min" mt.min with ⟨h, e, he⟩ | ⟨h10, he10⟩
  · exact Or.inl ⟨hf _ (by decide) h, e, by rw [he9, he]; rfl⟩
  simp only [he9, he10, Res.bind_ok]
  rcases floatPtr_cases pf t b!"emax" mt.emax with ⟨h, e, he⟩ | ⟨h11, he11⟩
  · exact Or.inl ⟨hf _ (by decide) h, e, by rw [he]; rfl⟩
  rcases floatPtr_cases pf t b!"emin" mt.emin with ⟨h, e, he⟩ | ⟨h12, he12⟩
  · exact Or.inl ⟨hf _ (by decide) h, e, by rw [he11, he]; rfl⟩
  simp only [he11, he12, Res.bind_ok]
  rcases floatPtr_cases pf t b!"mulof" (((t.opt b!"emin").bind pf).or mt.emin) with ⟨h, e, he⟩ | ⟨h13, he13⟩
  · exact Or.inl ⟨hf _ (by decide) h, e, by rw [he]; rfl⟩
  refine Or.inr ⟨?_, by rw [he13]; rfl⟩
  rintro (h | h | ⟨k, hk, h⟩ | ⟨k, hk, h⟩)
  · exact h1 h
  · exact h2 h
  · simp only [intKeys, List.mem_cons, List.not_mem_nil, or_false] at hk
    rcases hk with rfl | rfl | rfl | rfl | rfl | rfl
    · exact h3 h
    · exact h4 h
    · exact h5 h
    · exact h6 h
    · exact h7 h
    · exact h8 h
  · simp only [floatKeys, List.mem_cons, List.not_mem_nil, or_false] at hk
    rcases hk with rfl | rfl | rfl | rfl | rfl
    · exact h9 h
    · exact h10 h
    · exact h11 h
    · exact h12 h
    · exact h13 h

/-- All outcomes of parsing a tag. -/
theorem parse_cases (lib : Str → Option Tags) (pf : Str → Option F) {raw : Str} (hr : raw ≠ []) {tags : Tags} (hl : lib raw = some tags) :
    ((∃ e, parse lib pf raw = .err e) ∧ ((∃ j, Active tags.json j ∧ BadBool j b!"inline") ∨ ∃ o, Active tags.oapi o ∧ BadOAPI pf o)) ∨
    (¬ ((∃ j, Active tags.json j ∧ BadBool j b!"inline") ∨ ∃ o, Active tags.oapi o ∧ BadOAPI pf o) ∧
      ∃ mj m, parse lib pf raw = .ok m ∧
        (mj = match tags.json with
          | none => {}
          | some j => if j.name = b!"-" then { ignore := true } else afterJSON j {}) ∧
        (m = match tags.oapi with
          | none => mj
          | some o => if o.name = b!"-" then { mj with ignore := true } else afterOAPI pf o mj)) := by
  have hoapi : ∀ mj : Tag F,
      ((∃ e, parseOAPI pf tags.oapi mj = .err e) ∧ ∃ o, Active tags.oapi o ∧ BadOAPI pf o) ∨
      ((¬ ∃ o, Active tags.oapi o ∧ BadOAPI pf o) ∧ parseOAPI pf tags.oapi mj = .ok (match tags.oapi with
          | none => mj
          | some o => if o.name = b!"-" then { mj with ignore := true } else afterOAPI pf o mj)) := by
    intro mj
    cases ho : tags.oapi with
    | none => exact Or.inr ⟨(by rintro ⟨o, h, _⟩; cases h.1), rfl⟩
    | some o =>
      by_cases hn : o.name = b!"-"
      · refine Or.inr ⟨?_, by simp only [parseOAPI, if_pos hn]⟩
        rintro ⟨o', h, _⟩
        cases h.1; exact h.2 hn
      · rcases parseOAPI_cases pf o mj hn with ⟨h, e⟩ | ⟨h, e⟩
        · exact Or.inl ⟨e, o, ⟨rfl, hn⟩, h⟩
        · refine Or.inr ⟨?_, by rw [e]; simp only [if_neg hn]⟩
          rintro ⟨o', h', hb⟩
          cases h'.1; exact h hb
  have hjson : ((∃ e, parseJSON tags.json ({} : Tag F) = .err e) ∧ ∃ j, Active tags.json j ∧ BadBool j b!"inline") ∨
      ((¬ ∃ j, Active tags.json j ∧ BadBool j b!"inline") ∧ parseJSON tags.json ({} : Tag F) = .ok (match tags.json with
          | none => {}
          | some j => if j.name = b!"-" then { ignore := true } else afterJSON j {})) := by
    cases ho : tags.json with
    | none => exact Or.inr ⟨(by rintro ⟨o, h, _⟩; cases h.1), rfl⟩
    | some o =>
      by_cases hn : o.name = b!"-"
      · refine Or.inr ⟨?_, by simp only [parseJSON, if_pos hn]⟩
        rintro ⟨o', h, _⟩
        cases h.1; exact h.2 hn
      · rcases parseJSON_cases o ({} : Tag F) hn with ⟨h, e⟩ | ⟨h, e⟩
        · exact Or.inl ⟨e, o, ⟨rfl, hn⟩, h⟩
        · refine Or.inr ⟨?_, by rw [e]; simp only [if_neg hn]⟩
          rintro ⟨o', h', hb⟩
          cases h'.1; exact h hb
  unfold parse
  rw [if_neg hr, hl]
  simp only
  rcases hjson with ⟨⟨e, he⟩, hb⟩ | ⟨hb, he⟩
  · exact Or.inl ⟨⟨e, by rw [he]; rfl⟩, Or.inl hb⟩
  · rw [he, Res.bind_ok]
    rcases hoapi (match tags.json with
          | none => {}
          | some j => if j.name = b!"-" then { ignore := true } else afterJSON j {}) with ⟨⟨e, he'⟩, hb'⟩ | ⟨hb', he'⟩
    · exact Or.inl ⟨⟨e, he'⟩, Or.inr hb'⟩
    · refine Or.inr ⟨?_, _, _, he', rfl, rfl⟩
      rintro (h | h)
      · exact hb h
      · exact hb' h

end Oapi.TagP
