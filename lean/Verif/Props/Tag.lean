import Verif.Proofs.Tag

/-! Properties C44–C46: struct tags.  `lib` and `pf` stand for the third-party tag parsers and `strconv.ParseFloat`; the theorems
hold for all of them. -/
namespace Oapi.Props
open Oapi Spec TagP

variable {F : Type} {lib : Str → Option Tags} {pf : Str → Option F} {raw : Str} {tags : Tags} {m : Tag F}

/-- The two stages of a successful parse. -/
theorem parse_stages (hr : raw ≠ []) (hl : lib raw = some tags) (h : parse lib pf raw = .ok m) :
    ∃ mj : Tag F,
      ((∀ j, ¬ Active tags.json j) → mj = { ignore := mj.ignore }) ∧ (∀ j, Active tags.json j → mj = afterJSON j {}) ∧
      (mj.ignore = true ↔ ∃ j, tags.json = some j ∧ j.name = b!"-") ∧
      ((∀ o, ¬ Active tags.oapi o) → m = { mj with ignore := m.ignore }) ∧ (∀ o, Active tags.oapi o → m = afterOAPI pf o mj) ∧
      (m.ignore = true ↔ mj.ignore = true ∨ ∃ o, tags.oapi = some o ∧ o.name = b!"-") := by
  rcases parse_cases lib pf hr hl with ⟨⟨e, he⟩, _⟩ | ⟨_, mj, m', he, h1, h2⟩
  · rw [h] at he; cases he
  · rw [h] at he; cases he
    refine ⟨mj, ?_, ?_, ?_, ?_, ?_, ?_⟩
    · intro hn
      cases hj : tags.json with
      | none => rw [hj] at h1; simp only at h1; rw [h1]
      | some j =>
        rw [hj] at h1; simp only at h1
        by_cases hd : j.name = b!"-"
        · rw [if_pos hd] at h1; rw [h1]
        · exact absurd ⟨hj, hd⟩ (hn j)
    · rintro j ⟨hj, hd⟩
      rw [hj] at h1; simp only [if_neg hd] at h1
      exact h1
    · cases hj : tags.json with
      | none => rw [hj] at h1; simp only at h1; rw [h1]; simp
      | some j =>
        rw [hj] at h1; simp only at h1
        by_cases hd : j.name = b!"-"
        · rw [if_pos hd] at h1; rw [h1]; simp [hd]
        · rw [if_neg hd] at h1; rw [h1]; simp [afterJSON, hd]
    · intro hn
      cases hj : tags.oapi with
      | none => rw [hj] at h2; simp only at h2; rw [h2]
      | some j =>
        rw [hj] at h2; simp only at h2
        by_cases hd : j.name = b!"-"
        · rw [if_pos hd] at h2; rw [h2]
        · exact absurd ⟨hj, hd⟩ (hn j)
    · rintro j ⟨hj, hd⟩
      rw [hj] at h2; simp only [if_neg hd] at h2
      exact h2
    · cases hj : tags.oapi with
      | none => rw [hj] at h2; simp only at h2; rw [h2]; simp
      | some j =>
        rw [hj] at h2; simp only at h2
        by_cases hd : j.name = b!"-"
        · rw [if_pos hd] at h2; rw [h2]; simp [hd]
        · rw [if_neg hd] at h2; rw [h2]; simp [afterOAPI, hd]

/-! ### C44 -/

/-- C44: the name is the one in the `oapi` tag if that is not empty, else the one in the `json` tag, else unset. -/
theorem C44_name (hr : raw ≠ []) (hl : lib raw = some tags) (h : parse lib pf raw = .ok m) :
    (∀ o, Active tags.oapi o → o.name ≠ [] → m.name = o.name) ∧
    ((∀ o, Active tags.oapi o → o.name = []) → (∀ j, Active tags.json j → m.name = j.name) ∧
      ((∀ j, ¬ Active tags.json j) → m.name = [])) := by
  obtain ⟨mj, h1, h2, _, h4, h5, _⟩ := parse_stages hr hl h
  have hm : (∀ o, Active tags.oapi o → o.name = []) → m.name = mj.name := by
    intro hno
    by_cases ho : ∃ o, Active tags.oapi o
    · obtain ⟨o, ho⟩ := ho
      rw [h5 o ho]; simp [afterOAPI, hno o ho]
    · rw [h4 fun o h => ho ⟨o, h⟩]
  refine ⟨fun o ho hne => by rw [h5 o ho]; simp [afterOAPI, hne], fun hno => ⟨fun j hj => ?_, fun hj => ?_⟩⟩
  · rw [hm hno, h2 j hj]
    by_cases hj0 : j.name = [] <;> simp [afterJSON, hj0]
  · rw [hm hno, h1 hj]

/-- C44: inline is what the `oapi` tag says, else what the `json` tag says, else unset. -/
theorem C44_inline (hr : raw ≠ []) (hl : lib raw = some tags) (h : parse lib pf raw = .ok m) :
    (∀ o b, Active tags.oapi o → boolOpt o b!"inline" = some b → m.inline = some b) ∧
    ((∀ o, Active tags.oapi o → boolOpt o b!"inline" = none) →
      (∀ j, Active tags.json j → m.inline = boolOpt j b!"inline") ∧ ((∀ j, ¬ Active tags.json j) → m.inline = none)) := by
  obtain ⟨mj, h1, h2, _, h4, h5, _⟩ := parse_stages hr hl h
  have hm : (∀ o, Active tags.oapi o → boolOpt o b!"inline" = none) → m.inline = mj.inline := by
    intro hno
    by_cases ho : ∃ o, Active tags.oapi o
    · obtain ⟨o, ho⟩ := ho
      rw [h5 o ho]; simp [afterOAPI, hno o ho]
    · rw [h4 fun o h => ho ⟨o, h⟩]
  refine ⟨fun o b ho hb => by rw [h5 o ho]; simp [afterOAPI, hb], fun hno => ⟨fun j hj => ?_, fun hj => ?_⟩⟩
  · rw [hm hno, h2 j hj]; simp [afterJSON]
  · rw [hm hno, h1 hj]

/-- C44: omitempty is what the `oapi` tag says whenever there is one that is not "-", else what the `json` tag says. -/
theorem C44_omitempty (hr : raw ≠ []) (hl : lib raw = some tags) (h : parse lib pf raw = .ok m) :
    (∀ o, Active tags.oapi o → (m.omitEmpty = true ↔ FlagSet o b!"omitempty")) ∧
    ((∀ o, ¬ Active tags.oapi o) → (∀ j, Active tags.json j → (m.omitEmpty = true ↔ FlagSet j b!"omitempty")) ∧
      ((∀ j, ¬ Active tags.json j) → m.omitEmpty = false)) := by
  obtain ⟨mj, h1, h2, _, h4, h5, _⟩ := parse_stages hr hl h
  refine ⟨fun o ho => ?_, fun hno => ⟨fun j hj => ?_, fun hj => ?_⟩⟩
  · rw [h5 o ho, ← bool_iff]; rfl
  · rw [h4 hno, h2 j hj, ← bool_iff]; rfl
  · rw [h4 hno, h1 hj]

/-- C44: an empty tag changes nothing. -/
theorem C44_empty : parse lib pf [] = .ok ({} : Tag F) := rfl

/-- A concrete tag: `json:"a,omitempty" oapi:"b,maxlen:5,mulof:7"`. -/
def exTags : Tags := ⟨some ⟨b!"a", [(b!"omitempty", [])]⟩, some ⟨b!"b", [(b!"maxlen", b!"5"), (b!"mulof", b!"7")]⟩⟩
def exLib : Str → Option Tags := fun _ => some exTags

example : ∃ m, parse exLib Str.parseNat b!"x" = .ok m ∧ m.name = b!"b" ∧ m.omitEmpty = false ∧ m.maxLen = some 5 ∧ m.emin = some 7 :=
  ⟨{ name := b!"b", maxLen := some 5, emin := some 7 }, by decide, rfl, rfl, rfl, rfl⟩

example : ∃ m, parse exLib Str.parseNat b!"x" = .ok m ∧ m.name = b!"b" :=
  ⟨{ name := b!"b", maxLen := some 5, emin := some 7 }, by decide,
    (C44_name (lib := exLib) (pf := Str.parseNat) (raw := b!"x") (by decide) rfl (by decide)).1 _ ⟨rfl, by decide⟩ (by decide)⟩

/-! ### C45 -/

/-- C45: the field is ignored exactly if the `json` or the `oapi` name is "-". -/
theorem C45_ignored_iff (hr : raw ≠ []) (hl : lib raw = some tags) (h : parse lib pf raw = .ok m) :
    m.ignore = true ↔ ∃ t, (tags.json = some t ∨ tags.oapi = some t) ∧ t.name = b!"-" := by
  obtain ⟨mj, _, _, h3, _, _, h6⟩ := parse_stages hr hl h
  rw [h6, h3]
  constructor
  · rintro (⟨t, h, hn⟩ | ⟨t, h, hn⟩)
    · exact ⟨t, Or.inl h, hn⟩
    · exact ⟨t, Or.inr h, hn⟩
  · rintro ⟨t, h | h, hn⟩
    · exact Or.inl ⟨t, h, hn⟩
    · exact Or.inr ⟨t, h, hn⟩

/-- C45: a dash in the `oapi` tag is never an error by itself: nothing else in that tag is looked at. -/
theorem C45_dash_hides (hr : raw ≠ []) (hl : lib raw = some tags) (hj : ∀ j, Active tags.json j → ¬ BadBool j b!"inline") {o : PTag}
    (ho : tags.oapi = some o) (hd : o.name = b!"-") : ∃ m, parse lib pf raw = .ok m ∧ m.ignore = true := by
  rcases parse_cases lib pf hr hl with ⟨_, ⟨j, h1, h2⟩ | ⟨o', h1, _⟩⟩ | ⟨_, mj, m, he, _, h2⟩
  · exact absurd h2 (hj j h1)
  · rw [Active, ho] at h1
    cases h1.1; exact absurd hd h1.2
  · refine ⟨m, he, ?_⟩
    rw [ho] at h2
    simp only [if_pos hd] at h2
    rw [h2]

example : ∃ m : Tag Nat, parse (fun _ => some ⟨some ⟨b!"-", []⟩, some ⟨b!"b", []⟩⟩) Str.parseNat b!"x" = .ok m ∧ m.ignore = true :=
  ⟨_, rfl, (C45_ignored_iff (raw := b!"x") (lib := fun _ => some ⟨some ⟨b!"-", []⟩, some ⟨b!"b", []⟩⟩) (pf := Str.parseNat)
    (by decide) rfl rfl).2 ⟨⟨b!"-", []⟩, Or.inl rfl, rfl⟩⟩

/-! ### C46 -/

/-- C46: parsing fails exactly if the raw tag is malformed, an integer or float option of the `oapi` tag is not a number, or an
inline option or the nullable option is no truth value.  Flag options never make it fail. -/
theorem C46_fails_iff (hr : raw ≠ []) :
    (∃ e, parse lib pf raw = .err e) ↔ lib raw = none ∨ ∃ tags, lib raw = some tags ∧
      ((∃ j, Active tags.json j ∧ BadBool j b!"inline") ∨ ∃ o, Active tags.oapi o ∧
        (BadBool o b!"inline" ∨ BadBool o b!"nullable" ∨ (∃ k ∈ intKeys, BadInt o k) ∨ ∃ k ∈ floatKeys, BadFloat pf o k)) := by
  cases hl : lib raw with
  | none => simp [parse, hr, hl]
  | some tags =>
    rcases parse_cases lib pf hr hl with ⟨h1, h2⟩ | ⟨h1, mj, m, h2, _⟩
    · exact ⟨fun _ => Or.inr ⟨tags, rfl, h2⟩, fun _ => h1⟩
    · constructor
      · rintro ⟨e, he⟩; rw [h2] at he; cases he
      · rintro (h | ⟨t, ht, h⟩)
        · cases h
        · cases ht; exact absurd h h1

/-- C46: parsing never panics. -/
theorem C46_no_panic : parse lib pf raw ≠ .panic := by
  by_cases hr : raw = []
  · subst hr; rw [C44_empty]; simp
  · cases hl : lib raw with
    | none => simp [parse, hr, hl]
    | some tags =>
      rcases parse_cases lib pf hr hl with ⟨⟨e, h1⟩, h2⟩ | ⟨h1, mj, m, h2, _⟩
      · rw [h1]; simp
      · rw [h2]; simp

/-- C46: the flag options of the `oapi` tag: set exactly if given without value or with a word for true; any other value,
malformed ones included, means false. -/
theorem C46_flags (hr : raw ≠ []) (hl : lib raw = some tags) (h : parse lib pf raw = .ok m) {o : PTag} (ho : Active tags.oapi o) :
    (m.readOnly = true ↔ FlagSet o b!"readonly") ∧ (m.writeOnly = true ↔ FlagSet o b!"writeonly") ∧
    (m.deprecated = true ↔ FlagSet o b!"deprecated") ∧ (m.uniqItems = true ↔ FlagSet o b!"unique") ∧
    (m.required = true ↔ FlagSet o b!"required") ∧ (m.omitEmpty = true ↔ FlagSet o b!"omitempty") := by
  obtain ⟨mj, _, _, _, _, h5, _⟩ := parse_stages hr hl h
  rw [h5 o ho]
  exact ⟨bool_iff, bool_iff, bool_iff, bool_iff, bool_iff, bool_iff⟩

/-- C46: the options with values of the `oapi` tag. -/
theorem C46_values (hr : raw ≠ []) (hl : lib raw = some tags) (h : parse lib pf raw = .ok m) {o : PTag} (ho : Active tags.oapi o) :
    IntOpt o b!"maxlen" m.maxLen ∧ IntOpt o b!"minlen" m.minLen ∧
    IntOpt o b!"maxitems" m.maxItems ∧ IntOpt o b!"minitems" m.minItems ∧
    IntOpt o b!"maxprops" m.maxProps ∧ IntOpt o b!"minprops" m.minProps ∧
    m.max = (o.opt b!"max").bind pf ∧ m.min = (o.opt b!"min").bind pf ∧ m.emax = (o.opt b!"emax").bind pf ∧
    m.pattern = (o.opt b!"pattern").getD [] ∧ m.format = (o.opt b!"format").getD [] ∧ m.type = (o.opt b!"type").getD [] ∧
    m.nullable = boolOpt o b!"nullable" := by
  obtain ⟨mj, h1, h2, _, _, h5, _⟩ := parse_stages hr hl h
  have hmj : mj = { name := mj.name, ignore := mj.ignore, inline := mj.inline, omitEmpty := mj.omitEmpty } := by
    by_cases hj : ∃ j, Active tags.json j
    · obtain ⟨j, hj⟩ := hj; rw [h2 j hj]; rfl
    · rw [h1 fun j h => hj ⟨j, h⟩]
  have hs : ∀ k, TagP.string o k [] = (o.opt k).getD [] := by
    intro k; unfold TagP.string; cases o.opt k <;> rfl
  rw [h5 o ho, hmj]
  refine ⟨?_, ?_, ?_, ?_, ?_, ?_, ?_, ?_, ?_, hs _, hs _, hs _, ?_⟩ <;> simp [afterOAPI, intOpt_bind]

/-- The largest 64-bit integer is accepted, the next one is not. -/
example : IntText b!"9223372036854775807" 9223372036854775807 ∧ ¬ ∃ n, IntText b!"9223372036854775808" n :=
  ⟨atoi64_iff.1 (by decide), atoi64_none.1 (by decide)⟩

/-- C46: the option mulof never sets the multiple-of bound; it sets the exclusive minimum, even if emin is given. -/
theorem C46_mulof (hr : raw ≠ []) (hl : lib raw = some tags) (h : parse lib pf raw = .ok m) {o : PTag} (ho : Active tags.oapi o) :
    m.mulOf = none ∧ (∀ v, o.opt b!"mulof" = some v → m.emin = pf v ∧ ∃ x, m.emin = some x) ∧
    (o.opt b!"mulof" = none → m.emin = (o.opt b!"emin").bind pf) := by
  have hbad : ¬ BadOAPI pf o := by
    rcases parse_cases lib pf hr hl with ⟨⟨e, h1⟩, h2⟩ | ⟨h1, _⟩
    · rw [h] at h1; cases h1
    · exact fun hb => h1 (Or.inr ⟨o, ho, hb⟩)
  obtain ⟨mj, h1, h2, _, _, h5, _⟩ := parse_stages hr hl h
  have hmj : mj = { name := mj.name, ignore := mj.ignore, inline := mj.inline, omitEmpty := mj.omitEmpty } := by
    by_cases hj : ∃ j, Active tags.json j
    · obtain ⟨j, hj⟩ := hj; rw [h2 j hj]; rfl
    · rw [h1 fun j h => hj ⟨j, h⟩]
  rw [h5 o ho, hmj]
  refine ⟨rfl, fun v hv => ?_, fun hn => by simp [afterOAPI, hn]⟩
  have : ∃ x, pf v = some x := by
    cases hp : pf v with
    | none => exact absurd (Or.inr (Or.inr (Or.inr ⟨b!"mulof", by decide, v, hv, hp⟩))) hbad
    | some x => exact ⟨x, rfl⟩
  obtain ⟨x, hx⟩ := this
  simp [afterOAPI, hv, hx]

example : ∃ m, parse exLib Str.parseNat b!"x" = .ok m ∧ m.mulOf = none ∧ ∃ x, m.emin = some x :=
  ⟨{ name := b!"b", maxLen := some 5, emin := some 7 }, by decide,
    (C46_mulof (lib := exLib) (pf := Str.parseNat) (raw := b!"x") (by decide) rfl (by decide) ⟨rfl, by decide⟩).1,
    ((C46_mulof (lib := exLib) (pf := Str.parseNat) (raw := b!"x") (by decide) rfl (by decide) ⟨rfl, by decide⟩).2.1 b!"7" rfl).2⟩

example : ∃ e, parse (F := Nat) (fun _ => some ⟨none, some ⟨b!"b", [(b!"maxlen", b!"x")]⟩⟩) Str.parseNat b!"x" = .err e :=
  (C46_fails_iff (by decide)).2 (Or.inr ⟨_, rfl, Or.inr ⟨_, ⟨rfl, by decide⟩, Or.inr (Or.inr (Or.inl ⟨b!"maxlen", by decide, b!"x", rfl, atoi64_none.1 (by decide)⟩))⟩⟩)

/-- C46: a malformed flag is accepted and means false. -/
example : ∃ m, parse (F := Nat) (fun _ => some ⟨none, some ⟨b!"b", [(b!"required", b!"yes")]⟩⟩) Str.parseNat b!"x" = .ok m ∧ m.required = false :=
  ⟨_, rfl, rfl⟩

end Oapi.Props
