import Verif.Spec.GoJson
import Verif.Props.Types
import Verif.Props.TagText
import Verif.Props.TypesEx

/-! Property C124: the names of properties, and those `encoding/json` writes. -/
namespace Oapi.Props
open Spec Spec.GoJson Spec.TagText Types
open TagText (getTag)

section
variable {F : Type} {pf : Str → Option F} {pr : Prog} {runs : List (Str × List Pointer)} {cx : Ctx F} {env : Env} {f : FieldInfo} {t : GoType} {v n k : Str}
  {ps : List (Str × Str)} {os : List (Str × Str)} {fs st : List (FieldInfo × GoType)} {tagOf : Str → Res (TagP.Tag F)}

theorem raw_unique {s : Str} {ps ps' : List (Str × Str)} (h : Raw ps s) (h' : Raw ps' s) : ps = ps' :=
  (C123_unambiguous (s := s) (n := []) (n' := []) (os := []) (os' := [])).1 h h'

theorem jsonValue_of (h : Raw ps f.tag) : JsonValue f v ↔ v = (ps.lookup b!"json").getD [] := by
  constructor
  · rintro ⟨ps', h', rfl⟩
    rw [raw_unique h h']
  · exact fun e => ⟨ps, h, e⟩

/-- How a tag without `oapi` value is parsed. -/
theorem parse_json (h : Raw ps f.tag) (ho : ps.lookup b!"oapi" = none) :
    TagP.parse TagText.lib pf f.tag = TagP.parseJSON (getTag ps b!"json") {} := by
  unfold TagP.parse
  have hg : getTag ps b!"oapi" = none := by simp [getTag, ho]
  have hb : ∀ r : Res (TagP.Tag F), (r >>= fun x => TagP.parseOAPI pf none x) = r := by intro r; cases r <;> rfl
  split
  · next hr =>
    rw [hr] at h
    have : ps = [] := raw_unique h (Raw.nil 0)
    subst this; rfl
  · simp only [lib_of h, hg]
    exact hb _

/-- What is read from the tag of a plain field. -/
theorem plain_tag (h : Plain env f t) : ∃ tx : TagP.Tag F, TagP.parse TagText.lib pf f.tag = .ok tx ∧ tx.inline = none ∧ (tx.ignore = true ↔ Hidden f) ∧
    (¬ Hidden f → ∀ k, KeyOf f k ↔ k = if tx.name = [] then f.name else tx.name) := by
  obtain ⟨⟨ps, hr, ho, hv⟩, _⟩ := h
  rw [parse_json hr ho]
  have hid : Hidden f ↔ b!"-" = (ps.lookup b!"json").getD [] := jsonValue_of hr
  cases hj : ps.lookup b!"json" with
  | none =>
    rw [hj] at hid
    have hg : getTag ps b!"json" = none := by simp [getTag, hj]
    have hne : ¬ ∃ n, Explicit f n := by
      rintro ⟨n, v, h1, rfl, h2, _⟩
      rw [(jsonValue_of hr).1 h1, hj] at h2
      exact h2 rfl
    refine ⟨{}, by rw [hg]; rfl, rfl, ⟨fun h => by simp at h, fun h => absurd (hid.1 h) (by decide)⟩, fun _ k => ?_⟩
    constructor
    · rintro (h1 | ⟨_, h1⟩)
      · exact absurd ⟨k, h1⟩ hne
      · exact h1
    · exact fun h1 => .inr ⟨hne, h1⟩
  | some v =>
    obtain ⟨n, os, h1, h2, h3, h4, h5⟩ := hv v hj
    rw [hj] at hid
    have hg : getTag ps b!"json" = some ⟨n, os.reverse⟩ := by simp [getTag, hj, TagText.value_read h1]
    rw [hg]
    unfold TagP.parseJSON
    by_cases hd : n = b!"-"
    · simp only [hd, if_true]
      have hh : Hidden f := hid.2 (h5 hd).symm
      exact ⟨_, rfl, rfl, ⟨fun _ => hh, fun _ => rfl⟩, fun h => absurd hh h⟩
    · simp only [if_neg hd]
      have hi : TagP.boolPtr ⟨n, os.reverse⟩ b!"inline" none = .ok none := by
        unfold TagP.boolPtr
        have : (⟨n, os.reverse⟩ : TagP.PTag).opt b!"inline" = none := by
          show os.reverse.lookup _ = none
          rw [List.lookup_eq_none_iff] at h4 ⊢
          intro p hp; exact h4 p (List.mem_reverse.1 hp)
        rw [this]
      have hnh : ¬ Hidden f := by
        intro hh
        have hv' : b!"-" = v := hid.1 hh
        rw [← hv'] at h2
        exact hd h2
      rw [hi]
      refine ⟨_, rfl, rfl, ⟨fun h => by simp at h, fun h => absurd h hnh⟩, fun _ k => ?_⟩
      have hex : ∀ m, Explicit f m ↔ m = n ∧ n ≠ [] := by
        intro m
        constructor
        · rintro ⟨w, h6, rfl, h7⟩
          rw [(jsonValue_of hr).1 h6, hj] at h7 ⊢
          exact ⟨h2.symm, by rw [h2]; exact h7.1⟩
        · rintro ⟨rfl, hn⟩
          exact ⟨v, (jsonValue_of hr).2 (by rw [hj]; rfl), h2, h3.resolve_left hn⟩
      show KeyOf f k ↔ k = if (if n = [] then [] else n) = [] then f.name else if n = [] then [] else n
      unfold KeyOf Unnamed
      by_cases hn : n = []
      · simp [hex, hn]
      · simp [hex, hn]

variable (htag : tagOf = TagP.parse TagText.lib pf)
include htag

theorem plain_shown (h : Plain env f t) (tx : TagP.Tag F) : Shown tagOf st f t tx ↔ (f, t) ∈ st ∧ f.exported = true ∧ tagOf f.tag = .ok tx ∧ ¬ Hidden f := by
  subst htag
  obtain ⟨tx', h1, _, h3, _⟩ := plain_tag (pf := pf) h
  unfold Shown
  constructor
  · rintro ⟨a, b, c, d⟩
    rw [h1] at c; cases c
    exact ⟨a, b, h1, fun hh => by rw [h3.2 hh] at d; cases d⟩
  · rintro ⟨a, b, c, d⟩
    rw [h1] at c; cases c
    refine ⟨a, b, h1, ?_⟩
    cases hi : tx.ignore with
    | false => rfl
    | true => exact absurd (h3.1 hi) d

theorem plain_inlined (h : ∀ e ∈ fs, Plain env e.1 e.2) : InlinedInto env tagOf fs st ↔ ∃ f t, (f, t) ∈ fs ∧ Promotes env f t st := by
  constructor
  · rintro ⟨f, t, tx, hs, hw, hst⟩
    obtain ⟨tx', h1, h2, _⟩ := plain_tag (pf := pf) (h _ hs.1)
    obtain ⟨hm, hx, ht, hh⟩ := (plain_shown htag (h _ hs.1) tx).1 hs
    subst htag
    rw [h1] at ht; cases ht
    rcases hw with hw | ⟨_, hw⟩
    · rw [h2] at hw; cases hw
    · exact ⟨f, t, hm, hw, hh, (((h _ hm).2 hw ⟨st, hst⟩).resolve_left hh).2, hst⟩
  · rintro ⟨f, t, hm, he, hh, hu, hst⟩
    obtain ⟨tx', h1, h2, _⟩ := plain_tag (pf := pf) (h _ hm)
    have hx : f.exported = true := (((h _ hm).2 he ⟨st, hst⟩).resolve_left hh).1
    exact ⟨f, t, tx', (plain_shown htag (h _ hm) tx').2 ⟨hm, hx, by rw [htag]; exact h1, hh⟩, .inr ⟨h2, he⟩, hst⟩

theorem plain_reach (h : AllPlain env fs) : InlineReach env tagOf fs st ↔ ∃ p, Embedded env fs p st := by
  constructor
  · intro hr
    induction hr with
    | refl => exact ⟨[], .here⟩
    | step _ hi ih =>
      obtain ⟨p, hp⟩ := ih
      obtain ⟨f, t, hm, hpr⟩ := (plain_inlined htag (h p _ hp)).1 hi
      exact ⟨_, .inside hp hm hpr⟩
  · rintro ⟨p, hp⟩
    induction hp with
    | here => exact .refl
    | inside hp hm hpr ih => exact .step ih ((plain_inlined htag (h _ _ hp)).2 ⟨_, _, hm, hpr⟩)

theorem plain_visible (h : AllPlain env fs) : (∃ x, VisibleField env tagOf fs x ∧ propName x = k) ↔ ∃ p f, Candidate env fs k p f := by
  constructor
  · rintro ⟨x, ⟨st, hr, hs, hw⟩, rfl⟩
    obtain ⟨p, hp⟩ := (plain_reach htag h).1 hr
    have hpl := h p st hp _ hs.1
    obtain ⟨tx', h1, h2, _, h4⟩ := plain_tag (pf := pf) hpl
    obtain ⟨hm, hx, ht, hh⟩ := (plain_shown htag hpl x.tag).1 hs
    rw [htag, h1] at ht
    have ht := Res.ok.inj ht
    subst ht
    refine ⟨p, x.field, st, x.typ, hp, hm, ⟨.inl hx, hh, ?_⟩, (h4 hh _).2 rfl⟩
    rintro ⟨st', he, _, _, hst⟩
    exact hw ⟨.inr ⟨h2, he⟩, st', hst⟩
  · rintro ⟨p, f, st, t, hp, hm, ⟨hx, hh, hc⟩, hk⟩
    have hpl := h p st hp _ hm
    obtain ⟨tx, h1, h2, _, h4⟩ := plain_tag (pf := pf) hpl
    have hx' : f.exported = true := by
      rcases hx with hx | ⟨he, hst⟩
      · exact hx
      · exact ((hpl.2 he hst).resolve_left hh).1
    refine ⟨⟨f, t, tx⟩, ⟨st, (plain_reach htag h).2 ⟨p, hp⟩, (plain_shown htag hpl tx).2 ⟨hm, hx', by rw [htag]; exact h1, hh⟩, ?_⟩, ((h4 hh k).1 hk).symm⟩
    rintro ⟨hw, st', hst⟩
    rcases hw with hw | ⟨_, he⟩
    · rw [h2] at hw; cases hw
    · exact hc ⟨st', he, hh, ((hpl.2 he ⟨st', hst⟩).resolve_left hh).2, hst⟩

end

section
variable {F : Type} {pf : Str → Option F} {pr : Prog} {runs : List (Str × List Pointer)} {cx : Ctx F} {ptr : Pointer} {fs : List (FieldInfo × GoType)}
  {s : Schema F} {k : Str} (h : Converts pr runs cx) (ht : cx.tagOf = TagP.parse TagText.lib pf) (hf : cx.m.findType ptr = some (.struct fs))
  (hs : resolve cx ptr = .ok s)
include h ht hf hs

/-- **C124** (properties): the properties of the schema of a struct of plain fields are the names `encoding/json` considers, those of promoted fields included. -/
theorem C124_properties (hp : AllPlain pr.env fs) : k ∈ s.properties.map Prod.fst ↔ ∃ p f, Candidate pr.env fs k p f :=
  ((C39_properties h hf hs).2.2 k).trans (plain_visible ht hp)

/-- **C124** (all members): each member of the objects `encoding/json` writes for such a struct is a property. -/
theorem C124_members_are_properties (hp : AllPlain pr.env fs) (hk : JsonName pr.env fs k) : k ∈ s.properties.map Prod.fst := by
  obtain ⟨p, f, hc, _⟩ := hk
  exact (C124_properties h ht hf hs hp).2 ⟨p, f, hc⟩

/-- **C124** (no others): if for no name two fields cancel each other, the properties are exactly the members. -/
theorem C124_same_names (hp : AllPlain pr.env fs) (hu : ∀ k, (∃ p f, Candidate pr.env fs k p f) → JsonName pr.env fs k) :
    k ∈ s.properties.map Prod.fst ↔ JsonName pr.env fs k :=
  ⟨fun hk => hu k ((C124_properties h ht hf hs hp).1 hk), C124_members_are_properties h ht hf hs hp⟩

/-- **C124** (the deviation for ambiguous names): of two fields with the same name, equally nested and both or neither named by a tag, `encoding/json` writes
none; the schema has the property all the same. -/
theorem C124_ambiguous (hp : AllPlain pr.env fs) {p q : List Str} {f g : FieldInfo} (hc : Candidate pr.env fs k p f) (hc' : Candidate pr.env fs k q g)
    (hne : (q, g) ≠ (p, f)) (hl : p.length = q.length) (he : (∃ n, Explicit f n) ↔ ∃ n, Explicit g n)
    (hm : ∀ r j, Candidate pr.env fs k r j → ¬ Beats r j p f) : k ∈ s.properties.map Prod.fst ∧ ¬ JsonName pr.env fs k := by
  refine ⟨(C124_properties h ht hf hs hp).2 ⟨p, f, hc⟩, ?_⟩
  rintro ⟨r, j, h1, h2⟩
  by_cases e : (r, j) = (p, f)
  · cases e
    rcases h2 q g hc' hne with h3 | ⟨_, h3, h4⟩
    · omega
    · exact h4 (he.1 h3)
  · exact hm r j h1 (h2 p f hc (Ne.symm e))

/-- **C124** (the deviation for named embedded structs): an embedded struct with a name in its `json` tag is a member of that name for `encoding/json`; the
schema has the properties of its fields instead. -/
theorem C124_named_embedded {f : FieldInfo} {t : GoType} {st : List (FieldInfo × GoType)} {n v : Str} {os ps : List (Str × Str)} (hm : (f, t) ∈ fs)
    (hx : f.exported = true) (he : f.embedded = true) (hst : IsStruct pr.env t st) (hr : Raw ps f.tag) (ho : ps.lookup b!"oapi" = none)
    (hj : ps.lookup b!"json" = some v) (hv : Value n os v) (hn : n = v.takeWhile (· ≠ 44)) (hvn : ValidName n) (hd : n ≠ b!"-")
    (hi : os.lookup b!"inline" = none) :
    (∃ p, Candidate pr.env fs n p f) ∧ ∀ x, OwnField pr.env cx.tagOf st x → propName x ∈ s.properties.map Prod.fst := by
  have hjv : JsonValue f v := ⟨ps, hr, by rw [hj]; rfl⟩
  have hex : Explicit f n := ⟨v, hjv, hn, hvn⟩
  have hh : ¬ Hidden f := by
    intro hh
    have hv' : b!"-" = v := by have := (jsonValue_of hr).1 hh; rwa [hj] at this
    rw [← hv'] at hn
    exact hd hn
  refine ⟨⟨[], fs, t, .here, hm, ⟨.inl hx, hh, ?_⟩, .inl hex⟩, ?_⟩
  · rintro ⟨st', _, _, hu, _⟩
    exact hu ⟨n, hex⟩
  · intro x hx'
    refine ((C39_properties h hf hs).2.2 _).2 ⟨x, ⟨st, .step .refl ?_, hx'⟩, rfl⟩
    have hg : getTag ps b!"json" = some ⟨n, os.reverse⟩ := by simp [getTag, hj, TagText.value_read hv]
    have hi' : TagP.boolPtr ⟨n, os.reverse⟩ b!"inline" none = .ok none := by
      unfold TagP.boolPtr
      have : (⟨n, os.reverse⟩ : TagP.PTag).opt b!"inline" = none := by
        show os.reverse.lookup _ = none
        rw [List.lookup_eq_none_iff] at hi ⊢
        intro p hp; exact hi p (List.mem_reverse.1 hp)
      rw [this]
    have hpj : ∃ tx : TagP.Tag F, cx.tagOf f.tag = .ok tx ∧ tx.inline = none ∧ tx.ignore = false := by
      rw [ht, parse_json hr ho, hg]
      unfold TagP.parseJSON
      simp only [if_neg hd, hi']
      exact ⟨_, rfl, rfl, rfl⟩
    obtain ⟨tx, h1, h2, h3⟩ := hpj
    exact ⟨f, t, tx, ⟨hm, hx, h1, h3⟩, .inr ⟨h2, he⟩, hst⟩

/-- **C124** (the deviation for unexported embedded structs): `encoding/json` promotes their fields, the schema is as if the field was not there. -/
theorem C124_unexported_embedded {pre post : List (FieldInfo × GoType)} {f : FieldInfo} {t : GoType} (hfs : fs = pre ++ (f, t) :: post)
    (hx : f.exported = false) (hp : AllPlain pr.env (pre ++ post)) :
    (∀ st g u, Promotes pr.env f t st → (g, u) ∈ st → Counts pr.env g u → KeyOf g k → Candidate pr.env fs k [f.name] g) ∧
    (k ∈ s.properties.map Prod.fst ↔ ∃ p f', Candidate pr.env (pre ++ post) k p f') := by
  have hm : (f, t) ∈ fs := by rw [hfs]; simp
  refine ⟨fun st g u h1 h2 h3 h4 => ⟨st, u, .inside (p := []) .here hm h1, h2, h3, h4⟩, ?_⟩
  refine ((C39_properties h hf hs).2.2 k).trans (Iff.trans ?_ (plain_visible ht hp))
  have sh : ∀ g u tx, Shown cx.tagOf fs g u tx ↔ Shown cx.tagOf (pre ++ post) g u tx := by
    intro g u tx
    have : ∀ {b : Bool}, b = true → f.exported = b → False := fun h1 h2 => by rw [hx, h1] at h2; cases h2
    unfold Shown
    rw [hfs]
    simp only [List.mem_append, List.mem_cons, Prod.mk.injEq]
    constructor
    · rintro ⟨h1 | ⟨rfl, rfl⟩ | h1, h2⟩
      · exact ⟨.inl h1, h2⟩
      · exact (this h2.1 rfl).elim
      · exact ⟨.inr h1, h2⟩
    · rintro ⟨h1 | h1, h2⟩
      · exact ⟨.inl h1, h2⟩
      · exact ⟨.inr (.inr h1), h2⟩
  have own : ∀ x, OwnField pr.env cx.tagOf fs x ↔ OwnField pr.env cx.tagOf (pre ++ post) x := fun x => and_congr_left fun _ => sh _ _ _
  have into : ∀ st, InlinedInto pr.env cx.tagOf fs st ↔ InlinedInto pr.env cx.tagOf (pre ++ post) st := fun st =>
    ⟨fun ⟨g, u, tx, h1, h2⟩ => ⟨g, u, tx, (sh _ _ _).1 h1, h2⟩, fun ⟨g, u, tx, h1, h2⟩ => ⟨g, u, tx, (sh _ _ _).2 h1, h2⟩⟩
  have reach : ∀ st, InlineReach pr.env cx.tagOf fs st → st = fs ∨ InlineReach pr.env cx.tagOf (pre ++ post) st := by
    intro st hr
    induction hr with
    | refl => exact .inl rfl
    | step _ hi ih =>
      rcases ih with rfl | ih
      · exact .inr (.step .refl ((into _).1 hi))
      · exact .inr (.step ih hi)
  have reach' : ∀ st, InlineReach pr.env cx.tagOf (pre ++ post) st → st = pre ++ post ∨ InlineReach pr.env cx.tagOf fs st := by
    intro st hr
    induction hr with
    | refl => exact .inl rfl
    | step _ hi ih =>
      rcases ih with rfl | ih
      · exact .inr (.step .refl ((into _).2 hi))
      · exact .inr (.step ih hi)
  constructor
  · rintro ⟨x, ⟨st, h1, h2⟩, hk⟩
    rcases reach st h1 with rfl | h1
    · exact ⟨x, ⟨_, .refl, (own x).1 h2⟩, hk⟩
    · exact ⟨x, ⟨st, h1, h2⟩, hk⟩
  · rintro ⟨x, ⟨st, h1, h2⟩, hk⟩
    rcases reach' st h1 with rfl | h1
    · exact ⟨x, ⟨_, .refl, (own x).2 h2⟩, hk⟩
    · exact ⟨x, ⟨st, h1, h2⟩, hk⟩

end

section
variable {F : Type} {pf : Str → Option F}

/-- **C124** (the deviation for a dash): with `json:"-,…"` the name of the field is a dash for `encoding/json`; for the schema the field is hidden. -/
theorem C124_dash {f : FieldInfo} {v : Str} {os ps : List (Str × Str)} (hr : Raw ps f.tag) (hj : ps.lookup b!"json" = some v) (hv : Value b!"-" os v)
    (hn : b!"-" = v.takeWhile (· ≠ 44)) (hne : v ≠ b!"-") :
    Explicit f b!"-" ∧ ¬ Hidden f ∧ ∀ tx : TagP.Tag F, TagP.parse TagText.lib pf f.tag = .ok tx → tx.ignore = true := by
  have hjv : JsonValue f v := ⟨ps, hr, by rw [hj]; rfl⟩
  refine ⟨⟨v, hjv, hn, by decide, ?_⟩, ?_, ?_⟩
  · intro c hc
    rw [List.mem_singleton.1 hc]
    unfold nameByte; decide
  · intro hh
    have := (jsonValue_of hr).1 hh
    rw [hj] at this
    exact hne this.symm
  · intro tx h
    have hg : getTag ps b!"json" = some ⟨b!"-", os.reverse⟩ := by simp [getTag, hj, TagText.value_read hv]
    have hraw : f.tag ≠ [] := by
      intro e
      rw [e] at hr
      have : ps = [] := raw_unique hr (Raw.nil 0)
      rw [this] at hj; cases hj
    exact (C45_ignored_iff hraw (lib_of hr) h).2 ⟨_, .inl hg, rfl⟩

end

/-! A concrete program. -/
namespace GoJsonEx
open TypesEx (isOk srt srt_sorts)

/-- `type P struct { Base; A, B int \`json:"k"\`; ID int \`json:"id,omitempty"\`; H int \`json:"-"\` }; type Base struct { ID string \`json:"id"\` };
type Q struct { Base \`json:"e"\` }; type R struct { inner; A int \`json:"k"\` }; type inner struct { ID string \`json:"id"\` }`. -/
def base : List (FieldInfo × GoType) := [({ name := b!"ID", tag := b!"json:\"id\"" }, .basic .string)]
def fB : FieldInfo := { name := b!"Base", embedded := true }
def fA : FieldInfo := { name := b!"A", tag := b!"json:\"k\"" }
def fB' : FieldInfo := { name := b!"B", tag := b!"json:\"k\"" }
def fI : FieldInfo := { name := b!"ID", tag := b!"json:\"id,omitempty\"" }
def fH : FieldInfo := { name := b!"H", tag := b!"json:\"-\"" }
def fE : FieldInfo := { name := b!"Base", embedded := true, tag := b!"json:\"e\"" }
def pf : Str → Option Int := fun _ => none
def p0 : List (FieldInfo × GoType) := [(fB, .named 1), (fA, .basic .int), (fB', .basic .int), (fI, .basic .int), (fH, .basic .int)]
def q0 : List (FieldInfo × GoType) := [(fE, .named 1)]
def fU : FieldInfo := { name := b!"inner", hiddenIn := some b!"ex.org/p", embedded := true }
def r0 : List (FieldInfo × GoType) := [(fU, .named 4), (fA, .basic .int)]
def env : Env := [⟨some b!"ex.org/p", b!"P", .struct p0⟩, ⟨some b!"ex.org/p", b!"Base", .struct base⟩, ⟨some b!"ex.org/p", b!"Q", .struct q0⟩,
  ⟨some b!"ex.org/p", b!"R", .struct r0⟩, ⟨some b!"ex.org/p", b!"inner", .struct base⟩]
def pr : Prog := ⟨env, fun pkg name => if pkg = b!"ex.org/p" then
  if name = b!"P" then some (.named 0) else if name = b!"Q" then some (.named 2) else if name = b!"Base" then some (.named 1) else if name = b!"R" then some (.named 3)
  else if name = b!"inner" then some (.named 4) else none else none⟩
def ptrP : Pointer := Pointer.newGoLoose b!"ex.org/p" b!"P"
def ptrQ : Pointer := Pointer.newGoLoose b!"ex.org/p" b!"Q"
def ptrB : Pointer := Pointer.newGoLoose b!"ex.org/p" b!"Base"
def ptrR : Pointer := Pointer.newGoLoose b!"ex.org/p" b!"R"
def runs : List (Str × List Pointer) := [(b!"ex.org/p", [ptrP, ptrQ, ptrB, ptrR])]

theorem pr_ok : ProgOK pr := by
  have hg : GoPkg b!"ex.org/p" := ⟨by decide, by decide⟩
  refine ⟨?_, ?_⟩
  · intro pkg name t h
    simp only [pr] at h
    split at h
    · rename_i h1; subst h1
      split at h
      · rename_i h2; subst h2; cases h
        exact ⟨hg, by unfold GoIdent; decide, by intro fs h; simp [parts] at h, by intro n h; simp [parts] at h; subst h; decide⟩
      · split at h
        · rename_i h2; subst h2; cases h
          exact ⟨hg, by unfold GoIdent; decide, by intro fs h; simp [parts] at h, by intro n h; simp [parts] at h; subst h; decide⟩
        · split at h
          · rename_i h2; subst h2; cases h
            exact ⟨hg, by unfold GoIdent; decide, by intro fs h; simp [parts] at h, by intro n h; simp [parts] at h; subst h; decide⟩
          · split at h
            · rename_i h2; subst h2; cases h
              exact ⟨hg, by unfold GoIdent; decide, by intro fs h; simp [parts] at h, by intro n h; simp [parts] at h; subst h; decide⟩
            · split at h
              · rename_i h2; subst h2; cases h
                exact ⟨hg, by unfold GoIdent; decide, by intro fs h; simp [parts] at h, by intro n h; simp [parts] at h; subst h; decide⟩
              · cases h
    · cases h
  · intro n d h
    match n with
    | 0 =>
      cases h
      refine ⟨⟨?_, ?_⟩, ?_, ?_⟩
      · intro fs h
        simp [p0, parts, partsF] at h
        subst h
        refine ⟨?_, ?_⟩
        · unfold GoIdent; decide
        · decide
      · intro n h
        simp [p0, parts, partsF] at h
        subst h; decide
      · intro k h; cases h
      · intro pkg h; cases h; rfl
    | 1 =>
      cases h
      refine ⟨⟨?_, ?_⟩, ?_, ?_⟩
      · intro fs h
        simp [base, parts, partsF] at h
        subst h
        refine ⟨?_, ?_⟩
        · unfold GoIdent; decide
        · decide
      · intro n h
        simp [base, parts, partsF] at h
      · intro k h; cases h
      · intro pkg h; cases h; rfl
    | 2 =>
      cases h
      refine ⟨⟨?_, ?_⟩, ?_, ?_⟩
      · intro fs h
        simp [q0, parts, partsF] at h
        subst h
        refine ⟨?_, ?_⟩
        · unfold GoIdent; decide
        · decide
      · intro n h
        simp [q0, parts, partsF] at h
        subst h; decide
      · intro k h; cases h
      · intro pkg h; cases h; rfl
    | 3 =>
      cases h
      refine ⟨⟨?_, ?_⟩, ?_, ?_⟩
      · intro fs h
        simp [r0, parts, partsF] at h
        subst h
        refine ⟨?_, ?_⟩
        · unfold GoIdent; decide
        · decide
      · intro n h
        simp [r0, parts, partsF] at h
        subst h; decide
      · intro k h; cases h
      · intro pkg h; cases h; rfl
    | 4 =>
      cases h
      refine ⟨⟨?_, ?_⟩, ?_, ?_⟩
      · intro fs h
        simp [base, parts, partsF] at h
        subst h
        refine ⟨?_, ?_⟩
        · unfold GoIdent; decide
        · decide
      · intro n h
        simp [base, parts, partsF] at h
      · intro k h; cases h
      · intro pkg h; cases h; rfl
    | n + 5 => cases h

set_option maxRecDepth 20000 in
theorem scan_ok : isOk (scanPkgs pr runs []) = true := by decide +kernel

def points : PMap := match scanPkgs pr runs [] with
  | .ok m => m
  | _ => []
def cx : Ctx Int := { env := env, m := points, tagOf := TagP.parse TagText.lib pf, std := fun _ => none, zero := 0, srt := fun _ => srt }

theorem points_eq : scanPkgs pr runs [] = .ok points := by
  have h := scan_ok
  unfold points
  cases hs : scanPkgs pr runs [] with
  | ok m => rfl
  | err e => rw [hs] at h; cases h
  | panic => rw [hs] at h; cases h

attribute [local irreducible] points scanPkgs

theorem cx_converts : Converts pr runs cx where
  prog := pr_ok
  env := rfl
  scanned := ⟨cx.m, points_eq, .refl _⟩
  sorts := fun _ => srt_sorts
  tags := ⟨TagText.lib, pf, rfl⟩

theorem foundP : cx.m.findType ptrP = some (.struct p0) := by decide +kernel
theorem foundQ : cx.m.findType ptrQ = some (.struct q0) := by decide +kernel
theorem foundB : cx.m.findType ptrB = some (.struct base) := by decide +kernel
theorem okB : isOk (resolve cx ptrB) = true := by decide +kernel
theorem foundR : cx.m.findType ptrR = some (.struct r0) := by decide +kernel
theorem okR : isOk (resolve cx ptrR) = true := by decide +kernel
theorem okP : isOk (resolve cx ptrP) = true := by decide +kernel
theorem okQ : isOk (resolve cx ptrQ) = true := by decide +kernel

/-- A raw tag with one `json` value. -/
theorem raw1 {f : FieldInfo} {q v : Str} (h : f.tag = b!"json:" ++ q) (hq : Spec.PtrJson.GoString q v) : Raw [(b!"json", v)] f.tag := by
  rw [h]
  have := Raw.cons (n := 0) (k := b!"json") (q := q) (v := v) (t := []) ⟨by decide, by decide⟩ hq (Raw.nil 0)
  simpa using this

theorem rI : Raw [(b!"json", b!"id,omitempty")] fI.tag := raw1 (q := b!"\"id,omitempty\"") rfl ((Oapi.PtrJson.unquote_iff _ _).1 (by decide +kernel))
theorem rK : Raw [(b!"json", b!"k")] fA.tag := raw1 (q := b!"\"k\"") rfl ((Oapi.PtrJson.unquote_iff _ _).1 (by decide +kernel))
theorem rH : Raw [(b!"json", b!"-")] fH.tag := raw1 (q := b!"\"-\"") rfl ((Oapi.PtrJson.unquote_iff _ _).1 (by decide +kernel))
theorem rE : Raw [(b!"json", b!"e")] fE.tag := raw1 (q := b!"\"e\"") rfl ((Oapi.PtrJson.unquote_iff _ _).1 (by decide +kernel))
theorem rD : Raw [(b!"json", b!"id")] b!"json:\"id\"" :=
  raw1 (f := { name := [], tag := b!"json:\"id\"" }) (q := b!"\"id\"") rfl ((Oapi.PtrJson.unquote_iff _ _).1 (by decide +kernel))

instance (c : UInt8) : Decidable (nameByte c) := by unfold nameByte; exact inferInstance
instance (n : Str) : Decidable (ValidName n) := by unfold ValidName; exact inferInstance

/-- A field with one `json` value that is a name and options is plain, if it is not embedded. -/
theorem plain1 {f : FieldInfo} {t : GoType} {v n : Str} {os : List (Str × Str)} (hr : Raw [(b!"json", v)] f.tag) (hv : Value n os v) (hn : n = v.takeWhile (· ≠ 44))
    (hvn : n = [] ∨ ValidName n) (hi : os.lookup b!"inline" = none) (hd : n = b!"-" → v = b!"-") (he : f.embedded = false) : Plain env f t := by
  refine ⟨⟨_, hr, rfl, ?_⟩, fun h => by rw [he] at h; cases h⟩
  intro w hw
  have : v = w := Option.some.inj hw
  subst this
  exact ⟨n, os, hv, hn, hvn, hi, hd⟩

theorem vname {n : Str} (h : (∀ c ∈ ([32, 9, 10, 11, 12, 13] : Str), n.head? ≠ some c ∧ n.getLast? ≠ some c) ∧ ∀ c ∈ n, c ≠ 44 ∧ c ≠ 58 ∧ c ≠ 39) : Value n [] n := by
  have := Value.named (n := n) (r := []) (os := []) h .nil
  simpa using this

theorem plain_base (t : GoType) : Plain env { name := b!"ID", tag := b!"json:\"id\"" } t :=
  plain1 rD (vname (n := b!"id") (by decide)) (by decide) (.inr (by decide)) rfl (by decide) rfl

theorem not_named {f : FieldInfo} (h : f.tag = []) : Unnamed f := by
  rintro ⟨n, v, h1, rfl, h2, _⟩
  have := (jsonValue_of (f := f) (ps := []) (by rw [h]; exact .nil 0)).1 h1
  rw [this] at h2; exact h2 rfl

theorem not_struct {k : Kind} {st : List (FieldInfo × GoType)} : ¬ IsStruct env (.basic k) st := by
  rintro (h | ⟨e, h, _⟩) <;> cases h

theorem struct_base {st : List (FieldInfo × GoType)} : IsStruct env (.named 1) st ↔ st = base := by
  constructor
  · rintro (h | ⟨e, h, _⟩) <;> cases h
    rfl
  · rintro rfl; exact .inl rfl

/-- What is embedded in `P`. -/
theorem embedded_p {p : List Str} {st : List (FieldInfo × GoType)} (h : Embedded env p0 p st) : (p = [] ∧ st = p0) ∨ (p = [b!"Base"] ∧ st = base) := by
  induction h with
  | here => exact .inl ⟨rfl, rfl⟩
  | @inside p s f t st _ hm hp ih =>
    obtain ⟨he, _, _, hst⟩ := hp
    rcases ih with ⟨rfl, rfl⟩ | ⟨rfl, rfl⟩
    · simp only [p0, List.mem_cons, List.not_mem_nil, or_false, Prod.mk.injEq] at hm
      rcases hm with ⟨rfl, rfl⟩ | ⟨rfl, rfl⟩ | ⟨rfl, rfl⟩ | ⟨rfl, rfl⟩ | ⟨rfl, rfl⟩
      · exact .inr ⟨rfl, struct_base.1 hst⟩
      all_goals cases he
    · simp only [base, List.mem_cons, List.not_mem_nil, or_false, Prod.mk.injEq] at hm
      obtain ⟨rfl, rfl⟩ := hm
      cases he

theorem all_plain : AllPlain env p0 := by
  intro p st h e hm
  rcases embedded_p h with ⟨_, rfl⟩ | ⟨_, rfl⟩
  · simp only [p0, List.mem_cons, List.not_mem_nil, or_false] at hm
    rcases hm with rfl | rfl | rfl | rfl | rfl
    · exact ⟨⟨[], .nil 0, rfl, fun v h => by cases h⟩, fun _ _ => .inr ⟨rfl, not_named rfl⟩⟩
    · exact plain1 rK (vname (n := b!"k") (by decide)) (by decide) (.inr (by decide)) rfl (by decide) rfl
    · exact plain1 rK (vname (n := b!"k") (by decide)) (by decide) (.inr (by decide)) rfl (by decide) rfl
    · refine plain1 rI (n := b!"id") (os := [(b!"omitempty", [])]) ?_ (by decide) (.inr (by decide)) rfl (by decide) rfl
      exact .named (n := b!"id") (TagTextEx.word (by decide)) (.cons (.flag (k := b!"omitempty") (TagTextEx.word (by decide)) (by decide)) .nil)
    · exact plain1 rH (vname (n := b!"-") (by decide)) (by decide) (.inr (by decide)) rfl (by decide) rfl
  · simp only [base, List.mem_cons, List.not_mem_nil, or_false] at hm
    subst hm
    exact plain_base _

theorem explicit1 {f : FieldInfo} {v : Str} (h : Raw [(b!"json", v)] f.tag) (hv : ValidName (v.takeWhile (· ≠ 44))) : Explicit f (v.takeWhile (· ≠ 44)) :=
  ⟨v, ⟨_, h, rfl⟩, rfl, hv⟩

theorem shown1 {f : FieldInfo} {v : Str} (h : Raw [(b!"json", v)] f.tag) (hv : v ≠ b!"-") : ¬ Hidden f := fun hh => hv ((jsonValue_of h).1 hh).symm

theorem cand1 {f : FieldInfo} {k v : Str} {b : Kind} (hm : (f, GoType.basic b) ∈ p0) (hx : f.exported = true) (h : Raw [(b!"json", v)] f.tag) (hv : v ≠ b!"-")
    (hk : k = v.takeWhile (· ≠ 44)) (hvn : ValidName k) : Candidate env p0 k [] f :=
  ⟨p0, _, .here, hm, ⟨.inl hx, shown1 h hv, fun ⟨_, _, _, _, hst⟩ => not_struct hst⟩, .inl (hk ▸ explicit1 h (hk ▸ hvn))⟩

/-- Every field named `k` or `id` is named by its tag, so none that is not less nested beats `f`. -/
theorem top_unbeaten {f : FieldInfo} (h : ∃ n, Explicit f n) (r : List Str) (j : FieldInfo) : ¬ Beats r j [] f := by
  rintro (h1 | ⟨_, _, h1⟩)
  · simp at h1
  · exact h1 h

/-- `k` is ambiguous: it is a property, but no member. -/
example (s : Schema Int) (hs : resolve cx ptrP = .ok s) : b!"k" ∈ s.properties.map Prod.fst ∧ ¬ JsonName env p0 b!"k" :=
  C124_ambiguous cx_converts rfl foundP hs all_plain (p := []) (q := []) (f := fA) (g := fB')
    (cand1 (v := b!"k") (b := .int) (by decide) rfl rK (by decide) (by decide) (by decide))
    (cand1 (v := b!"k") (b := .int) (by decide) rfl rK (by decide) (by decide) (by decide)) (by decide) rfl
    ⟨fun _ => ⟨_, explicit1 (f := fB') rK (by decide)⟩, fun _ => ⟨_, explicit1 (f := fA) rK (by decide)⟩⟩
    (fun r j _ => top_unbeaten ⟨_, explicit1 (f := fA) rK (by decide)⟩ r j)

/-- `id` is a member: the field of `P` hides the one promoted from `Base`; so it is a property. -/
example (s : Schema Int) (hs : resolve cx ptrP = .ok s) : b!"id" ∈ s.properties.map Prod.fst := by
  refine C124_members_are_properties cx_converts rfl foundP hs all_plain
    ⟨[], fI, cand1 (v := b!"id,omitempty") (b := .int) (by decide) rfl rI (by decide) (by decide) (by decide), ?_⟩
  rintro q g ⟨st, t, he, hm, hc, hk⟩ hne
  rcases embedded_p he with ⟨rfl, rfl⟩ | ⟨rfl, rfl⟩
  · simp only [p0, List.mem_cons, List.not_mem_nil, or_false, Prod.mk.injEq] at hm
    have hkk : ∀ {f : FieldInfo}, Raw [(b!"json", b!"k")] f.tag → KeyOf f b!"id" → False := by
      intro f hr hk
      rcases hk with ⟨v, hv, h2, _⟩ | ⟨hu, _⟩
      · rw [(jsonValue_of hr).1 hv] at h2
        exact absurd h2 (by decide)
      · exact hu ⟨_, explicit1 hr (by decide)⟩
    rcases hm with ⟨rfl, rfl⟩ | ⟨rfl, rfl⟩ | ⟨rfl, rfl⟩ | ⟨rfl, rfl⟩ | ⟨rfl, rfl⟩
    · rcases hk with hk | ⟨_, hk⟩
      · exact absurd ⟨_, hk⟩ (not_named (f := fB) rfl)
      · exact absurd hk (by decide)
    · exact absurd hk (hkk rK)
    · exact absurd hk (hkk (f := fB') rK)
    · exact absurd rfl hne
    · exact absurd ⟨_, rH, rfl⟩ hc.2.1
  · exact .inl (by decide)

/-- The only property of `Base` is its only member, `id`. -/
example (s : Schema Int) (hs : resolve cx ptrB = .ok s) (k : Str) : k ∈ s.properties.map Prod.fst ↔ JsonName env base k := by
  have he : ∀ {p : List Str} {st : List (FieldInfo × GoType)}, Embedded env base p st → p = [] ∧ st = base := by
    intro p st h
    induction h with
    | here => exact ⟨rfl, rfl⟩
    | inside _ hm hp ih =>
      obtain ⟨rfl, rfl⟩ := ih
      simp only [base, List.mem_cons, List.not_mem_nil, or_false, Prod.mk.injEq] at hm
      obtain ⟨rfl, rfl⟩ := hm
      cases hp.1
  refine C124_same_names cx_converts rfl foundB hs ?_ ?_
  · intro p st h e hm
    obtain ⟨_, rfl⟩ := he h
    rw [List.mem_singleton.1 hm]
    exact plain_base _
  · rintro k ⟨p, f, hc⟩
    refine ⟨p, f, hc, ?_⟩
    rintro q g ⟨st, t, h1, h2, _⟩ hne
    obtain ⟨st', t', h3, h4, _⟩ := hc
    obtain ⟨rfl, rfl⟩ := he h1
    obtain ⟨rfl, rfl⟩ := he h3
    cases List.mem_singleton.1 h2
    cases List.mem_singleton.1 h4
    exact absurd rfl hne

/-- `id` is promoted to `R`; the schema of `R` has nothing but `k`. -/
example (s : Schema Int) (hs : resolve cx ptrR = .ok s) : (∃ g, Candidate env r0 b!"id" [b!"inner"] g) ∧ b!"id" ∉ s.properties.map Prod.fst := by
  have hst : IsStruct env (.named 4) base := .inl rfl
  have he : ∀ {p : List Str} {st : List (FieldInfo × GoType)}, Embedded env [(fA, .basic .int)] p st → p = [] ∧ st = [(fA, .basic .int)] := by
    intro p st h
    induction h with
    | here => exact ⟨rfl, rfl⟩
    | inside _ hm hp ih =>
      obtain ⟨rfl, rfl⟩ := ih
      simp only [List.mem_cons, List.not_mem_nil, or_false, Prod.mk.injEq] at hm
      obtain ⟨rfl, rfl⟩ := hm
      cases hp.1
  obtain ⟨h1, h2⟩ := C124_unexported_embedded (k := b!"id") cx_converts rfl foundR hs (pre := []) (post := [(fA, .basic .int)]) (f := fU) (t := .named 4) rfl rfl (by
    intro p st h e hm
    obtain ⟨_, rfl⟩ := he h
    rw [List.mem_singleton.1 hm]
    exact plain1 rK (vname (n := b!"k") (by decide)) (by decide) (.inr (by decide)) rfl (by decide) rfl)
  refine ⟨⟨_, h1 base { name := b!"ID", tag := b!"json:\"id\"" } (.basic .string) ⟨rfl, ?_, not_named rfl, hst⟩ (List.mem_singleton.2 rfl)
    ⟨.inl rfl, shown1 (f := { name := b!"ID", tag := b!"json:\"id\"" }) rD (by decide), fun ⟨_, _, _, _, h⟩ => not_struct h⟩
    (.inl (explicit1 (f := { name := b!"ID", tag := b!"json:\"id\"" }) (v := b!"id") rD (by decide)))⟩, ?_⟩
  · intro hh
    exact absurd ((jsonValue_of (f := fU) (ps := []) (.nil 0)).1 hh) (by decide)
  · rw [h2]
    rintro ⟨p, f, st, t, h3, hm, _, hk⟩
    obtain ⟨_, rfl⟩ := he h3
    cases List.mem_singleton.1 hm
    rcases hk with ⟨v, hv, h4, _⟩ | ⟨hu, _⟩
    · rw [(jsonValue_of rK).1 hv] at h4
      exact absurd h4 (by decide)
    · exact hu ⟨_, explicit1 (f := fA) rK (by decide)⟩

/-- A field that is named by a dash. -/
example (tx : TagP.Tag Int) (h : TagP.parse TagText.lib pf b!"json:\"-,omitempty\"" = .ok tx) : tx.ignore = true :=
  (C124_dash (f := { name := [], tag := b!"json:\"-,omitempty\"" }) (os := [(b!"omitempty", [])])
    (raw1 (q := b!"\"-,omitempty\"") rfl ((Oapi.PtrJson.unquote_iff _ _).1 (by decide +kernel))) rfl
    (.named (n := b!"-") (TagTextEx.word (by decide)) (.cons (.flag (k := b!"omitempty") (TagTextEx.word (by decide)) (by decide)) .nil)) (by decide) (by decide)).2.2 tx h

/-- `json:"-,"`, the way to name a field by a dash. -/
example (tx : TagP.Tag Int) (h : TagP.parse TagText.lib pf b!"json:\"-,\"" = .ok tx) : tx.ignore = true :=
  (C124_dash (f := { name := [], tag := b!"json:\"-,\"" }) (os := [])
    (raw1 (q := b!"\"-,\"") rfl ((Oapi.PtrJson.unquote_iff _ _).1 (by decide +kernel))) rfl
    (.named (n := b!"-") (TagTextEx.word (by decide)) .comma) (by decide) (by decide)).2.2 tx h

/-- The embedded struct of `Q` is named `e`, which is a member; the schema has `id` instead. -/
example (s : Schema Int) (hs : resolve cx ptrQ = .ok s) : (∃ p, Candidate env q0 b!"e" p fE) ∧ b!"id" ∈ s.properties.map Prod.fst := by
  obtain ⟨h1, h2⟩ := C124_named_embedded cx_converts rfl foundQ hs (f := fE) (t := .named 1) (st := base) (v := b!"e") (os := []) (by decide) rfl rfl
    (struct_base.2 rfl) rE rfl rfl (vname (n := b!"e") (by decide)) (by decide) (by decide) (by decide) rfl
  refine ⟨h1, ?_⟩
  obtain ⟨tx, h3, _, h5, h4⟩ := plain_tag (pf := pf) (plain_base (.basic .string))
  have hh : ¬ Hidden { name := b!"ID", tag := b!"json:\"id\"" } := shown1 (f := { name := b!"ID", tag := b!"json:\"id\"" }) rD (by decide)
  have hx := h2 ⟨_, _, tx⟩ ⟨⟨List.mem_singleton.2 rfl, rfl, h3, by
    cases hi : tx.ignore with
    | false => rfl
    | true => exact absurd (h5.1 hi) hh⟩, fun ⟨_, _, h⟩ => not_struct h⟩
  have hn := (h4 hh b!"id").1 (.inl (explicit1 (f := { name := b!"ID", tag := b!"json:\"id\"" }) (v := b!"id") rD (by decide)))
  rw [hn]
  exact hx

end GoJsonEx
end Oapi.Props
