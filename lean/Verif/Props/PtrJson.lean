import Verif.Proofs.PtrJson
import Verif.Props.Pointer

/- C88: references in JSON. -/
namespace Oapi.Props

open Oapi.PtrJson Oapi.Spec Oapi.Spec.PtrJson

/-- **C88** (encoding): a reference can be written as JSON exactly if its text is Unicode without control characters other than
`\b \f \n \r \t` and without unprintable characters outside the basic plane; what is written is a JSON string that means the text. -/
theorem C88_encode (prn : Nat → Bool) (p : Pointer) :
    ((∃ t, encode prn p = .ok t) ↔ Quotable prn p.toStr) ∧ (∀ t, encode prn p = .ok t → JsonString t p.toStr) ∧ encode prn p ≠ .panic := by
  have e0 : encode prn p = if scanString ((chunks p.toStr).flatMap (quoteChunk prn) ++ [34]) then .ok (marshal prn p) else .err .syntaxErr := rfl
  by_cases hq : Quotable prn p.toStr
  · obtain ⟨es, h1, h2, h3⟩ := chunks_elems (chunks p.toStr) (chunks_ok _) ((quotable_iff prn _).1 hq)
    rw [chunks_bytes] at h3
    have hs : scanString ((chunks p.toStr).flatMap (quoteChunk prn) ++ [34]) = true := by
      rw [h2]; exact scan_elems es fun e he => (h1 e he).1
    rw [e0, hs]
    refine ⟨⟨fun _ => hq, fun _ => ⟨_, rfl⟩⟩, ?_, nofun⟩
    rintro t ⟨⟩
    refine ⟨es, fun e he => (h1 e he).1, ?_, h3⟩
    unfold marshal quote literal
    rw [h2]
  · have hs : scanString ((chunks p.toStr).flatMap (quoteChunk prn) ++ [34]) = false := by
      refine scan_chunks_bad _ (chunks_ok _) ?_ _
      refine Classical.byContradiction fun hn => hq ((quotable_iff prn _).2 fun c hc => Classical.byContradiction fun hg => hn ⟨c, hc, hg⟩)
    rw [e0, hs]
    refine ⟨⟨?_, fun h => absurd h hq⟩, ?_, nofun⟩
    · rintro ⟨t, ht⟩; cases ht
    · intro t ht; cases ht

/-- **C88** (decoding): a reference given as a JSON string is the one its meaning denotes, however the characters are escaped, unless
the string has an escaped slash or a surrogate pair. -/
theorem C88_decode (es : List Elem) (ho : ∀ e ∈ es, e.ok) (hf : ∀ e ∈ es, ¬ e.foreign) :
    unmarshal (literal es) = Pointer.parse (meaning es) := by
  unfold unmarshal
  rw [unquote_literal ho hf]

theorem no_scheme_quote {t : Str} {u : Url.URL} (h : Url.Parse (34 :: t) = some u) : u.scheme = [] := by
  have hp : ∀ raw u', Url.parse (34 :: raw) = some u' → u'.scheme = [] := by
    intro raw u' h
    unfold Url.parse at h
    split at h
    · cases h
    · rw [if_neg (by simp)] at h
      have hg : Url.getscheme (34 :: raw) = some ([], 34 :: raw) := by
        unfold Url.getscheme
        simp only [Url.getscheme.go]
        rw [if_neg (by decide), if_neg (by decide), if_neg (by decide)]
      rw [hg] at h
      obtain ⟨r, fq, q, hs, _⟩ := Url.splitQuery_spec (34 :: raw)
      simp only [hs] at h
      unfold Url.parseRest at h
      have hl : Str.lower [] = ([] : Str) := rfl
      simp only [hl] at h
      repeat' split at h
      all_goals first
        | (cases h; rfl)
        | (cases h; done)
        | (unfold Url.setPath at h
           split at h
           · cases h
           · cases h; rfl)
  unfold Url.Parse at h
  rcases Url.cut_cases 35 (34 :: t) with ⟨_, hc⟩ | ⟨a, b, _, e, hc⟩
  · rw [hc] at h
    simp only at h
    split at h
    · cases h
    · rename_i v hv
      cases h
      exact hp _ _ hv
  · rw [hc] at h
    cases a with
    | nil => simp at e
    | cons x a =>
      simp only [List.cons_append, List.cons.injEq] at e
      obtain ⟨rfl, e⟩ := e
      simp only at h
      split at h
      · cases h
      · rename_i v hv
        have := hp _ _ hv
        split at h
        · cases h; exact this
        · cases h; exact this
        · unfold Url.setFragment at h
          split at h
          · cases h
          · cases h; exact this

/-- **C88** (hazard): with an escaped slash (`\/`) or a surrogate pair the raw text with its quotes is taken for the reference, and so it is
refused or denotes something inside the document, never another package. -/
theorem C88_decode_foreign (es : List Elem) (ho : ∀ e ∈ es, e.ok) (hf : ∃ e ∈ es, e.foreign) :
    unmarshal (literal es) = Pointer.parse (literal es) ∧ ∀ p, unmarshal (literal es) = .ok p → p.isExternal = false := by
  have e : unmarshal (literal es) = Pointer.parse (literal es) := by
    unfold unmarshal
    rw [unquote_literal_foreign ho hf]
  refine ⟨e, fun p hp => ?_⟩
  rw [e] at hp
  have : p.url.scheme = [] := by
    rcases Pointer.parse_inv hp with ⟨h, rfl⟩ | ⟨_, _, h, _⟩
    · rfl
    · unfold literal at h
      rw [List.cons_append] at h
      exact no_scheme_quote (t := es.flatMap Elem.text ++ [34]) h
  simp [Pointer.isExternal, this]

/-- **C88** (round trip): decoding what the encoding method wrote gives what the text of the reference denotes. -/
theorem C88_round_trip (prn : Nat → Bool) (p : Pointer) : unmarshal (marshal prn p) = Pointer.parse p.toStr := by
  unfold unmarshal marshal
  rw [unquote_quote]

/-- **C88** (round trip for Go references): a reference to a place in a package, without percent signs and control characters, is written
and read back as the same. -/
theorem C88_go_reference (prn : Nat → Bool) (pkg : Str) (f : Fragment) (hne : pkg ≠ []) (hpkg : ∀ c ∈ pkg, ImportByte c)
    (hf : (37 : UInt8) ∉ f.toStr) (hq : Quotable prn f.toStr) :
    ∃ p t, Pointer.parse (b!"go://" ++ pkg ++ b!"#" ++ f.toStr) = .ok p ∧ encode prn p = .ok t ∧
      JsonString t (b!"go://" ++ pkg ++ b!"#" ++ f.toStr) ∧ unmarshal t = .ok p := by
  obtain ⟨p, h1, _, _, _, h5⟩ := C06_go_pointer_roundtrip pkg f hne hpkg hf
  have hQ : Quotable prn p.toStr := by
    obtain ⟨rs, hr, hrs⟩ := hq
    have hpre : ∀ s : Str, (∀ c ∈ s, 32 ≤ c.toNat ∧ c.toNat < 127) → s = utf8s (s.map UInt8.toNat) := by
      intro s
      induction s with
      | nil => exact fun _ => rfl
      | cons c s ih =>
        intro h
        have hc := h c (.head _)
        have e : utf8 c.toNat = [c] := by
          unfold utf8
          rw [if_pos (by omega)]
          simp
        rw [List.map_cons, utf8s, List.flatMap_cons, e]
        exact congrArg _ (ih fun d hd => h d (.tail _ hd))
    have hall : ∀ c ∈ b!"go://" ++ pkg ++ b!"#", 32 ≤ c.toNat ∧ c.toNat < 127 := by
      have hi : ∀ c : UInt8, ImportByte c → 32 ≤ c.toNat ∧ c.toNat < 127 := by
        intro c hc
        unfold ImportByte at hc
        simp only [UInt8.le_iff_toNat_le, List.mem_cons, List.not_mem_nil, or_false] at hc
        rcases hc with h | h | h | h | h | h | h | h | h
        · have := h.1; have := h.2; simp at *; omega
        · have := h.1; have := h.2; simp at *; omega
        · have := h.1; have := h.2; simp at *; omega
        all_goals subst h; decide
      intro c hc
      simp only [List.mem_append] at hc
      rcases hc with (hc | hc) | hc
      · revert c; decide
      · exact hi c (hpkg c hc)
      · revert c; decide
    refine ⟨(b!"go://" ++ pkg ++ b!"#").map UInt8.toNat ++ rs, ?_, ?_⟩
    · rw [h5, Route.utf8s_append, ← hpre _ hall, ← hr]
    · intro r hr'
      rcases List.mem_append.1 hr' with h | h
      · obtain ⟨c, hc, rfl⟩ := List.mem_map.1 h
        have := hall c hc
        exact ⟨.inl (by omega), fun h => by omega, by omega, fun h => by omega⟩
      · exact hrs r h
  obtain ⟨c1, c2, _⟩ := C88_encode prn p
  obtain ⟨t, ht⟩ := c1.2 hQ
  refine ⟨p, t, h1, ht, h5 ▸ c2 t ht, ?_⟩
  have e : t = marshal prn p := by
    have e0 : encode prn p = if scanString ((chunks p.toStr).flatMap (quoteChunk prn) ++ [34]) then .ok (marshal prn p) else .err .syntaxErr := rfl
    rw [e0] at ht
    split at ht
    · cases ht; rfl
    · cases ht
  rw [e, C88_round_trip, h5]
  exact h1

/-- **C88** (hazard): numbers, `true` and `false` are accepted as references to that text inside the document. -/
theorem C88_not_a_string (data : Str) (hne : data ≠ []) (hd : ∀ c ∈ data, (48 ≤ c ∧ c ≤ 57) ∨ (97 ≤ c ∧ c ≤ 122) ∨ (65 ≤ c ∧ c ≤ 90) ∨ c ∈ b!"+-.") :
    ∃ p, unmarshal data = .ok p ∧ p.isExternal = false ∧ p.url.path = data ∧ p.fragment = [] := by
  have facts : ∀ c : UInt8, ((48 ≤ c ∧ c ≤ 57) ∨ (97 ≤ c ∧ c ≤ 122) ∨ (65 ≤ c ∧ c ≤ 90) ∨ c ∈ b!"+-.") →
      UriByte c ∧ c ≠ 34 ∧ c ≠ 35 ∧ c ≠ 37 ∧ c ≠ 42 ∧ c ≠ 47 ∧ c ≠ 58 ∧ c ≠ 63 := by
    intro c hc
    refine ⟨?_, ?_⟩
    · unfold UriByte
      rcases hc with h | h | h | h
      · exact .inr (.inr (.inl h))
      · exact .inl h
      · exact .inr (.inl h)
      · refine .inr (.inr (.inr ?_))
        simp only [List.mem_cons, List.not_mem_nil, or_false] at h
        rcases h with rfl | rfl | rfl <;> decide
    · refine ⟨?_, ?_, ?_, ?_, ?_, ?_, ?_⟩ <;> (rintro rfl; revert hc; decide)
  have hno : ∀ k : UInt8, (k = 34 ∨ k = 35 ∨ k = 37 ∨ k = 42 ∨ k = 47 ∨ k = 58 ∨ k = 63) → k ∉ data := by
    intro k hk hm
    obtain ⟨_, h1, h2, h3, h4, h5, h6, h7⟩ := facts k (hd k hm)
    rcases hk with h | h | h | h | h | h | h <;> contradiction
  have hun : unquote data = none := by
    cases data with
    | nil => exact absurd rfl hne
    | cons c t =>
      have : c ≠ 34 := by rintro rfl; exact hno 34 (.inl rfl) (.head _)
      unfold unquote
      split
      · rename_i h; cases h; exact absurd rfl this
      · rfl
  have hg : Url.getscheme data = some ([], data) := by
    rcases Url.getscheme_go data [] data with h' | h' | ⟨s, r, e, _⟩
    · exact h'
    · exfalso
      have : ∀ (l acc : Str), (58 : UInt8) ∉ l → Url.getscheme.go data acc l ≠ none := by
        intro l
        induction l with
        | nil => intro acc _; simp [Url.getscheme.go]
        | cons c l ih =>
          intro acc hm
          simp only [List.mem_cons, not_or] at hm
          simp only [Url.getscheme.go]
          split
          · exact ih _ hm.2
          · split
            · split
              · nofun
              · exact ih _ hm.2
            · rw [if_neg (Ne.symm hm.1)]
              nofun
      exact this data [] (hno 58 (by simp)) h'
    · exact absurd (e ▸ List.mem_append_right _ (.head _)) (hno 58 (by simp))
  have huri : ∀ c ∈ data, UriByte c := fun c hc => (facts c (hd c hc)).1
  have hq : Url.splitQuery data = (data, false, []) := by
    unfold Url.splitQuery
    rw [Url.cut_none (hno 63 (by simp))]
  have hsl : ¬ Str.hasPrefix data b!"/" = true := by
    rw [Url.hasPrefix_slash]
    simp only [decide_eq_true_eq]
    cases data with
    | nil => simp
    | cons c t =>
      simp only [List.head?_cons, Option.some.injEq]
      rintro rfl
      exact hno 47 (by simp) (.head _)
  have hsl2 : ¬ Str.hasPrefix data b!"//" = true := by
    intro h
    cases data with
    | nil => exact absurd rfl hne
    | cons c t =>
      have : c = 47 := by
        simp [Str.hasPrefix] at h
        exact h.1.symm
      exact hno 47 (by simp) (this ▸ .head _)
  have hstar : data ≠ b!"*" := by rintro rfl; exact hno 42 (by simp) (.head _)
  have hcol : Url.colonFirst data = false := by
    unfold Url.colonFirst
    rw [Url.cut_none (hno 58 (by simp))]
  have hparse : ∃ u, Url.parse data = some u ∧ u.scheme = [] ∧ u.path = data ∧ u.fragment = [] := by
    rw [Url.parse_scheme huri hstar hg hq]
    unfold Url.parseRest
    rw [if_neg (by rintro ⟨h, _⟩; exact h rfl), if_neg (by rintro ⟨_, h⟩; rw [hcol] at h; cases h), if_neg (by rintro ⟨_, h⟩; exact hsl2 h)]
    unfold Url.setPath
    rw [Url.unescape_id (hno 37 (by simp)) (by nofun)]
    exact ⟨_, rfl, rfl, rfl, rfl⟩
  obtain ⟨u, hu, u1, u2, u3⟩ := hparse
  have hP : Url.Parse data = some u := by
    unfold Url.Parse
    rw [Url.cut_none (hno 35 (by simp))]
    simp only [hu]
  have hfr : Fragment.new u.fragment = .ok [] := by rw [u3]; rfl
  refine ⟨⟨u, []⟩, ?_, ?_, u2, rfl⟩
  · unfold unmarshal
    rw [hun]
    refine Pointer.parse_of hne ?_ hP hfr
    rintro rfl
    exact hno 35 (by simp) (.head _)
  · simp [Pointer.isExternal, u1]

/-! ### Concrete cases -/

/-- All runes outside ASCII printable. -/
def allPrint : Nat → Bool := fun _ => true

example : encode allPrint (Pointer.parseLoose b!"go://a/b#/T") = .ok b!"\"go://a/b#/T\"" := by decide

/-- A Go reference with a quotation mark and a letter outside ASCII in its fragment meets the hypotheses of `C88_go_reference`. -/
example : ∃ p t, Pointer.parse (b!"go://" ++ b!"a.b/c" ++ b!"#" ++ Fragment.toStr [b!"T", [34, 0xC3, 0xA9]]) = .ok p ∧ encode allPrint p = .ok t ∧
    JsonString t (b!"go://" ++ b!"a.b/c" ++ b!"#" ++ Fragment.toStr [b!"T", [34, 0xC3, 0xA9]]) ∧ unmarshal t = .ok p := by
  refine C88_go_reference allPrint b!"a.b/c" [b!"T", [34, 0xC3, 0xA9]] (by decide) (by unfold ImportByte; decide) (by decide) ⟨[47, 84, 47, 34, 0xE9], by decide, ?_⟩
  simp [Scalar, allPrint]

/-- A percent-encoded zero byte in the fragment: accepted by the parser, but the reference cannot be written. -/
example : (∃ p, Pointer.parse b!"#/a%00" = .ok p ∧ p.fragment = [b!"a\x00"] ∧ encode allPrint p = .err .syntaxErr) :=
  ⟨Pointer.parseLoose b!"#/a%00", by decide, by decide, by decide⟩

/-- `"go://a#/T"` with an escaped letter is understood, with escaped slashes it is refused. -/
example : unmarshal b!"\"go:\\u002f/a#/T\"" = Pointer.parse b!"go://a#/T" ∧ unmarshal b!"\"go:\\/\\/a#\\/T\"" = .err .syntaxErr := by decide

example : ∃ p, unmarshal b!"-1.5e+3" = .ok p ∧ p.isExternal = false ∧ p.url.path = b!"-1.5e+3" ∧ p.fragment = [] :=
  C88_not_a_string b!"-1.5e+3" (by decide) (by decide)

/-- The literal `"a\/b"` as elements. -/
example : unmarshal (literal [.plain 97, .slash, .plain 98]) = Pointer.parse b!"\"a\\/b\"" :=
  (C88_decode_foreign [.plain 97, .slash, .plain 98] (by simp [Elem.ok, Scalar]) ⟨.slash, by simp, trivial⟩).1

end Oapi.Props
