import Verif.Spec.Types
import Verif.Proofs.Pointer
import Verif.Props.Fragment
import Verif.Props.Pointer

/-! The points the type scanner makes. -/
namespace Oapi.Types
open Spec Url

set_option maxRecDepth 8000 in
theorem hex_facts (c : UInt8) :
    hexVal (hexDigit (c.toNat / 16)) = some (c.toNat / 16) ∧ hexVal (hexDigit (c.toNat % 16)) = some (c.toNat % 16) ∧
    UInt8.ofNat (c.toNat / 16 * 16 + c.toNat % 16) = c ∧ hexDigit (c.toNat / 16) ≠ 35 ∧ hexDigit (c.toNat % 16) ≠ 35 ∧
    (shouldEscape .fragment c = false → c ≠ 37) := by
  refine all_bytes (P := fun c => hexVal (hexDigit (c.toNat / 16)) = some (c.toNat / 16) ∧
    hexVal (hexDigit (c.toNat % 16)) = some (c.toNat % 16) ∧
    UInt8.ofNat (c.toNat / 16 * 16 + c.toNat % 16) = c ∧ hexDigit (c.toNat / 16) ≠ 35 ∧ hexDigit (c.toNat % 16) ≠ 35 ∧
    (shouldEscape .fragment c = false → c ≠ 37)) ?_ c
  decide

theorem unescape_escape (s : Str) : unescape .fragment (escape .fragment s) = some s := by
  induction s with
  | nil => rfl
  | cons c t ih =>
    obtain ⟨h1, h2, h3, _, _, h6⟩ := hex_facts c
    unfold escape at ih ⊢
    rw [List.flatMap_cons]
    by_cases he : shouldEscape .fragment c = true
    · rw [if_pos he]
      simp only [List.cons_append, List.nil_append]
      rw [unescape, if_pos rfl]
      simp only [h1, h2]
      rw [if_neg (by simp), if_neg (by simp), ih, Option.map_some, h3]
    · have he' : shouldEscape .fragment c = false := by simpa using he
      rw [if_neg he]
      simp only [List.cons_append, List.nil_append]
      unfold unescape
      rw [if_neg (h6 he'), if_neg (by simp), ih]
      rfl

theorem unescape_escapedFragment (u : URL) : unescape .fragment (escapedFragment u) = some u.fragment := by
  unfold escapedFragment
  split
  · rename_i h; exact h.2.2
  · exact unescape_escape _

theorem escapedFragment_ne {u : URL} (h : u.fragment ≠ []) : escapedFragment u ≠ [] := by
  intro e
  have := unescape_escapedFragment u
  rw [e] at this
  have h2 : unescape .fragment ([] : Str) = some [] := rfl
  rw [h2] at this
  exact h (Option.some.inj this).symm

/-- A pointer into Go package `pkg` with fragment `f`, as the scanner makes them. -/
def GoPoint (pkg : Str) (f : Fragment) (p : Pointer) : Prop :=
  ∃ h q fr rf, pkg = h ++ q ∧ p = ⟨{ scheme := b!"go", host := h, path := q, fragment := fr, rawFragment := rf }, f⟩ ∧
    Url.parse (b!"go://" ++ pkg) = some { scheme := b!"go", host := h, path := q } ∧
    Url.hostname { scheme := b!"go", host := h, path := q } = h ∧
    Url.toStr { scheme := b!"go", host := h, path := q } = b!"go://" ++ pkg ∧ fr ≠ []

theorem GoPoint.frag {pkg f p} (h : GoPoint pkg f p) : p.fragment = f := by
  obtain ⟨_, _, _, _, _, rfl, _⟩ := h; rfl
theorem GoPoint.scheme {pkg f p} (h : GoPoint pkg f p) : p.url.scheme = b!"go" := by
  obtain ⟨_, _, _, _, _, rfl, _⟩ := h; rfl
theorem GoPoint.pkgPath {pkg f p} (h : GoPoint pkg f p) : p.pkgPath = pkg := by
  obtain ⟨h, q, fr, rf, e, rfl, _, h2, _⟩ := h
  unfold Pointer.pkgPath
  show Url.hostname _ ++ q = _
  rw [e]
  congr 1
theorem GoPoint.toStr {pkg f p} (h : GoPoint pkg f p) : p.toStr = b!"go://" ++ pkg ++ 35 :: f.toStr := by
  obtain ⟨h, q, fr, rf, e, rfl, _, _, h3, _⟩ := h
  unfold Pointer.toStr
  show Url.toStr { scheme := b!"go", host := h, path := q, rawFragment := rf } ++ _ = _
  rw [← h3]; rfl

/-- A token that `Descendant` appends as it is. -/
def TokOK (t : Str) : Prop := (47 : UInt8) ∉ t ∧ (126 : UInt8) ∉ t

theorem escapeToken_plain {name : Str} (h : TokOK name) : Fragment.escapeToken name = name := by
  obtain ⟨n2, n3⟩ := h
  induction name with
  | nil => rfl
  | cons c t ih =>
    simp only [List.mem_cons, not_or] at n2 n3
    rw [Fragment.escapeToken_cons, if_neg (fun e => n3.1 e.symm), if_neg (fun e => n2.1 e.symm), ih n2.2 n3.2]; rfl

theorem newGoLoose_point {pkg name : Str} (hp : GoPkg pkg) (hn : GoIdent name) : GoPoint pkg [name] (Pointer.newGoLoose pkg name) := by
  obtain ⟨hne, hpkg⟩ := hp
  obtain ⟨n1, n2, n3, n4⟩ := hn
  have hall : ∀ c ∈ b!"go://" ++ pkg, UriByte c := by
    intro c hc
    rcases List.mem_append.1 hc with hc | hc
    · have : ∀ c ∈ b!"go://", UriByte c := by decide
      exact this c hc
    · exact (import_facts _ (hpkg c hc)).1
  obtain ⟨h, q, e, hparse, hhost, hstr⟩ := Pointer.url_go hne hpkg
  obtain ⟨rf, hP⟩ := Pointer.Parse_frag (f := 47 :: name) hall hparse rfl (by simp [n4])
  have he : Fragment.escapeToken name = name := escapeToken_plain ⟨n2, n3⟩
  have hnew : Fragment.new (47 :: name) = .ok [name] := by
    have := Fragment.new_toStr [name]
    simpa [Fragment.toStr, Fragment.sepByte, he] using this
  have hloose : Pointer.newGoLoose pkg name = ⟨{ scheme := b!"go", host := h, path := q, fragment := 47 :: name, rawFragment := rf }, [name]⟩ := by
    unfold Pointer.newGoLoose Pointer.parseLoose
    have e1 : b!"go://" ++ pkg ++ b!"#/" ++ name = b!"go://" ++ pkg ++ 35 :: (47 :: name) := by simp
    rw [e1, if_neg (by simp), hP]
    simp only [hnew]
  rw [hloose]
  exact ⟨h, q, 47 :: name, rf, e, rfl, hparse, hhost, hstr, by simp⟩

theorem clone_point {pkg f p} (hp : GoPkg pkg) (h : GoPoint pkg f p) : ∃ p', p.clone = .ok p' ∧ GoPoint pkg f p' := by
  obtain ⟨h, q, fr, rf, e, rfl, h1, h2, h3, h4⟩ := h
  have hall : ∀ c ∈ b!"go://" ++ pkg, UriByte c := by
    intro c hc
    rcases List.mem_append.1 hc with hc | hc
    · have : ∀ c ∈ b!"go://", UriByte c := by decide
      exact this c hc
    · exact (import_facts _ (hp.2 c hc)).1
  generalize hu : ({ scheme := b!"go", host := h, path := q, fragment := fr, rawFragment := rf } : URL) = u
  have hfr : u.fragment = fr := by rw [← hu]
  have hs : Url.toStr u = b!"go://" ++ pkg ++ 35 :: escapedFragment u := by
    have e1 : Url.toStr u = Url.toStr { scheme := b!"go", host := h, path := q } ++ 35 :: escapedFragment u := by
      have hne : fr ≠ [] := h4
      rw [← hu]
      simp [Url.toStr, hne, Url.authPath, Url.escapedPath]
    rw [e1, h3]
  have hne := escapedFragment_ne (u := u) (by rw [hfr]; exact h4)
  have hP : ∃ rf', Url.Parse (Url.toStr u) = some { scheme := b!"go", host := h, path := q, fragment := fr, rawFragment := rf' } := by
    rw [hs]
    unfold Url.Parse
    rw [cut_some (Pointer.uri_hash hall)]
    simp only [h1]
    cases hesc : escapedFragment u with
    | nil => exact absurd hesc hne
    | cons c t =>
      simp only [setFragment]
      rw [← hesc, unescape_escapedFragment, hfr]
      exact ⟨_, rfl⟩
  obtain ⟨rf', hP⟩ := hP
  refine ⟨⟨{ scheme := b!"go", host := h, path := q, fragment := fr, rawFragment := rf' }, f⟩, ?_, h, q, fr, rf', e, rfl, h1, h2, h3, h4⟩
  unfold Pointer.clone
  simp only
  rw [hP]

theorem descendant_plain {f : Fragment} {tok : Str} (hf : f ≠ [[]]) (h : TokOK tok) : f.descendant tok = .ok (f ++ [tok]) := by
  have h1 := Props.C03_descendant_token f tok hf
  rw [escapeToken_plain h] at h1
  have hns : Str.hasPrefix tok Fragment.separator = false := by
    cases tok with
    | nil => rfl
    | cons c t =>
      have := h.1
      simp only [List.mem_cons, not_or] at this
      simp [Str.hasPrefix, Fragment.separator, List.isPrefixOf, this.1]
  unfold Fragment.descendant at h1 ⊢
  rw [if_pos (by simp [Str.hasPrefix, Fragment.separator, List.isPrefixOf])] at h1
  rw [if_neg (by simp [hns])]
  exact h1

theorem withToken_point {pkg f p tok} (hp : GoPkg pkg) (h : GoPoint pkg f p) (hf : f ≠ [[]]) (ht : TokOK tok) :
    ∃ p', withToken p tok = .ok p' ∧ GoPoint pkg (f ++ [tok]) p' := by
  obtain ⟨p', h1, h2⟩ := clone_point hp h
  refine ⟨{ p' with fragment := f ++ [tok] }, ?_, ?_⟩
  · unfold withToken
    rw [h1]
    simp only [h2.frag, descendant_plain hf ht]
  · obtain ⟨h, q, fr, rf, e, rfl, x⟩ := h2
    exact ⟨h, q, fr, rf, e, rfl, x⟩

/-- Two scanner points with the same text are into the same package with the same fragment. -/
theorem GoPoint.inj {pkg pkg' f f' p p'} (hp : GoPkg pkg) (hp' : GoPkg pkg') (h : GoPoint pkg f p) (h' : GoPoint pkg' f' p')
    (e : p.toStr = p'.toStr) : pkg = pkg' ∧ f = f' := by
  rw [h.toStr, h'.toStr] at e
  have e1 : pkg ++ 35 :: f.toStr = pkg' ++ 35 :: f'.toStr := by simpa using e
  have n1 : (35 : UInt8) ∉ pkg := fun hm => (uri_facts _ (import_facts _ (hp.2 _ hm)).1).2.1 rfl
  have n2 : (35 : UInt8) ∉ pkg' := fun hm => (uri_facts _ (import_facts _ (hp'.2 _ hm)).1).2.1 rfl
  have c1 := cut_some (t := f.toStr) n1
  rw [e1, cut_some n2] at c1
  simp only [Prod.mk.injEq, Option.some.injEq] at c1
  exact ⟨c1.1.symm, Fragment.toStr_inj c1.2.symm⟩

end Oapi.Types
