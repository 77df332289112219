import Verif.Proofs.Specs
import Verif.Proofs.HostName

/-! C06–C09: pointers. -/
namespace Oapi.Props
open Oapi Spec

/-- C06: a Go pointer made of an import path and any fragment whose text has no '%' parses into exactly that package path
and fragment, and prints back as it was written. -/
theorem C06_go_pointer_roundtrip (pkg : Str) (f : Fragment) (hne : pkg ≠ []) (hpkg : ∀ c ∈ pkg, ImportByte c)
    (hf : (37 : UInt8) ∉ f.toStr) :
    ∃ p, Pointer.parse (b!"go://" ++ pkg ++ b!"#" ++ f.toStr) = .ok p ∧
      p.url.scheme = b!"go" ∧ p.pkgPath = pkg ∧ p.fragment = f ∧ p.toStr = b!"go://" ++ pkg ++ b!"#" ++ f.toStr := by
  obtain ⟨p, h1, h2, h3, h4, h5⟩ := Pointer.parse_go hne hpkg hf
  refine ⟨p, by simpa using h1, h2, h3, h4, ?_⟩
  have := h5 f
  rw [← h4] at this
  rw [show p = { p with fragment := p.fragment } from rfl, this, h4]
  simp

/-- C06: `NewGoPointer(pkg, name)` for a one-token fragment. -/
theorem C06_newGo (pkg name : Str) (hne : pkg ≠ []) (hpkg : ∀ c ∈ pkg, ImportByte c)
    (h1 : (37 : UInt8) ∉ name) (h2 : (126 : UInt8) ∉ name) (h3 : (47 : UInt8) ∉ name) :
    ∃ p, Pointer.newGo pkg name = .ok p ∧ p.pkgPath = pkg ∧ p.fragment = [name] ∧
      p.toStr = b!"go://" ++ pkg ++ b!"#/" ++ name := by
  have he : Fragment.escapeToken name = name := by
    clear h1
    induction name with
    | nil => rfl
    | cons c t ih =>
      simp only [List.mem_cons, not_or] at h2 h3
      rw [Fragment.escapeToken_cons, if_neg (fun e => h2.1 e.symm), if_neg (fun e => h3.1 e.symm), ih h2.2 h3.2]; rfl
  have hs : Fragment.toStr [name] = 47 :: name := by
    simp [Fragment.toStr, he, Fragment.sepByte]
  obtain ⟨p, a, b, c, d, e⟩ := C06_go_pointer_roundtrip pkg [name] hne hpkg (by
    rw [hs]; simp only [List.mem_cons, not_or]; exact ⟨by decide, h1⟩)
  rw [hs] at a e
  refine ⟨p, ?_, c, d, ?_⟩
  · unfold Pointer.newGo; rw [← a]; simp
  · rw [e]; simp

/-- C06: a fragment whose text contains '%' is never read back, whatever precedes the '#': the printed form is not
percent-encoded. -/
theorem C06_percent_is_lost (raw : Str) (f : Fragment) (hraw : (35 : UInt8) ∉ raw) (hf : (37 : UInt8) ∈ f.toStr)
    (p : Pointer) (h : Pointer.parse (raw ++ b!"#" ++ f.toStr) = .ok p) : p.fragment ≠ f := by
  apply Pointer.parse_percent hraw hf
  simpa using h

example : ∃ p, Pointer.parse b!"go://github.com/a/b#/T" = .ok p ∧ p.pkgPath = b!"github.com/a/b" ∧ p.fragment = [b!"T"] := by
  exact ⟨(Pointer.parseLoose b!"go://github.com/a/b#/T"), by decide, by decide, by decide⟩
example : (∀ c ∈ b!"github.com/a/b", ImportByte c) := by decide
example : ∃ p, Pointer.parse b!"go://x#/a%41" = .ok p ∧ p.fragment = [b!"aA"] := by
  exact ⟨(Pointer.parseLoose b!"go://x#/a%41"), by decide, by decide⟩

/-- C07: two pointers read from plain references, with any fragments put on them (`WithDescendant`), that print the same
string have the same target: same URL, same fragment. -/
theorem C07_equal_strings_same_target (x y : Str) (hx : PlainRef x) (hy : PlainRef y) (p q : Pointer) (f g : Fragment)
    (hp : Pointer.parse x = .ok p) (hq : Pointer.parse y = .ok q)
    (h : ({ p with fragment := f } : Pointer).toStr = ({ q with fragment := g } : Pointer).toStr) :
    SameTarget { p with fragment := f } { q with fragment := g } ∧
    ({ p with fragment := f } : Pointer).pkgPath = ({ q with fragment := g } : Pointer).pkgPath := by
  obtain ⟨⟨rp, p1⟩, p2⟩ := Pointer.plain_url hx hp
  obtain ⟨⟨rq, q1⟩, q2⟩ := Pointer.plain_url hy hq
  have hcut := congrArg (Str.cut 35) h
  unfold Pointer.toStr at hcut
  simp only at hcut
  rw [Url.cut_some p2, Url.cut_some q2] at hcut
  simp only [Prod.mk.injEq, Option.some.injEq] at hcut
  have hfg : f = g := Fragment.toStr_inj hcut.2
  rw [hcut.1, q1] at p1
  simp only [Option.some.injEq, Url.URL.mk.injEq] at p1
  obtain ⟨e1, e2, e3, e4, e5, _, e6, e7, _⟩ := p1
  refine ⟨⟨e1.symm, e2.symm, e3.symm, e4.symm, e5.symm, e6.symm, e7.symm, hfg⟩, ?_⟩
  unfold Pointer.pkgPath Url.hostname
  simp only [e4, e5]

/-- C07 for pointers to Go declarations: equal strings exactly when the package path and the fragment are equal. -/
theorem C07_go_string_iff (pkg pkg' : Str) (f g : Fragment) (h1 : pkg ≠ []) (h2 : pkg' ≠ []) (h3 : ∀ c ∈ pkg, ImportByte c)
    (h4 : ∀ c ∈ pkg', ImportByte c) (hf : (37 : UInt8) ∉ f.toStr) (hg : (37 : UInt8) ∉ g.toStr) (p q : Pointer)
    (hp : Pointer.parse (b!"go://" ++ pkg ++ b!"#" ++ f.toStr) = .ok p)
    (hq : Pointer.parse (b!"go://" ++ pkg' ++ b!"#" ++ g.toStr) = .ok q) :
    p.toStr = q.toStr ↔ p.pkgPath = q.pkgPath ∧ p.fragment = q.fragment := by
  obtain ⟨p', a1, _, a3, a4, a5⟩ := C06_go_pointer_roundtrip pkg f h1 h3 hf
  obtain ⟨q', b1, _, b3, b4, b5⟩ := C06_go_pointer_roundtrip pkg' g h2 h4 hg
  rw [hp] at a1; cases a1
  rw [hq] at b1; cases b1
  rw [a3, a4, b3, b4, a5, b5]
  have hu : ∀ {s : Str}, (∀ c ∈ s, ImportByte c) → ∀ c ∈ b!"go://" ++ s, UriByte c := by
    intro s hs c hc
    rcases List.mem_append.1 hc with hc | hc
    · have : ∀ c ∈ b!"go://", UriByte c := by decide
      exact this c hc
    · exact (Url.import_facts _ (hs c hc)).1
  constructor
  · intro h
    have hcut := congrArg (Str.cut 35) h
    simp only [List.append_assoc, List.singleton_append] at hcut
    rw [← List.append_assoc, ← List.append_assoc, Url.cut_some (Pointer.uri_hash (hu h3)), Url.cut_some (Pointer.uri_hash (hu h4))] at hcut
    simp only [Prod.mk.injEq, Option.some.injEq, List.append_cancel_left_eq] at hcut
    exact ⟨hcut.1, Fragment.toStr_inj hcut.2⟩
  · rintro ⟨rfl, rfl⟩; rfl

/-- C07: the package path of a pointer is the name of its host, without a port, followed by its path. -/
theorem C07_pkgPath (p : Pointer) (s : Str) : p.pkgPath = s ↔ ∃ n, HostName p.url.host n ∧ s = n ++ p.url.path := by
  unfold Pointer.pkgPath
  constructor
  · rintro rfl; exact ⟨_, Url.hostname_iff.1 rfl, rfl⟩
  · rintro ⟨n, h, rfl⟩; rw [Url.hostname_iff.2 h]

private instance (c : UInt8) : Decidable (UserByte c) := by unfold UserByte; infer_instance

set_option maxRecDepth 4000 in
private theorem user_facts : ∀ c : UInt8, UserByte c → UriByte c ∧ c ≠ 47 ∧ c ≠ 63 ∧ c ≠ 37 ∧
    (Url.isAlnum c || decide (c ∈ b!"-._:~!$&'()*+,;=%@")) = true := by
  refine Url.all_bytes (P := fun c => UserByte c → UriByte c ∧ c ≠ 47 ∧ c ≠ 63 ∧ c ≠ 37 ∧
    (Url.isAlnum c || decide (c ∈ b!"-._:~!$&'()*+,;=%@")) = true) ?_
  decide

private theorem user_read {ui : Str} (h : ∀ c ∈ ui, UserByte c) : Url.validUserinfo ui = true ∧ ∃ u, Url.parseUser ui = some u := by
  refine ⟨List.all_eq_true.2 fun c hc => (user_facts c (h c hc)).2.2.2.2, ?_⟩
  have hid : ∀ {s : Str}, (∀ c ∈ s, UserByte c) → Url.unescape .user s = some s := fun hs =>
    Url.unescape_id (fun hm => (user_facts _ (hs _ hm)).2.2.2.1 rfl) (fun e => by rcases e with e | e <;> cases e)
  unfold Url.parseUser
  rcases Url.cut_cases 58 ui with ⟨_, e⟩ | ⟨a, t, _, e1, e⟩
  · rw [e]; simp only [hid h]; exact ⟨_, rfl⟩
  · rw [e]
    simp only
    rw [hid fun c hc => h c (by rw [e1]; simp [hc]), hid fun c hc => h c (by rw [e1]; simp [hc])]
    exact ⟨_, rfl⟩

set_option maxRecDepth 4000 in
/-- C07: so neither a port nor user information is part of the package: `go://user@host:port/path#…` is a pointer into the
package `host/path`. -/
theorem C07_authority_ignored (ui : Option Str) (host : Str) (ds : Option Str) (path : Str) (f : Fragment)
    (hui : ∀ u, ui = some u → ∀ c ∈ u, UserByte c) (hhost : ∀ c ∈ host, ImportByte c ∧ c ≠ 47)
    (hds : ∀ d, ds = some d → ∀ c ∈ d, 48 ≤ c ∧ c ≤ 57) (hpath : ∀ c ∈ path, ImportByte c)
    (hsl : path = [] ∨ ∃ t, path = b!"/" ++ t) (hf : (37 : UInt8) ∉ f.toStr) :
    ∃ p, Pointer.parse (b!"go://" ++ (ui.elim [] (· ++ b!"@")) ++ host ++ (ds.elim [] (b!":" ++ ·)) ++ path ++ b!"#" ++ f.toStr) = .ok p ∧
      p.url.scheme = b!"go" ∧ p.pkgPath = host ++ path ∧ p.fragment = f := by
  have hdig : ∀ c : UInt8, (48 ≤ c ∧ c ≤ 57) → UriByte c ∧ c ≠ 47 ∧ c ≠ 63 ∧ c ≠ 64 ∧ c ≠ 37 ∧ c ≠ 91 := by
    refine Url.all_bytes (P := fun c => (48 ≤ c ∧ c ≤ 57) → UriByte c ∧ c ≠ 47 ∧ c ≠ 63 ∧ c ≠ 64 ∧ c ≠ 37 ∧ c ≠ 91) ?_
    decide
  let a : Str := host ++ ds.elim [] (b!":" ++ ·)
  let w : Str := ui.elim [] (· ++ b!"@")
  have ha : ∀ c ∈ a, UriByte c ∧ c ≠ 47 ∧ c ≠ 63 ∧ c ≠ 64 ∧ c ≠ 37 ∧ c ≠ 91 := by
    intro c hc
    rcases List.mem_append.1 hc with hc | hc
    · have := Url.import_facts _ (hhost c hc).1
      exact ⟨this.1, (hhost c hc).2, this.2.1, this.2.2.2.1, this.2.2.2.2.2.2.2, this.2.2.2.2.1⟩
    · cases hd : ds with
      | none => rw [hd] at hc; cases hc
      | some d =>
        rw [hd] at hc
        rcases List.mem_cons.1 hc with rfl | hc
        · decide
        · exact hdig c (hds d hd c hc)
  have hw : ∀ c ∈ w, UriByte c ∧ c ≠ 47 ∧ c ≠ 63 := by
    intro c hc
    cases hu : ui with
    | none => simp only [w, hu] at hc; cases hc
    | some u =>
      simp only [w, hu, Option.elim_some] at hc
      rcases List.mem_append.1 hc with hc | hc
      · have := user_facts c (hui u hu c hc)
        exact ⟨this.1, this.2.1, this.2.2.1⟩
      · simp at hc
        subst hc; decide
  have hp : ∀ c ∈ path, UriByte c ∧ c ≠ 63 := fun c hc => ⟨(Url.import_facts _ (hpath c hc)).1, (Url.import_facts _ (hpath c hc)).2.1⟩
  have hall : ∀ c ∈ b!"go://" ++ (w ++ a ++ path), UriByte c := by
    intro c hc
    rcases List.mem_append.1 hc with hc | hc
    · have : ∀ c ∈ b!"go://", UriByte c := by decide
      exact this c hc
    · rcases List.mem_append.1 hc with hc | hc
      · rcases List.mem_append.1 hc with hc | hc
        · exact (hw c hc).1
        · exact (ha c hc).1
      · exact (hp c hc).1
  have hsq : Url.splitQuery (47 :: 47 :: (w ++ a ++ path)) = (47 :: 47 :: (w ++ a ++ path), false, []) := by
    unfold Url.splitQuery
    rw [Url.cut_none]
    simp only [List.mem_cons, List.mem_append, not_or]
    exact ⟨by decide, by decide, ⟨fun h => (hw _ h).2.2 rfl, fun h => (ha _ h).2.2.1 rfl⟩, fun h => (hp _ h).2 rfl⟩
  have h47 : (47 : UInt8) ∉ w ++ a := by
    simp only [List.mem_append, not_or]
    exact ⟨fun h => (hw _ h).2.1 rfl, fun h => (ha _ h).2.1 rfl⟩
  obtain ⟨tl, hcut, htl⟩ : ∃ tl, Str.cut 47 (w ++ a ++ path) = (w ++ a, tl) ∧ Url.slashOpt tl = path := by
    rcases hsl with rfl | ⟨t, rfl⟩
    · exact ⟨none, by rw [List.append_nil]; exact Url.cut_none h47, rfl⟩
    · exact ⟨some t, Url.cut_some h47, rfl⟩
  have hcol : (58 : UInt8) ∉ host := fun hm => (Url.import_facts _ (hhost _ hm).1).2.2.1 rfl
  have hname : HostName a host := by
    refine ⟨host, ?_, .inr ⟨rfl, ?_⟩⟩
    · cases hd : ds with
      | none =>
        refine .inr ⟨by simp [a, hd], ?_⟩
        rintro ⟨c, d, e, _⟩
        apply hcol
        simp only [a, hd, Option.elim_none, List.append_nil] at e
        rw [e]; simp [show b!":" = [58] from rfl]
      | some d => exact .inl ⟨d, by simp [a, hd], hds d hd⟩
    · rintro ⟨m, hm⟩
      have := Url.import_facts _ (hhost 91 (by rw [hm]; simp [show b!"[" = [91] from rfl])).1
      exact this.2.2.2.2.1 rfl
  have hph : Url.parseHost a = some a := by
    have hun : Url.unescape .host a = some a :=
      Url.unescape_id (fun hm => (ha _ hm).2.2.2.2.1 rfl) fun _ c hc =>
        (Url.uri_facts c (ha c hc).1).2.2.2.2.2.2 (ha c hc).2.2.1 (ha c hc).2.1 (ha c hc).2.2.2.1 (ha c hc).2.2.2.2.1
    unfold Url.parseHost
    rw [if_neg]
    · cases hd : ds with
      | none =>
        rw [Url.lastColon_none.2 (by simpa [a, hd] using hcol)]
        exact hun
      | some d =>
        have hport : HasPort a host d := ⟨by simp [a, hd], hds d hd⟩
        rw [Url.hasPort_lastColon hport]
        simp only [Url.port_valid.2 (hds d hd), if_true]
        exact hun
    · intro h
      exact (ha 91 (List.mem_of_mem_head? h)).2.2.2.2.2 rfl
  obtain ⟨us, hpa⟩ : ∃ us, Url.parseAuthority (w ++ a) = some (us, a) := by
    have h64 : (64 : UInt8) ∉ a := fun hm => (ha _ hm).2.2.2.1 rfl
    unfold Url.parseAuthority
    cases hu : ui with
    | none =>
      simp only [w, hu, Option.elim_none, List.nil_append]
      rw [Url.cutLast_none.2 h64]
      simp only [hph]
      exact ⟨_, rfl⟩
    | some u =>
      have e : w ++ a = u ++ 64 :: a := by simp [w, hu, show b!"@" = [64] from rfl]
      rw [e, Url.cutLast_some _ h64]
      obtain ⟨v1, v2, v3⟩ := user_read (hui u hu)
      simp only [hph, v1, v3, if_true]
      exact ⟨_, rfl⟩
  have hparse : Url.parse (b!"go://" ++ (w ++ a ++ path)) = some { scheme := b!"go", user := us, host := a, path := path } := by
    rw [Url.parse_scheme hall (by simp) (sch := b!"go") (rest := 47 :: 47 :: (w ++ a ++ path)) rfl hsq]
    unfold Url.parseRest
    rw [if_neg (by simp [Str.hasPrefix, List.isPrefixOf]), if_neg (by simp [Str.hasPrefix, List.isPrefixOf]),
      if_pos ⟨Or.inl (by decide), by simp [Str.hasPrefix, List.isPrefixOf]⟩]
    simp only [List.drop_succ_cons, List.drop_zero, hcut, hpa, htl]
    rw [Url.setPath_plain (fun hm => (Url.import_facts _ (hpath _ hm)).2.2.2.2.2.2.2 rfl),
      Url.escape_id fun c hc => (Url.import_facts _ (hpath c hc)).2.2.2.2.2.2.1, if_pos rfl]
    rfl
  obtain ⟨rf, hP⟩ := Pointer.Parse_frag hall hparse rfl hf
  refine ⟨⟨{ scheme := b!"go", user := us, host := a, path := path, fragment := f.toStr, rawFragment := rf }, f⟩, ?_, rfl, ?_, rfl⟩
  · have e : b!"go://" ++ (ui.elim [] (· ++ b!"@")) ++ host ++ (ds.elim [] (b!":" ++ ·)) ++ path ++ b!"#" ++ f.toStr =
        b!"go://" ++ (w ++ a ++ path) ++ 35 :: f.toStr := by
      simp [a, w, show b!"#" = [35] from rfl]
    rw [e]
    exact Pointer.parse_of (by simp) (by simp) hP (f := f) (Fragment.new_toStr f)
  · exact (C07_pkgPath _ _).2 ⟨host, hname, rfl⟩

/-- C07: in particular `go://host:port/path#…` is a pointer into the package `host/path`. -/
theorem C07_port_ignored (host ds path : Str) (f : Fragment) (hhost : ∀ c ∈ host, ImportByte c ∧ c ≠ 47)
    (hds : ∀ c ∈ ds, 48 ≤ c ∧ c ≤ 57) (hpath : ∀ c ∈ path, ImportByte c) (hsl : path = [] ∨ ∃ t, path = b!"/" ++ t)
    (hf : (37 : UInt8) ∉ f.toStr) :
    ∃ p, Pointer.parse (b!"go://" ++ host ++ b!":" ++ ds ++ path ++ b!"#" ++ f.toStr) = .ok p ∧
      p.url.scheme = b!"go" ∧ p.pkgPath = host ++ path ∧ p.fragment = f := by
  have := C07_authority_ignored none host (some ds) path f (by simp) hhost (by rintro d ⟨⟩; exact hds) hpath hsl hf
  simpa using this

example : ∃ p, Pointer.parse b!"go://example.com:8080/m#/T" = .ok p ∧ p.pkgPath = b!"example.com/m" :=
  ⟨_, (C07_port_ignored b!"example.com" b!"8080" b!"/m" [b!"T"] (by decide) (by decide) (by decide) (.inr ⟨b!"m", rfl⟩) (by decide)).choose_spec.1,
    (C07_port_ignored b!"example.com" b!"8080" b!"/m" [b!"T"] (by decide) (by decide) (by decide) (.inr ⟨b!"m", rfl⟩) (by decide)).choose_spec.2.2.1⟩

example : ∃ p, Pointer.parse b!"go://me:pw@example.com/m#/T" = .ok p ∧ p.pkgPath = b!"example.com/m" := by
  obtain ⟨p, h1, _, h2, _⟩ := C07_authority_ignored (some b!"me:pw") b!"example.com" none b!"/m" [b!"T"]
    (by rintro u ⟨⟩; decide) (by decide) (by simp) (by decide) (.inr ⟨b!"m", rfl⟩) (by decide)
  exact ⟨p, h1, h2⟩

-- IPv6 literals, zones, user information and percent-encoding in references
example : ∃ p, Pointer.parse b!"http://u%40v:p@[fe80::1%25en%200]:8080/a%2Fb?q#/T" = .ok p ∧
    p.url.user = some { username := b!"u@v", password := some b!"p" } ∧ p.url.host = b!"[fe80::1%en 0]:8080" ∧
    p.pkgPath = b!"fe80::1%en 0/a/b" ∧ p.toStr = b!"http://u%40v:p@[fe80::1%25en%200]:8080/a%2Fb?q#/T" :=
  ⟨Pointer.parseLoose b!"http://u%40v:p@[fe80::1%25en%200]:8080/a%2Fb?q#/T", by decide +kernel, by decide +kernel, by decide +kernel,
    by decide +kernel, by decide +kernel⟩
example : PlainRef b!"http://u%40v:p@[fe80::1%25en%200]:8080/a%2Fb?q#/T" :=
  ⟨b!"http://u%40v:p@[fe80::1%25en%200]:8080/a%2Fb?q", b!"/T", by decide +kernel, Or.inr (by decide +kernel)⟩
-- the only change of spelling of a path: `%2A` for `*`
example : (Pointer.parseLoose b!"%2A?x").toStr = b!"*?x#" := by decide +kernel

example : PlainRef b!"go://github.com/a/b#/T" :=
  ⟨b!"go://github.com/a/b", b!"/T", by decide, Or.inr (by decide)⟩

/-! ### C08 -/

/-- What the scanner replaces a reference by. -/
private theorem rewrite_local {pkg x : Str} {p : Pointer} (hp : Pointer.parse x = .ok p) (h : p.url.scheme = b!"go" ∧ p.pkgPath = []) :
    Specs.rewriteRef pkg x = .ok { Pointer.newGoLoose pkg [] with fragment := p.fragment } := by
  unfold Specs.rewriteRef; rw [hp]; simp only; rw [if_pos h]

/-- C08: a local Go reference (scheme go, no package) becomes the absolute reference into the scanned package, with the
fragment kept. -/
theorem C08_local_becomes_absolute (pkg x : Str) (hne : pkg ≠ []) (hpkg : ∀ c ∈ pkg, ImportByte c) (p : Pointer)
    (hp : Pointer.parse x = .ok p) (hs : p.url.scheme = b!"go") (hl : p.pkgPath = []) :
    ∃ q, Specs.rewriteRef pkg x = .ok q ∧ q.url.scheme = b!"go" ∧ q.pkgPath = pkg ∧ q.fragment = p.fragment ∧
      q.toStr = b!"go://" ++ pkg ++ b!"#" ++ p.fragment.toStr := by
  obtain ⟨q, h1, h2, h3, _, h5⟩ := Pointer.parse_go (f := [[]]) hne hpkg (by decide)
  have hloose : Pointer.newGoLoose pkg [] = q := by
    have hpar : Pointer.parse (b!"go://" ++ pkg ++ b!"#/" ++ []) = .ok q := by
      rw [← h1]; congr 1
      simp [Fragment.toStr, Fragment.sepByte]
    unfold Pointer.newGoLoose Pointer.parseLoose
    rcases Pointer.parse_inv hpar with ⟨hx, _⟩ | ⟨ha, hb, hP, hf⟩
    · simp at hx
    · rw [if_neg (by simp [ha, hb]), hP]
      simp only [hf]
  refine ⟨_, rewrite_local hp ⟨hs, hl⟩, ?_, ?_, rfl, ?_⟩
  · rw [hloose]; exact h2
  · rw [hloose]; exact h3
  · rw [hloose, h5]; simp

/-- C08: `go://#/X…` in package `pkg` becomes `go://pkg#/X…`. -/
theorem C08_local_string (pkg : Str) (f : Fragment) (hne : pkg ≠ []) (hpkg : ∀ c ∈ pkg, ImportByte c) (hf : (37 : UInt8) ∉ f.toStr) :
    ∃ q, Specs.rewriteRef pkg (b!"go://#" ++ f.toStr) = .ok q ∧ q.toStr = b!"go://" ++ pkg ++ b!"#" ++ f.toStr := by
  have hurl : Url.parse b!"go://" = some { scheme := b!"go" } := by decide
  obtain ⟨rf, hP⟩ := Pointer.Parse_frag (raw := b!"go://") (by decide) hurl rfl hf
  have hpar := Pointer.parse_of (x := b!"go://" ++ 35 :: f.toStr) (by simp) (by simp) hP (f := f) (Fragment.new_toStr f)
  obtain ⟨q, h1, _, _, _, h5⟩ := C08_local_becomes_absolute pkg _ hne hpkg _ hpar rfl rfl
  exact ⟨q, h1, h5⟩

/-- C08: every other plain reference keeps its target (as the reference read back from the rewritten document denotes it),
provided its decoded fragment contains no '%'. -/
theorem C08_other_keeps_target (pkg x : Str) (hx : PlainRef x) (p : Pointer) (hp : Pointer.parse x = .ok p)
    (hn : ¬ (p.url.scheme = b!"go" ∧ p.pkgPath = [])) (hf : (37 : UInt8) ∉ p.fragment.toStr) :
    Specs.rewriteRef pkg x = .ok p ∧ ∃ q, Pointer.parse p.toStr = .ok q ∧ SameTarget p q := by
  refine ⟨by unfold Specs.rewriteRef; rw [hp]; simp only; rw [if_neg hn], ?_⟩
  obtain ⟨⟨rp, h1⟩, h2⟩ := Pointer.plain_url hx hp
  by_cases hemp : p.toStr = b!"#"
  · refine ⟨{}, by rw [hemp]; decide, ?_⟩
    unfold Pointer.toStr at hemp
    have hu : Url.toStr { p.url with fragment := [] } = [] ∧ p.fragment.toStr = [] := by
      cases hc : Url.toStr { p.url with fragment := [] } with
      | nil => rw [hc] at hemp; simp at hemp; exact ⟨rfl, hemp⟩
      | cons a b =>
        rw [hc] at hemp
        simp only [List.cons_append, List.cons.injEq] at hemp
        simp at hemp
    rw [hu.1] at h1
    have e : Url.parse [] = some {} := by decide
    rw [e] at h1
    simp only [Option.some.injEq, Url.URL.mk.injEq] at h1
    obtain ⟨e1, e2, e3, e4, e5, _, e6, e7, _⟩ := h1
    exact ⟨e1.symm, e2.symm, e3.symm, e4.symm, e5.symm, e6.symm, e7.symm, Fragment.toStr_inj hu.2⟩
  · obtain ⟨rf, hP⟩ := Pointer.Parse_frag' h2 h1 rfl hf
    exact ⟨_, Pointer.parse_of (x := p.toStr) (by simp [Pointer.toStr]) hemp hP (f := p.fragment) (Fragment.new_toStr _),
      rfl, rfl, rfl, rfl, rfl, rfl, rfl, rfl⟩

/-- C08: without that proviso the target changes: a reference to a name containing `%41` (spelled `%2541`) is turned into
one that denotes the name with `A`. -/
theorem C08_percent_changes_target : ∃ x p q : _, PlainRef x ∧ Pointer.parse x = .ok p ∧
    Specs.rewriteRef b!"m" x = .ok p ∧ Pointer.parse p.toStr = .ok q ∧ ¬ SameTarget p q := by
  refine ⟨b!"go://x#/a%2541", Pointer.parseLoose b!"go://x#/a%2541", Pointer.parseLoose b!"go://x#/a%41",
    ⟨b!"go://x", b!"/a%2541", by decide, Or.inr (by decide)⟩, by decide, by decide, by decide, ?_⟩
  intro h
  exact absurd h.2.2.2.2.2.2.2 (by decide)

/-- C08: nor does it hold for references with characters that no URL may contain, though they are accepted: the path
`//x/y z` (spelled `/%2Fx/y z`) is turned into the path `/y z` on the host `x`, and the IPv6 zone `é` into text that no longer
parses. -/
theorem C08_not_a_url : (∃ x p q : _, Pointer.parse x = .ok p ∧ p.url.host = [] ∧ Specs.rewriteRef b!"m" x = .ok p ∧
      Pointer.parse p.toStr = .ok q ∧ q.url.host = b!"x") ∧
    ∃ x p : _, Pointer.parse x = .ok p ∧ Specs.rewriteRef b!"m" x = .ok p ∧ ∀ q, Pointer.parse p.toStr ≠ .ok q := by
  refine ⟨⟨b!"/%2Fx/y z#/T", Pointer.parseLoose b!"/%2Fx/y z#/T", Pointer.parseLoose b!"//x/y%20z#/T", by decide +kernel, by decide +kernel,
    by decide +kernel, by decide +kernel, by decide +kernel⟩,
    ⟨b!"//[::1%25é]#/T", Pointer.parseLoose b!"//[::1%25é]#/T", by decide +kernel, by decide +kernel, fun q h => ?_⟩⟩
  have e : Pointer.parse (Pointer.parseLoose b!"//[::1%25é]#/T").toStr = .err .syntaxErr := by decide +kernel
  rw [e] at h
  cases h

/-- The new text of a reference: that of the pointer the scanner puts in its place. -/
def newRef (pkg x : Str) : Str := match Specs.rewriteRef pkg x with
  | .ok p => p.toStr
  | _ => x

/-- C08: whatever the order in which the references are visited, scanning a file maps every `$ref` string of the document,
changes nothing else, and registers exactly the resulting pointers. -/
theorem C08_scan_file (pkg : Str) (c c' : Json) (ps ps' : Pointers) (hw : Json.WF c) (hs : Routed (fun _ => True) c)
    (h : Specs.ScanFile pkg c ps (.ok (some c', ps'))) :
    c' = mapRefs (newRef pkg) c ∧
    (∀ k p, Pointers.get k ps' = some p →
      Pointers.get k ps = some p ∨ ∃ x, HasRef c x ∧ Specs.rewriteRef pkg x = .ok p ∧ p.toStr = k) ∧
    (∀ k p, Pointers.get k ps = some p → ∃ p', Pointers.get k ps' = some p') ∧
    (∀ x, HasRef c x → ∃ p, Pointers.get (newRef pkg x) ps' = some p) := by
  unfold Specs.ScanFile at h
  split at h
  · cases h
  · split at h
    · cases h
    · cases h
    · rename_i refs hrefs
      obtain ⟨refs', hperm, h⟩ := h
      obtain ⟨ws, he, hw1, hw2, hw3⟩ := extract_locs hw hs hrefs hperm
      subst he
      by_cases hbad : ∃ w ∈ ws, ∃ s, w.2 = .str s ∧ ∀ p, Specs.rewriteRef pkg s ≠ .ok p
      · have := fun r => Specs.scanRefs_err ws (c := c) (ps := ps) (r := r) hbad
        split at h
        · rename_i a b hr; exact absurd hr (this _)
        · cases h
        · cases h
      · have hok : ∀ w ∈ ws, ∀ s, w.2 = .str s → ∃ p, Specs.rewriteRef pkg s = .ok p := by
          intro w hw s hs
          by_cases hx : ∃ p, Specs.rewriteRef pkg s = .ok p
          · exact hx
          · exact absurd ⟨w, hw, s, hs, fun p hp => hx ⟨p, hp⟩⟩ hbad
        obtain ⟨ps'', e1, e2, e3, e4⟩ := Specs.scanRefs_ok (pkg := pkg) ws (c := c) (ps := ps)
          (fun w hw s hs => by
            obtain ⟨L, hL, hg⟩ := (hw2 w hw).2.2 s hs
            exact ⟨by rw [hL]; exact hg trivial, by rw [hL]; simp, (hw2 w hw).1⟩) hw3 hok
        rw [e1] at h
        simp only [Res.ok.injEq, Prod.mk.injEq, Option.some.injEq] at h
        obtain ⟨rfl, rfl⟩ := h
        refine ⟨Specs.putAll_refs hw (fun L x h => hw1 L x trivial h) (fun w hw => ⟨(hw2 w hw).1, fun x hx => by
          obtain ⟨L, hL, _⟩ := (hw2 w hw).2.2 x hx; exact ⟨L, hL⟩⟩) hw3, ?_, e3, ?_⟩
        · intro k p hk
          rcases e2 k p hk with h | ⟨w, hwm, s, hs1, hs2, hs3⟩
          · exact Or.inl h
          · obtain ⟨L, hL, _⟩ := (hw2 w hwm).2.2 s hs1
            refine Or.inr ⟨s, ⟨L, ?_⟩, hs2, hs3⟩
            rw [← hL, (hw2 w hwm).1, hs1]
        · rintro x ⟨L, hL⟩
          exact e4 _ (hw1 L _ trivial hL) x rfl

/-- C08: a file that is a spec (has "openapi") is scanned without error exactly when all its references parse. -/
theorem C08_scan_file_fails_iff (pkg : Str) (c : Json) (ps : Pointers) (hw : Json.WF c) (hs : Routed (fun _ => True) c)
    (ho : Container.existsP c b!"openapi" = true) (hc : scalar c = false) (r : Res (Option Json × Pointers))
    (h : Specs.ScanFile pkg c ps r) :
    (∃ e, r = .err e) ↔ ∃ x, HasRef c x ∧ ∀ p, Pointer.parse x ≠ .ok p := by
  have hpr : ∀ s, (∃ p, Specs.rewriteRef pkg s = .ok p) ↔ ∃ p, Pointer.parse s = .ok p := by
    intro s
    unfold Specs.rewriteRef
    cases Pointer.parse s with
    | ok p => simp only; constructor
              · intro _; exact ⟨p, rfl⟩
              · intro _; split <;> exact ⟨_, rfl⟩
    | err e => simp
    | panic => simp
  unfold Specs.ScanFile at h
  rw [if_neg (by rw [ho]; simp)] at h
  cases hrefs : Container.extractKey c b!"$ref" with
  | err e =>
    exfalso
    have := (C14_extractKey_fails_iff c b!"$ref").1 (by rw [hrefs]; simp)
    rw [hc] at this; cases this
  | panic =>
    exfalso
    have := (C14_extractKey_fails_iff c b!"$ref").1 (by rw [hrefs]; simp)
    rw [hc] at this; cases this
  | ok refs =>
    rw [hrefs] at h
    obtain ⟨refs', hperm, h⟩ := h
    obtain ⟨ws, he, hw1, hw2, hw3⟩ := extract_locs hw hs hrefs hperm
    subst he
    constructor
    · rintro ⟨e, rfl⟩
      by_cases hx : ∃ x, HasRef c x ∧ ∀ p, Pointer.parse x ≠ .ok p
      · exact hx
      · exfalso
        obtain ⟨ps'', e1, _⟩ := Specs.scanRefs_ok (pkg := pkg) ws (c := c) (ps := ps)
          (fun w hw s hs => by
            obtain ⟨L, hL, hg⟩ := (hw2 w hw).2.2 s hs
            exact ⟨by rw [hL]; exact hg trivial, by rw [hL]; simp, (hw2 w hw).1⟩) hw3
          (by
            intro w hwm s hs
            rw [hpr]
            by_cases hy : ∃ p, Pointer.parse s = .ok p
            · exact hy
            · refine absurd ⟨s, ?_, fun p hp => hy ⟨p, hp⟩⟩ hx
              obtain ⟨L, hL, _⟩ := (hw2 w hwm).2.2 s hs
              exact ⟨L, by rw [← hL, (hw2 w hwm).1, hs]⟩)
        rw [e1] at h; cases h
    · rintro ⟨x, ⟨L, hL⟩, hbad⟩
      have hbad' : ∃ w ∈ ws, ∃ s, w.2 = .str s ∧ ∀ p, Specs.rewriteRef pkg s ≠ .ok p :=
        ⟨_, hw1 L _ trivial hL, x, rfl, fun p hp => by
          obtain ⟨q, hq⟩ := (hpr x).1 ⟨p, hp⟩; exact hbad q hq⟩
      have := fun r => Specs.scanRefs_err ws (c := c) (ps := ps) (r := r) hbad'
      cases hr : Specs.scanRefs pkg (ws.map dotEntry) c ps with
      | ok a => exact absurd hr (this a)
      | err e => rw [hr] at h; exact ⟨e, h⟩
      | panic => exact absurd hr (Specs.scanRefs_no_panic _ _ _ _)

private def d08 : Json := .obj [(b!"a", .obj [(b!"$ref", .str b!"go://#/T")]), (b!"b", .arr [.obj [(b!"$ref", .str b!"#/x")]]),
  (b!"openapi", .str b!"3"), (b!"x.y", .obj [(b!"", .num 1)])]

example : Json.WF d08 ∧ Routed (fun _ => True) d08 := ⟨wfB_sound _ (by decide), routedB_sound (pb := fun _ => true) (wfB_sound _ (by decide)) (fun _ _ => rfl) (by decide)⟩
example : ∃ ps', Specs.ScanFile b!"m/p" d08 [] (.ok (some (.obj [(b!"a", .obj [(b!"$ref", .str b!"go://m/p#/T")]),
    (b!"b", .arr [.obj [(b!"$ref", .str b!"#/x")]]), (b!"openapi", .str b!"3"), (b!"x.y", .obj [(b!"", .num 1)])]), ps')) := by
  refine ⟨[(b!"go://m/p#/T", { Pointer.parseLoose b!"go://m/p#/" with fragment := [b!"T"] }), (b!"#/x", Pointer.parseLoose b!"#/x")], ?_⟩
  unfold Specs.ScanFile
  rw [if_neg (by decide)]
  rw [show Container.extractKey d08 b!"$ref" = .ok [(b!"a.$ref", .str b!"go://#/T"), (b!"b.0.$ref", .str b!"#/x")] from by decide]
  exact ⟨_, firsts_order _, by decide⟩

/-- C08 for all files of a package: the containers kept are the spec files, in order, with their references mapped. -/
theorem C08_scan_files (pkg : Str) (cs : List Json) (ps ps' : Pointers) (out : List Json)
    (hw : ∀ c ∈ cs, Json.WF c ∧ Routed (fun _ => True) c) (h : Specs.ScanFiles pkg cs ps (.ok (out, ps'))) :
    out = (cs.filter (Container.existsP · b!"openapi")).map (mapRefs (newRef pkg)) ∧
    ∀ c ∈ cs, Container.existsP c b!"openapi" = true → ∀ x, HasRef c x → ∃ p, Pointers.get (newRef pkg x) ps' = some p := by
  generalize hr : (Res.ok (out, ps') : Res (List Json × Pointers)) = r at h
  have mono : ∀ {cs ps r}, Specs.ScanFiles pkg cs ps r → (∀ c ∈ cs, Json.WF c ∧ Routed (fun _ => True) c) → ∀ {out ps'}, r = .ok (out, ps') →
      ∀ k p, Pointers.get k ps = some p → ∃ p', Pointers.get k ps' = some p' := by
    intro cs ps r h
    induction h with
    | nil => intro _ out ps' e k p hk; cases e; exact ⟨p, hk⟩
    | skip hf _ ih =>
      intro hw out ps' e k p hk
      refine ih (fun c hc => hw c (by simp [hc])) e k p ?_
      unfold Specs.ScanFile at hf
      split at hf
      · cases hf; exact hk
      · split at hf
        · cases hf
        · cases hf
        · obtain ⟨_, _, hf⟩ := hf; split at hf <;> cases hf
    | keep hf _ ih =>
      intro hw out ps' e k p hk
      cases e
      obtain ⟨_, _, h3, _⟩ := C08_scan_file _ _ _ _ _ (hw _ (by simp)).1 (hw _ (by simp)).2 hf
      obtain ⟨p', hp'⟩ := h3 k p hk
      exact ih (fun c hc => hw c (by simp [hc])) rfl k p' hp'
    | keepErr _ _ _ => intro _ out ps' e; cases e
    | fail _ => intro _ out ps' e; cases e
  induction h generalizing out ps' with
  | nil => cases hr; simp
  | @skip c cs ps r ps1 hf hrest ih =>
    obtain ⟨e1, e2⟩ := ih ps' out (fun c hc => hw c (by simp [hc])) hr
    have hno : Container.existsP c b!"openapi" = false := by
      unfold Specs.ScanFile at hf
      split at hf
      · assumption
      · split at hf
        · cases hf
        · cases hf
        · obtain ⟨_, _, hf⟩ := hf; split at hf <;> cases hf
    refine ⟨by rw [e1, List.filter_cons_of_neg (by rw [hno]; simp)], ?_⟩
    intro d hd hod
    rcases List.mem_cons.1 hd with rfl | hd
    · rw [hno] at hod; cases hod
    · exact e2 d hd hod
  | @keep c cs ps ps1 c1 out1 ps2 hf hrest ih =>
    cases hr
    obtain ⟨e1, e2⟩ := ih ps2 out1 (fun c hc => hw c (by simp [hc])) rfl
    obtain ⟨f1, _, _, f4⟩ := C08_scan_file _ _ _ _ _ (hw _ (by simp)).1 (hw _ (by simp)).2 hf
    have hyes : Container.existsP c b!"openapi" = true := by
      unfold Specs.ScanFile at hf
      split at hf
      · cases hf
      · rename_i hh; simpa using hh
    refine ⟨by rw [List.filter_cons_of_pos (by exact hyes), List.map_cons, e1, f1], ?_⟩
    intro d hd hod x hx
    rcases List.mem_cons.1 hd with rfl | hd
    · obtain ⟨p, hp⟩ := f4 x hx
      exact mono hrest (fun c hc => hw c (by simp [hc])) rfl _ p hp
    · exact e2 d hd hod x hx
  | keepErr _ _ _ => cases hr
  | fail _ => cases hr

/-! ### C09 -/

/-- C09: the merge of two pointer sets is their right-biased union. -/
theorem C09_merge_right_biased (pp px : Pointers) (h1 : (pp.map Prod.fst).Nodup) (h2 : (px.map Prod.fst).Nodup) (k : Str) :
    Pointers.get k (Pointers.merge pp px) = match Pointers.get k px with
      | some p => some p
      | none => Pointers.get k pp := by
  unfold Pointers.merge
  rw [Pointers.get_copyInto k px _ h2]
  cases Pointers.get k px with
  | some p => rfl
  | none =>
    simp only
    rw [Pointers.get_copyInto k pp _ h1]
    cases Pointers.get k pp <;> rfl

/-- C09: its content does not depend on the order in which the two maps are iterated. -/
theorem C09_merge_order_independent (pp pp' px px' : Pointers) (h1 : (pp.map Prod.fst).Nodup) (h2 : (px.map Prod.fst).Nodup)
    (hp : pp.Perm pp') (hx : px.Perm px') (k : Str) :
    Pointers.get k (Pointers.merge pp px) = Pointers.get k (Pointers.merge pp' px') := by
  rw [C09_merge_right_biased _ _ h1 h2, C09_merge_right_biased _ _ ((hp.map _).nodup_iff.1 h1) ((hx.map _).nodup_iff.1 h2),
    Pointers.get_perm hp h1, Pointers.get_perm hx h2]

/-- C09: `NewPointers` binds every pointer's string, to the last pointer in the list with that string. -/
theorem C09_newPointers (pp : List Pointer) (k : Str) :
    Pointers.get k (Pointers.new pp) = (pp.reverse.find? fun p => p.toStr = k) := by
  unfold Pointers.new
  have H : ∀ (l : List Pointer) (dst : Pointers), Pointers.get k (Pointers.copyInto dst (l.map fun p => (p.toStr, p))) =
      ((l.reverse.find? fun p => p.toStr = k).or (Pointers.get k dst)) := by
    intro l
    induction l with
    | nil => intro dst; simp [Pointers.copyInto]
    | cons p l ih =>
      intro dst
      simp only [List.map_cons, Pointers.copyInto]
      rw [ih, List.reverse_cons, List.find?_append, Pointers.get_put]
      cases hl : l.reverse.find? fun p => p.toStr = k with
      | some q => simp
      | none =>
        by_cases e : k = p.toStr
        · simp [e]
        · have e' : ¬ p.toStr = k := fun h => e h.symm
          simp [e, e']
  rw [H]
  cases (pp.reverse.find? fun p => p.toStr = k) <;> rfl

example : Pointers.get b!"k" (Pointers.merge [(b!"k", Pointer.parseLoose b!"go://a#/X"), (b!"l", {})] [(b!"k", Pointer.parseLoose b!"go://b#/Y")]) =
    some (Pointer.parseLoose b!"go://b#/Y") := by decide

end Oapi.Props
