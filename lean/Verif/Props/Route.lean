import Verif.Proofs.Route

/-! Properties C26–C28: route patterns.  `other` is the (unmodelled) behaviour of Go's regular expressions outside the
sub-language that patterns of the considered kind produce; the theorems hold for every such behaviour. -/
namespace Oapi.Props
open Oapi Spec Route

/-- C26: a pattern without method prefix whose text after the last variable has no metacharacter matches exactly the
paths it describes.  Patterns and paths are arbitrary Unicode texts. -/
theorem C26_matches_what_it_describes (other : Runes → Option Regexp) {p q : List Nat} (hp : ∀ n ∈ p, Scalar n)
    (hq : ∀ n ∈ q, Scalar n) (hu : Unprefixed p) {ts : List Tok} (hr : Reads p ts) {l : List Nat} (hl : LastText ts l)
    (hm : ∀ r ∈ l, ¬ Meta r) (method : Str) :
    ∃ b, matchPure other (utf8s p) method (utf8s q) = .ok b ∧ (b = true ↔ Describes ts q) := by
  refine ⟨matchRe (pieces ts) q, ?_, matchRe_pieces ts q⟩
  have h1 : prepare (utf8s p) method = .need (rexp ts) := by
    simp only [prepare, stripMethod_none hp hu, validRunes_utf8s hp, toRegexp_reads hr]
    simp
  simp only [matchPure, h1, compile, parse_rexp hr hl hm, runes_utf8s hq]

/-- C26: every pattern has a reading as plain texts, variables and stars. -/
theorem C26_every_pattern_reads (p : List Nat) : ∃ ts, Reads p ts := reads_exists p.length p (Nat.le_refl _)

/-- C26, the limit: text after the last variable is not quoted, so a '.' there matches every character but line feed. -/
theorem C26_tail_is_an_expression (other : Runes → Option Regexp) {s t : List Nat} {c : Nat}
    (hs : ∀ n ∈ s ++ t, Scalar n ∧ ¬ Meta n) (hc : Scalar c) (hn : c ≠ 10) (hu : Unprefixed (s ++ 46 :: t)) (method : Str) :
    matchPure other (utf8s (s ++ 46 :: t)) method (utf8s (s ++ c :: t)) = .ok true := by
  have hsc : ∀ d, Scalar d → ∀ n ∈ s ++ d :: t, Scalar n := by
    intro d hd n hn
    simp only [List.mem_append, List.mem_cons] at hn
    rcases hn with hn | rfl | hn
    · exact (hs n (by simp [hn])).1
    · exact hd
    · exact (hs n (by simp [hn])).1
  have hp := hsc 46 (Or.inl (by decide))
  have hpl : PlainText (s ++ 46 :: t) := by
    intro u v m e
    have hmem : ∀ x ∈ m, x = 46 ∨ ¬ Meta x := by
      intro x hx
      have : x ∈ s ++ 46 :: t := by rw [e]; simp [hx]
      simp only [List.mem_append, List.mem_cons] at this
      rcases this with h | h | h
      · exact Or.inr (hs x (by simp [h])).2
      · exact Or.inl h
      · exact Or.inr (hs x (by simp [h])).2
    constructor
    · rintro rfl
      rcases hmem 42 (by simp) with h | h
      · cases h
      · exact h (by simp [Meta])
    · rintro n _ rfl
      rcases hmem 123 (by simp) with h | h
      · cases h
      · exact h (by simp [Meta])
  have h1 : prepare (utf8s (s ++ 46 :: t)) method = .need (s ++ 46 :: t) := by
    simp only [prepare, stripMethod_none hp hu, validRunes_utf8s hp, toRegexp_reads (.last hpl), rexp]
    simp
  have h2 : parseRe 0 (s ++ 46 :: t) = some (s.map Piece.lit ++ (.dot :: (t.map Piece.lit ++ []))) := by
    have e1 := parseRe_quote s (46 :: t)
    rw [quoteMeta_plain (fun r hr => (hs r (by simp [hr])).2), parseRe_dot] at e1
    have e2 := parseRe_quote t []
    rw [quoteMeta_plain (fun r hr => (hs r (by simp [hr])).2), List.append_nil] at e2
    rw [e1, e2]; rfl
  simp only [matchPure, h1, compile, h2, runes_utf8s (hsc c hc)]
  congr 1
  rw [matchRe_lits]
  refine ⟨c :: t, rfl, ?_⟩
  simp only [matchRe, Bool.and_eq_true, bne_iff_ne]
  exact ⟨hn, (matchRe_lits t [] t).2 ⟨[], by simp, rfl⟩⟩

/-- C27: a pattern prefixed with a known method is false for every different non-empty (ASCII) method. -/
theorem C27_other_method_never_matches (other : Runes → Option Regexp) {m rest mt : List Nat} (hm : KnownMethod m)
    (hr : ∀ n ∈ rest, Scalar n) (hmt : ∀ n ∈ mt, n < 128) (hne : mt ≠ []) (hd : ¬ SameFold m mt) (path : Str) :
    matchPure other (utf8s (m ++ 58 :: rest)) (utf8s mt) path = .ok false := by
  obtain ⟨k, hk, e⟩ := hm
  have hs : ∀ n ∈ mt, Scalar n := fun n hn => Or.inl (by have := hmt n hn; omega)
  have hlow : ∀ k ∈ knownMethods, k.length > 0 ∧ ∀ n ∈ ascii k, lowerLetter n = n := by decide
  have hlen : (utf8s mt).length > 0 := by
    rw [utf8s_ascii hmt]; exact List.length_pos_iff.2 hne
  have heq : equalFold (ascii k) mt = false := by
    cases hq : equalFold (ascii k) mt with
    | false => rfl
    | true =>
      exfalso; apply hd
      have := (equalFold_ascii hmt (hlow k hk).2).1 hq
      unfold SameFold
      rw [e, ← this]
      show ascii k = (ascii k).map lowerLetter
      conv => lhs; rw [← List.map_id (ascii k)]
      apply List.map_congr_left
      intro n hn; exact ((hlow k hk).2 n hn).symm
  have hp : prepare (utf8s (m ++ 58 :: rest)) (utf8s mt) = .done (.ok false) := by
    simp only [prepare, stripMethod_some hr hk e, runes_utf8s hs]
    rw [if_pos ⟨(hlow k hk).1, hlen, heq⟩]
  simp only [matchPure, hp]

/-- C27: for the same method in any letter case, or for no method, the prefixed pattern answers as the rest does. -/
theorem C27_same_method_ignores_prefix (other : Runes → Option Regexp) {m rest mt : List Nat} (hm : KnownMethod m)
    (hr : ∀ n ∈ rest, Scalar n) (hu : Unprefixed rest) (hmt : ∀ n ∈ mt, n < 128) (hd : mt = [] ∨ SameFold m mt)
    (path : Str) (anyMethod : Str) :
    matchPure other (utf8s (m ++ 58 :: rest)) (utf8s mt) path = matchPure other (utf8s rest) anyMethod path := by
  obtain ⟨k, hk, e⟩ := hm
  have hs : ∀ n ∈ mt, Scalar n := fun n hn => Or.inl (by have := hmt n hn; omega)
  have hlow : ∀ k ∈ knownMethods, ∀ n ∈ ascii k, lowerLetter n = n := by decide
  have hp : prepare (utf8s (m ++ 58 :: rest)) (utf8s mt) = prepare (utf8s rest) anyMethod := by
    simp only [prepare, stripMethod_some hr hk e, stripMethod_none hr hu, runes_utf8s hs]
    rw [if_neg, if_neg (by simp)]
    rintro ⟨_, h2, h3⟩
    rcases hd with rfl | hd
    · simp [utf8s] at h2
    · have : equalFold (ascii k) mt = true := by
        rw [equalFold_ascii hmt (hlow k hk), ← hd, e]
        show (ascii k).map lowerLetter = ascii k
        conv => rhs; rw [← List.map_id (ascii k)]
        apply List.map_congr_left
        intro n hn; exact hlow k hk n hn
      rw [this] at h3; cases h3
  simp only [matchPure, hp]

/-- C27: a pattern without method prefix gives the same answer for all methods. -/
theorem C27_unprefixed_accepts_all_methods (other : Runes → Option Regexp) {p : List Nat} (hp : ∀ n ∈ p, Scalar n)
    (hu : Unprefixed p) (m₁ m₂ path : Str) :
    matchPure other (utf8s p) m₁ path = matchPure other (utf8s p) m₂ path := by
  simp only [matchPure, prepare, stripMethod_none hp hu]
  simp

/-- C28: in every state reachable under any schedule of any number of concurrent calls, every answer given so far is the
one the call would have got from an empty cache. -/
theorem C28_cache_invisible {other : Runes → Option Regexp} {s : Sys} (h : Reach other s) :
    ∀ c a, (c, a) ∈ s.log → a = matchPure other c.pattern c.method c.path :=
  (cacheInv_reach h).log

/-- C28: at most one goroutine is between Lock and Unlock, so the map is never accessed concurrently. -/
theorem C28_mutual_exclusion {other : Runes → Option Regexp} {s : Sys} (h : Reach other s) {t u : Nat}
    (ht : (s.pc t).holding) (hu : (s.pc u).holding) : t = u := by
  have h1 := (lockInv_reach h t).1 ht
  have h2 := (lockInv_reach h u).1 hu
  rw [h1] at h2; cases h2; rfl

/-- C28: no schedule deadlocks: whenever some call is under way, some goroutine with a call under way can take a step. -/
theorem C28_no_deadlock {other : Runes → Option Regexp} {s : Sys} (h : Reach other s) {t : Nat} (ht : s.pc t ≠ .idle) :
    ∃ u s', s.pc u ≠ .idle ∧ Step other s u s' := by
  have move : ∀ u, s.pc u ≠ .idle → (∀ c re, s.pc u ≠ .want c re) → ∃ s', Step other s u s' := by
    intro u hu hw
    cases hp : s.pc u with
    | idle => exact absurd hp hu
    | start c =>
      cases hd : prepare c.pattern c.method with
      | done r => exact ⟨_, .early hp hd⟩
      | need re => exact ⟨_, .prep hp hd⟩
    | want c re => exact absurd hp (hw c re)
    | locked c re => exact ⟨_, .look hp⟩
    | looked c re r =>
      cases r with
      | some f => exact ⟨_, .hit hp⟩
      | none =>
        cases hc : compile other re with
        | none => exact ⟨_, .bad hp hc⟩
        | some f => exact ⟨_, .comp hp hc⟩
    | compiled c re f => exact ⟨_, .store hp⟩
    | unlock c r => exact ⟨_, .release hp⟩
    | back c r =>
      cases r with
      | none => exact ⟨_, .fail hp⟩
      | some f => exact ⟨_, .answer hp⟩
  by_cases hw : ∃ c re, s.pc t = .want c re
  · obtain ⟨c, re, hp⟩ := hw
    cases hl : s.lock with
    | none => exact ⟨t, _, ht, .acquire hp hl⟩
    | some u =>
      have hh := (lockInv_reach h u).2 hl
      have hne : s.pc u ≠ .idle := by intro e; rw [e] at hh; exact hh
      have hnw : ∀ c re, s.pc u ≠ .want c re := by intro c re e; rw [e] at hh; exact hh
      obtain ⟨s', hs'⟩ := move u hne hnw
      exact ⟨u, s', hne, hs'⟩
  · obtain ⟨s', hs'⟩ := move t ht (fun c re e => hw ⟨c, re, e⟩)
    exact ⟨t, s', ht, hs'⟩

/-! Concrete cases -/

private def noOther : Runes → Option Regexp := fun _ => none

/-- "/[]foo/{av}/1/*2" from the project's own test: its reading … -/
example : Reads (ascii b!"/[]foo/{av}/1/*2")
    [.text (ascii b!"/[]foo/"), .var (ascii b!"av"), .text (ascii b!"/1/"), .any, .text (ascii b!"2")] := by
  have plain : ∀ s : List Nat, (∀ x ∈ s, x ≠ 42 ∧ x ≠ 123) → PlainText s := by
    intro s h u v m e
    constructor
    · rintro rfl; exact (h 42 (by rw [e]; simp)).1 rfl
    · rintro n _ rfl; exact (h 123 (by rw [e]; simp)).2 rfl
  exact Reads.var (s := ascii b!"/[]foo/") (n := ascii b!"av") (plain _ (by decide))
    (by simp [VarName, ascii, LowerLetter, LetterOrDigit])
    (Reads.any (s := ascii b!"/1/") (plain _ (by decide)) (.last (plain _ (by decide))))
/-- … and its behaviour. -/
example : matchPure noOther b!"/[]foo/{av}/1/*2" b!"" b!"/[]foo/{123}/1/3/2" = .ok true := by decide
example : matchPure noOther b!"/[]foo/{av}/1/*2" b!"" b!"/[]foo/{xxxx}/1/3" = .ok false := by decide
example : matchPure noOther b!"GET:/foo" b!"POST" b!"/foo" = .ok false := by decide
example : matchPure noOther b!"GET:/foo" b!"get" b!"/foo" = .ok true := by decide
example : matchPure noOther b!"gEt:/{id}é" b!"GET" b!"/üé" = .ok true := by decide
/-- a one-letter name is not a variable: the braces stay literal and, at the end, are an (invalid or literal) expression -/
example : matchPure noOther b!"/{a}/*" b!"" b!"/x/y" = .ok false := by decide
example : matchPure noOther b!"/{a}/*" b!"" b!"/{a}/y" = .ok true := by decide
/-- the hypotheses on prefixes are met by patterns that start with '/' -/
example (p : List Nat) : Unprefixed (47 :: p) := by
  rintro ⟨m, rest, e, k, hk, h⟩
  have hh : ∀ k ∈ knownMethods, k ≠ [] ∧ (ascii k).head? ≠ some 47 := by decide
  cases m with
  | nil => simp at e
  | cons a m =>
    simp at e
    rw [← e.1] at h
    have := (hh k hk).2
    rw [show ascii k = k.map UInt8.toNat from rfl, ← h] at this
    exact this (by simp [goLower, lowerLetter])
/-- the Kelvin sign is lower-cased to 'k', but the cut is made in bytes: such a prefix breaks the pattern -/
example : matchPure noOther (utf8s ((ascii b!"loc") ++ 0x212A :: ascii b!":/a")) b!"" b!"/a" = .err .syntaxErr := by decide

/-- two concurrent calls with the same pattern: a reachable state with both answers in the log -/
example : ∃ s : Sys, Reach noOther s ∧ s.log.length = 2 := by
  let c1 : Call := ⟨b!"/a", b!"", b!"/a"⟩
  let c2 : Call := ⟨b!"/a", b!"", b!"/b"⟩
  let re : Runes := ascii b!"/a"
  have hprep : ∀ c : Call, c.pattern = b!"/a" → c.method = b!"" → prepare c.pattern c.method = .need re := by
    intro c h1 h2; rw [h1, h2]; rfl
  have hc : ∃ f, compile noOther re = some f := ⟨_, rfl⟩
  obtain ⟨f, hf⟩ := hc
  refine ⟨_, .step (t := 1) (.step (t := 1) (.step (t := 1) (.step (t := 1) (.step (t := 1)
    (.step (t := 0) (.step (t := 0) (.step (t := 0) (.step (t := 0) (.step (t := 0) (.step (t := 0)
    (.step (t := 1) (.step (t := 0) (.step (t := 1) (.step (t := 0) .init
      (.enter c1 rfl)) (.enter c2 rfl)) (.prep rfl (hprep _ rfl rfl))) (.prep rfl (hprep _ rfl rfl)))
      (.acquire rfl rfl)) (.look rfl)) (.comp rfl hf)) (.store rfl)) (.release rfl)) (.answer rfl))
      (.acquire rfl rfl)) (.look rfl)) (.hit (f := f) rfl)) (.release rfl)) (.answer rfl), rfl⟩

end Oapi.Props
