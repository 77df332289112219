import Verif.Proofs.UrlAuth

namespace Oapi
open Spec Url

namespace Pointer

/-- Import paths parse as host and path. -/
theorem url_go {pkg : Str} (hne : pkg ≠ []) (hp : ∀ c ∈ pkg, ImportByte c) :
    ∃ h p, pkg = h ++ p ∧ Url.parse (b!"go://" ++ pkg) = some { scheme := b!"go", host := h, path := p } ∧
      Url.hostname { scheme := b!"go", host := h, path := p } = h ∧
      Url.toStr { scheme := b!"go", host := h, path := p } = b!"go://" ++ pkg := by
  have hf := fun c hc => import_facts c (hp c hc)
  have hall : ∀ c ∈ b!"go://" ++ pkg, UriByte c := by
    intro c hc
    rcases List.mem_append.1 hc with hc | hc
    · have : ∀ c ∈ b!"go://", UriByte c := by decide
      exact this c hc
    · exact (hf c hc).1
  have hg : Url.getscheme (b!"go://" ++ pkg) = some (b!"go", 47 :: 47 :: pkg) := rfl
  have h63 : (63 : UInt8) ∉ 47 :: 47 :: pkg := by
    simp only [List.mem_cons, not_or]
    exact ⟨by decide, by decide, fun h => (hf _ h).2.1 rfl⟩
  have hsq : splitQuery (47 :: 47 :: pkg) = (47 :: 47 :: pkg, false, []) := by
    unfold splitQuery; rw [cut_none h63]
  obtain ⟨h, p, e, hn, hp2, ecut⟩ : ∃ a p, pkg = a ++ p ∧ (47 : UInt8) ∉ a ∧ (p = [] ∨ ∃ t, p = 47 :: t) ∧
      Str.cut 47 pkg = (a, tailOf p) := by
    rcases cut_cases 47 pkg with ⟨hn, e⟩ | ⟨a, t, hn, e1, e⟩
    · exact ⟨pkg, [], by simp, hn, Or.inl rfl, e⟩
    · exact ⟨a, 47 :: t, e1, hn, Or.inr ⟨t, rfl⟩, e⟩
  have hslash : slashOpt (tailOf p) = p := by rcases hp2 with rfl | ⟨t, rfl⟩ <;> rfl
  have hh : ∀ c ∈ h, ImportByte c := fun c hc => hp c (by rw [e]; simp [hc])
  have hpp : ∀ c ∈ p, ImportByte c := fun c hc => hp c (by rw [e]; simp [hc])
  have hcol : fromLastColon h = none := by
    have : (58 : UInt8) ∉ h := fun hm => (import_facts _ (hh _ hm)).2.2.1 rfl
    clear e hn ecut hh
    induction h with
    | nil => rfl
    | cons x t ih =>
      simp only [List.mem_cons, not_or] at this
      simp only [fromLastColon, ih this.2]
      rw [if_neg (fun e => this.1 e.symm)]
  have hhead : h.head? ≠ some 91 := by
    intro e
    exact (import_facts _ (hh 91 (List.mem_of_mem_head? e))).2.2.2.2.1 rfl
  have hesch : ∀ c ∈ h, shouldEscape .host c = false := fun c hc =>
    have hc' := import_facts _ (hh c hc)
    (uri_facts c hc'.1).2.2.2.2.2.2 hc'.2.1 (fun e => hn (e ▸ hc)) hc'.2.2.2.1 hc'.2.2.2.2.2.2.2
  have hph : parseHost h = some h := by
    unfold parseHost
    rw [if_neg hhead, hcol]
    exact unescape_id (fun hm => (import_facts _ (hh _ hm)).2.2.2.2.2.2.2 rfl) (fun _ => hesch)
  have hpa : parseAuthority h = some (none, h) := by
    unfold parseAuthority
    rw [cutLast_none.2 fun hm => (import_facts _ (hh _ hm)).2.2.2.1 rfl]
    simp only [hph]
  have hescp : escape .path p = p := escape_id fun c hc => (import_facts _ (hpp c hc)).2.2.2.2.2.2.1
  refine ⟨h, p, e, ?_, ?_, ?_⟩
  · rw [parse_scheme hall (by simp) hg hsq]
    unfold parseRest
    rw [if_neg (by simp [Str.hasPrefix, List.isPrefixOf]), if_neg (by simp [Str.hasPrefix, List.isPrefixOf]),
      if_pos ⟨Or.inl (by decide), by simp [Str.hasPrefix, List.isPrefixOf]⟩]
    simp only [List.drop_succ_cons, List.drop_zero, ecut, hpa, hslash]
    rw [setPath_plain (fun hm => (import_facts _ (hpp _ hm)).2.2.2.2.2.2.2 rfl), hescp, if_pos rfl]
    rfl
  · unfold Url.hostname
    simp only [hcol]
    rw [if_neg (fun hc => hhead hc.1)]
  · have hne' : h ≠ [] ∨ p ≠ [] := by
      rcases h with _ | _
      · right; rintro rfl; exact hne (by simpa using e)
      · left; simp
    unfold Url.toStr authPath escapedPath
    simp only [hescp, escape_id hesch]
    have hstar : p ≠ b!"*" := by
      rintro rfl
      exact (import_facts _ (hpp 42 (by simp))).2.2.2.2.2.1 rfl
    rw [e]
    have hsl : ¬ (p ≠ [] ∧ p.head? ≠ some 47 ∧ h ≠ []) := by
      rintro ⟨h1, h2, _⟩
      rcases hp2 with rfl | ⟨t, rfl⟩
      · exact h1 rfl
      · exact h2 rfl
    have hsl' : ¬ (¬ p = [] ∧ ¬ p.head? = some 47 ∧ ¬ h = []) := hsl
    simp [hne', hstar, hescp, userPart]
    intro a b
    by_cases c : h = []
    · exact c
    · exact absurd ⟨a, b, c⟩ hsl'

theorem uri_hash {raw : Str} (h : ∀ c ∈ raw, UriByte c) : (35 : UInt8) ∉ raw := fun hm => (uri_facts _ (h _ hm)).2.1 rfl

/-- Fragments without percent signs are read literally. -/
theorem Parse_frag' {raw f : Str} (hraw : (35 : UInt8) ∉ raw) {u : URL} (h : Url.parse raw = some u) (hu : u.fragment = []) (hf : (37 : UInt8) ∉ f) :
    ∃ rf, Url.Parse (raw ++ 35 :: f) = some { u with fragment := f, rawFragment := rf } := by
  unfold Url.Parse
  rw [cut_some hraw]
  simp only [h]
  cases f with
  | nil =>
    refine ⟨u.rawFragment, ?_⟩
    simp only [Option.some.injEq]
    cases u; simp at hu; subst hu; rfl
  | cons c t =>
    simp only [setFragment]
    rw [unescape_id hf (by intro e; rcases e with e | e <;> cases e)]
    exact ⟨_, rfl⟩

theorem Parse_frag {raw f : Str} (hraw : ∀ c ∈ raw, UriByte c) {u : URL} (h : Url.parse raw = some u) (hu : u.fragment = []) (hf : (37 : UInt8) ∉ f) :
    ∃ rf, Url.Parse (raw ++ 35 :: f) = some { u with fragment := f, rawFragment := rf } := Parse_frag' (uri_hash hraw) h hu hf

theorem parse_of {x : Str} (h1 : x ≠ []) (h2 : x ≠ b!"#") {u : URL} (h : Url.Parse x = some u) {f : Fragment}
    (hf : Fragment.new u.fragment = .ok f) : parse x = .ok ⟨u, f⟩ := by
  unfold parse
  rw [if_neg (by simp [h1, h2]), h]
  simp only [hf]

theorem parse_inv {x : Str} {p : Pointer} (h : parse x = .ok p) :
    ((x = [] ∨ x = b!"#") ∧ p = {}) ∨ (x ≠ [] ∧ x ≠ b!"#" ∧ Url.Parse x = some p.url ∧ Fragment.new p.url.fragment = .ok p.fragment) := by
  unfold parse at h
  split at h
  · rename_i hx; cases h; exact Or.inl ⟨hx, rfl⟩
  · rename_i hx
    rw [not_or] at hx
    split at h
    · cases h
    · rename_i u hu
      split at h
      · rename_i f hf; cases h; exact Or.inr ⟨hx.1, hx.2, hu, hf⟩
      · cases h
      · cases h

/-- The pointer of an import path and a fragment. -/
theorem parse_go {pkg : Str} (hne : pkg ≠ []) (hp : ∀ c ∈ pkg, ImportByte c) {f : Fragment} (hf : (37 : UInt8) ∉ f.toStr) :
    ∃ p, parse (b!"go://" ++ pkg ++ 35 :: f.toStr) = .ok p ∧ p.url.scheme = b!"go" ∧ p.pkgPath = pkg ∧ p.fragment = f ∧
      ∀ g : Fragment, ({ p with fragment := g } : Pointer).toStr = b!"go://" ++ pkg ++ 35 :: g.toStr := by
  obtain ⟨h, q, e, hparse, hhost, hstr⟩ := url_go hne hp
  have hall : ∀ c ∈ b!"go://" ++ pkg, UriByte c := by
    intro c hc
    rcases List.mem_append.1 hc with hc | hc
    · have : ∀ c ∈ b!"go://", UriByte c := by decide
      exact this c hc
    · exact (import_facts _ (hp c hc)).1
  obtain ⟨rf, hP⟩ := Parse_frag hall hparse rfl hf
  refine ⟨_, parse_of (by simp) (by simp) hP (f := f) (Fragment.new_toStr f), rfl, ?_, rfl, ?_⟩
  · unfold pkgPath
    rw [e]
    show Url.hostname _ ++ q = _
    congr 1
  · intro g
    unfold toStr
    have : Url.toStr { scheme := b!"go", host := h, path := q, rawFragment := rf } = b!"go://" ++ pkg := by
      rw [← hstr]; rfl
    show Url.toStr _ ++ _ = _
    rw [← this]

theorem unesc_append_sep (a s : Str) : Fragment.unesc (a ++ 47 :: s) = Fragment.unesc a ++ 47 :: Fragment.unesc s := by
  fun_induction Fragment.unesc a with
  | case1 => simp [Fragment.unesc_cons_ne, Fragment.unesc]
  | case2 c =>
    rw [List.cons_append, List.nil_append]
    simp [Fragment.unesc, Fragment.unesc_cons_ne]
  | case3 c d t h ih => rw [List.cons_append, List.cons_append, Fragment.unesc, if_pos h, ih]; rfl
  | case4 c d t h h2 ih => rw [List.cons_append, List.cons_append, Fragment.unesc, if_neg h, if_pos h2, ih]; rfl
  | case5 c d t h h2 ih =>
    rw [List.cons_append, List.cons_append, Fragment.unesc, if_neg h, if_neg h2]
    rw [List.cons_append] at ih
    rw [ih]; rfl

theorem unesc_join (xs : List Str) : Fragment.unesc (Str.join 47 xs) = Str.join 47 (xs.map Fragment.unesc) := by
  induction xs with
  | nil => rfl
  | cons x r ih =>
    cases r with
    | nil => rfl
    | cons y r => rw [Str.join, unesc_append_sep, ih]; rfl

def slashJoin : Fragment → Str
  | [] => []
  | f => 47 :: Str.join 47 f

/-- The length of a parsed fragment's text after unescaping depends on the tokens only. -/
theorem unesc_new {g : Str} {f : Fragment} (h : Fragment.new g = .ok f) : Fragment.unesc g = slashJoin f := by
  cases g with
  | nil => simp [Fragment.new, Fragment.parseFragment] at h; subst h; rfl
  | cons c s =>
    simp only [Fragment.new, Fragment.parseFragment, Fragment.sepByte] at h
    by_cases hc : c = 47
    · subst hc
      simp at h
      rw [Fragment.unesc_cons_ne _ _ (by decide)]
      have hj := Str.join_split 47 s
      rw [← hj, unesc_join]
      have : (Str.split 47 s).map Fragment.unesc = f := by
        rw [← h]; apply List.map_congr_left; intro a _; exact (Fragment.unescapeToken_eq a).symm
      rw [this]
      cases f with
      | nil =>
        have := Str.split_ne_nil 47 s
        simp at h; exact absurd h this
      | cons a b => rfl
    · simp [hc] at h

theorem unesc_cons_le (x : UInt8) (g : Str) : (Fragment.unesc (x :: g)).length ≤ 1 + (Fragment.unesc g).length := by
  cases g with
  | nil => simp [Fragment.unesc]
  | cons d t =>
    rw [Fragment.unesc]
    split
    · rename_i h
      rw [Fragment.unesc_cons_ne d t (by rw [h.2]; decide)]; simp
    · split
      · rename_i _ h
        rw [Fragment.unesc_cons_ne d t (by rw [h.2]; decide)]; simp
      · simp; omega

theorem unescape_shorter {m : Mode} {s t : Str} (h : unescape m s = some t) (hs : Fragment.tildeOk s = true) :
    (Fragment.unesc t).length ≤ (Fragment.unesc s).length ∧
    ((37 : UInt8) ∈ s → (Fragment.unesc t).length < (Fragment.unesc s).length) := by
  induction hn : s.length using Nat.strongRecOn generalizing s t with
  | ind n ih =>
    cases s with
    | nil => unfold unescape at h; cases h; simp
    | cons c s =>
      unfold unescape at h
      split at h
      · rename_i hc
        split at h
        · rename_i a b t'
          split at h
          · rename_i x y hx hy
            split at h
            · cases h
            · split at h
              · cases h
              cases hu : unescape m t' with
              | none => rw [hu] at h; cases h
              | some u =>
                rw [hu] at h; cases h
                have ha : a ≠ 126 := by rintro rfl; simp [hexVal] at hx
                have hb : b ≠ 126 := by rintro rfl; simp [hexVal] at hy
                have hc' : c ≠ 126 := by rw [hc]; decide
                rw [Fragment.tildeOk_cons_ne _ _ hc', Fragment.tildeOk_cons_ne _ _ ha, Fragment.tildeOk_cons_ne _ _ hb] at hs
                have := ih t'.length (by subst hn; simp; omega) hu hs rfl
                have h1 := unesc_cons_le (UInt8.ofNat (x * 16 + y)) u
                rw [Fragment.unesc_cons_ne _ _ hc', Fragment.unesc_cons_ne _ _ ha, Fragment.unesc_cons_ne _ _ hb]
                simp only [List.length_cons]
                omega
          · cases h
        · cases h
      · rename_i hc
        split at h
        · cases h
        · cases hu : unescape m s with
          | none => rw [hu] at h; cases h
          | some u =>
            rw [hu] at h; cases h
            by_cases ht : c = 126
            · subst ht
              cases s with
              | nil => simp [Fragment.tildeOk] at hs
              | cons d s =>
                have hd : d = 48 ∨ d = 49 := by
                  simp [Fragment.tildeOk] at hs; exact hs.1
                have hd37 : d ≠ 37 := by rcases hd with rfl | rfl <;> decide
                have hd126 : d ≠ 126 := by rcases hd with rfl | rfl <;> decide
                have hs' : Fragment.tildeOk s = true := by
                  simp [Fragment.tildeOk] at hs
                  rw [← Fragment.tildeOk_cons_ne d s hd126]; exact hs.2
                unfold unescape at hu
                rw [if_neg hd37] at hu
                split at hu
                · cases hu
                · cases hu2 : unescape m s with
                  | none => rw [hu2] at hu; cases hu
                  | some v =>
                    rw [hu2] at hu; cases hu
                    have := ih s.length (by subst hn; simp; omega) hu2 hs' rfl
                    have e : ∀ w : Str, (Fragment.unesc (126 :: d :: w)).length = 1 + (Fragment.unesc w).length := by
                      intro w
                      rcases hd with rfl | rfl <;> simp [Fragment.unesc] <;> omega
                    rw [e, e]
                    refine ⟨by omega, fun hm => ?_⟩
                    have hm' : (37 : UInt8) ∈ s := by
                      simp only [List.mem_cons] at hm
                      rcases hm with hm | hm | hm
                      · exact absurd hm (by decide)
                      · exact absurd hm.symm hd37
                      · exact hm
                    have := this.2 hm'
                    omega
            · rw [Fragment.tildeOk_cons_ne _ _ ht] at hs
              have := ih s.length (by subst hn; simp) hu hs rfl
              rw [Fragment.unesc_cons_ne _ _ ht, Fragment.unesc_cons_ne _ _ ht]
              simp only [List.length_cons, List.mem_cons]
              refine ⟨by omega, ?_⟩
              rintro (e | e)
              · exact absurd e.symm hc
              · have := this.2 e; omega

/-- Percent signs are decoded, so a fragment with one is never read back. -/
theorem parse_percent {raw : Str} (hraw : (35 : UInt8) ∉ raw) {f : Fragment} (hf : (37 : UInt8) ∈ f.toStr) {p : Pointer}
    (h : parse (raw ++ 35 :: f.toStr) = .ok p) : p.fragment ≠ f := by
  rcases parse_inv h with ⟨hx, _⟩ | ⟨_, _, hP, hfr⟩
  · intro _
    rcases hx with hx | hx
    · simp at hx
    · cases raw with
      | nil => simp at hx; rw [hx] at hf; simp at hf
      | cons a b => simp at hx
  · intro e
    unfold Url.Parse at hP
    rw [cut_some hraw] at hP
    simp only at hP
    split at hP
    · cases hP
    · rename_i u hu
      cases hs : f.toStr with
      | nil => rw [hs] at hf; simp at hf
      | cons c t =>
        rw [hs] at hP
        simp only [setFragment] at hP
        split at hP
        · cases hP
        · rename_i g hg
          simp only [Option.some.injEq] at hP
          have hpf : p.url.fragment = g := by rw [← hP]
          rw [hpf] at hfr
          have hok : Fragment.tildeOk f.toStr = true := (Fragment.toStr_new_iff _ f (Fragment.new_toStr f)).1 rfl
          have hlt := (unescape_shorter hg (hs ▸ hok)).2 (hs ▸ hf)
          rw [e] at hfr
          have h1 := unesc_new hfr
          have h2 := unesc_new (Fragment.new_toStr f)
          rw [hs] at h2
          rw [h1, h2] at hlt
          omega

end Pointer
end Oapi
