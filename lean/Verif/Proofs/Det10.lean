import Verif.Proofs.Det9

/-! A resolvable scan. -/
namespace Oapi.Scan
open Spec Types

variable {F : Type} {inp : Input F} {o : Orders}

theorem lookup_mem' {α : Type} {k : Str} : ∀ {l : List (Str × α)} {v : α}, l.lookup k = some v → (k, v) ∈ l
  | [], _, h => by cases h
  | (k', v') :: l, v, h => by
    rw [List.lookup_cons] at h
    split at h
    · rename_i e; cases h; simp at e; subst e; simp
    · exact List.mem_cons_of_mem _ (lookup_mem' h)

theorem registered_find {pr : Prog} {m : PMap} (h : Inv pr m) {p : Pointer} : Registered m p ↔ ∃ u, m.findType p = some u := by
  constructor
  · rintro ⟨u, qs, q, h1, h2, h3⟩
    refine ⟨u, (h.find p u).2 ⟨q, ?_, h3⟩⟩
    rw [at_of_mem h.nodup h1]; exact h2
  · rintro ⟨u, hu⟩
    obtain ⟨q, h1, h2⟩ := (h.find p u).1 hu
    exact ⟨u, _, q, mem_of_at h1, h1, h2⟩

/-- The pointers that are known: overridden, or of a registered Go type. -/
theorem known_cases {pr : Prog} {m : PMap} (h : Inv pr m) {p : Pointer} (hp : ¬ Unknown inp m p) :
    (∃ d, (p.toStr, d) ∈ inp.override ∧ inp.override.lookup p.toStr = some d) ∨
    ((∀ d, (p.toStr, d) ∉ inp.override) ∧ p.url.scheme = b!"go" ∧ ∃ u, m.findType p = some u) := by
  cases hl : inp.override.lookup p.toStr with
  | some d => exact .inl ⟨d, lookup_mem' hl, rfl⟩
  | none =>
    have hno : ∀ d, (p.toStr, d) ∉ inp.override := by
      intro d hd
      have : ∀ {l : List (Str × Json)}, l.lookup p.toStr = none → (p.toStr, d) ∉ l := by
        intro l
        induction l with
        | nil => intro _ h; cases h
        | cons e l ih =>
          intro hn hm
          obtain ⟨k, v⟩ := e
          rw [List.lookup_cons] at hn
          split at hn
          · cases hn
          · rename_i hk
            rw [List.mem_cons] at hm
            rcases hm with hm | hm
            · cases hm; simp at hk
            · exact ih hn hm
      exact this hl hd
    by_cases hg : p.url.scheme = b!"go" ∧ Registered m p
    · exact .inr ⟨hno, hg.1, (registered_find h).1 hg.2⟩
    · exact absurd ⟨hno, fun h1 h2 => hg ⟨h1, h2⟩⟩ hp

variable {pre : Prepared}

/-- What a known pointer resolves to. -/
theorem known_res (hi : InputOK inp) (ho : OrdersOK inp o) (hs : SchemasOK inp) (hp : prepare inp o = .ok pre) (hr : Resolvable inp o pre)
    {p : Pointer} (hR : Reach (cfg inp o pre) pre.doc p) (hk : ¬ Unknown inp pre.points p) :
    ∃ d, resolveFn inp o pre.points p = .ok d ∧ Source inp pre.points d := by
  obtain ⟨runs', hsc⟩ := prepare_scanned hi ho hp
  have hinv := scan_inv hi.prog hsc
  rcases known_cases hinv hk with ⟨d, h1, h2⟩ | ⟨h1, h2, u, h3⟩
  · exact ⟨d, by unfold resolveFn; rw [h2], hr.overrides _ h1⟩
  · obtain ⟨d, k1, k2, k3, k4⟩ := resolves_fit hi ho hs hp h3 (hr.types p u hR h1 h3) h1 h2
    have key : ∀ {L x}, getAt d (L ++ [.key refKey]) = some (.str x) → getAt d L = some (refObj x) ∧
        ∃ q, Pointer.parse x = .ok q ∧ q.url.scheme = b!"go" ∧ Registered pre.points q := by
      intro L x hx
      obtain ⟨e, q, ⟨v, hv⟩, rfl⟩ := k4.refs hx
      refine ⟨e, ?_⟩
      obtain ⟨pkg, f, t, hg, _⟩ := hinv.pts v q hv
      obtain ⟨q', a1, a2, a3⟩ := hg.parses hi.prog
      exact ⟨q', a1, a2, v, _, q, mem_of_at hv, hv, a3.symm⟩
    refine ⟨d, k1, ⟨k2, k4.wf, routed_of_safe _ k4.safe, fun L x q hx => (key hx.1).1⟩, k3, ?_, ?_⟩
    · rintro x ⟨L, hL⟩
      obtain ⟨_, q, hq, _⟩ := key hL
      exact ⟨q, hq⟩
    · intro L x q hx hu
      obtain ⟨_, q', a1, a2, a3⟩ := key hx.1
      have : q' = q := by have := hx.2.1; rw [a1] at this; cases this; rfl
      subst this
      exact hu.2 a2 a3

theorem reach_known (hi : InputOK inp) (ho : OrdersOK inp o) (hs : SchemasOK inp) (hp : prepare inp o = .ok pre) (hr : Resolvable inp o pre)
    {p : Pointer} (hR : Reach (cfg inp o pre) pre.doc p) : ¬ Unknown inp pre.points p := by
  induction hR with
  | doc h => exact hr.doc.known _ _ _ h
  | step hR hq ih =>
    obtain ⟨d, L, x, h1, h2⟩ := hq
    obtain ⟨d', k1, k2⟩ := known_res hi ho hs hp hr hR ih
    change resolveFn inp o pre.points _ = .ok d at h1
    rw [h1] at k1
    cases k1
    exact k2.known _ _ _ h2

theorem reach_res (hi : InputOK inp) (ho : OrdersOK inp o) (hs : SchemasOK inp) (hp : prepare inp o = .ok pre) (hr : Resolvable inp o pre)
    {p : Pointer} (hR : Reach (cfg inp o pre) pre.doc p) : ∃ d, (cfg inp o pre).res p = .ok d ∧ Source inp pre.points d :=
  known_res hi ho hs hp hr hR (reach_known hi ho hs hp hr hR)

theorem scan_setting (hi : InputOK inp) (ho : OrdersOK inp o) (hs : SchemasOK inp) (hp : prepare inp o = .ok pre) (hr : Resolvable inp o pre) :
    Setting (cfg inp o pre) pre.doc := by
  obtain ⟨runs', hsc⟩ := prepare_scanned hi ho hp
  have hinv := scan_inv hi.prog hsc
  have hsrc : ∀ p d, Reach (cfg inp o pre) pre.doc p → (cfg inp o pre).res p = .ok d → Source inp pre.points d := by
    intro p d hR hd
    obtain ⟨d', h1, h2⟩ := reach_res hi ho hs hp hr hR
    rw [hd] at h1; cases h1; exact h2
  refine ⟨⟨hr.names, hr.apart, ?_, fun p d hR hd => (hsrc p d hR hd).tidy, ho.resolver⟩, hr.doc.tidy, hr.receives, hr.doc.bare,
    fun p d hR hd => (hsrc p d hR hd).bare⟩
  intro p q hR hQ e
  show resolveFn inp o pre.points p = resolveFn inp o pre.points q
  rcases known_cases hinv (reach_known hi ho hs hp hr hR) with ⟨d, h1, h2⟩ | ⟨h1, h2, _⟩
  · unfold resolveFn; rw [← e, h2]
  · rcases known_cases hinv (reach_known hi ho hs hp hr hQ) with ⟨d, k1, _⟩ | ⟨k1, k2, _⟩
    · rw [← e] at k1; exact absurd k1 (h1 d)
    · unfold resolveFn
      rw [Props.lookup_none h1, Props.lookup_none k1]
      simp only
      rw [if_pos h2, if_pos k2]
      have : Types.resolve (ctx inp o pre.points p.toStr) p = Types.resolve (ctx inp o pre.points q.toStr) q := by
        unfold Types.resolve PMap.findType
        rw [e]
      rw [this]

/-- The texts of pointers that a scan can meet. -/
def knownTexts (inp : Input F) (pre : Prepared) : List Str :=
  inp.override.map Prod.fst ++ pre.points.flatMap fun e => e.2.map Pointer.toStr

theorem scan_solvable (hi : InputOK inp) (ho : OrdersOK inp o) (hs : SchemasOK inp) (hp : prepare inp o = .ok pre) (hr : Resolvable inp o pre) :
    Solvable (cfg inp o pre) pre.doc (knownTexts inp pre) := by
  obtain ⟨runs', hsc⟩ := prepare_scanned hi ho hp
  have hinv := scan_inv hi.prog hsc
  refine ⟨?_, ?_, ?_⟩
  · intro p hR
    unfold knownTexts
    rw [List.mem_append]
    rcases known_cases hinv (reach_known hi ho hs hp hr hR) with ⟨d, h1, h2⟩ | ⟨h1, h2, u, h3⟩
    · exact .inl (List.mem_map.2 ⟨_, h1, rfl⟩)
    · obtain ⟨q, a1, a2⟩ := (hinv.find p u).1 h3
      exact .inr (List.mem_flatMap.2 ⟨_, mem_of_at a1, List.mem_map.2 ⟨q, a1, a2⟩⟩)
  · intro p hR
    obtain ⟨d, h1, _⟩ := reach_res hi ho hs hp hr hR
    exact ⟨d, h1⟩
  · intro x hx
    rcases hx with hx | ⟨p, d, hR, hd, hx⟩
    · exact hr.doc.parses x hx
    · obtain ⟨d', h1, h2⟩ := reach_res hi ho hs hp hr hR
      rw [hd] at h1; cases h1
      exact h2.parses x hx

end Oapi.Scan
