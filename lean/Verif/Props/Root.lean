import Verif.Proofs.Root
import Verif.Proofs.Check

/-! Properties C21 and C22: merging with the root document. -/
namespace Oapi.Props
open Oapi Spec OAPI

/-- C21: if each section is an object, a list, null or missing on both sides, `MergeWithRoot` either succeeds or reports a
colliding component.  On success every section follows its rule (a section missing on both sides is left alone), and
every other top-level key is unchanged. -/
theorem C21_sections_follow_rules {c r : Obj} (hc : Json.WF (.obj c)) (hr : Json.WF (.obj r))
    (hz : ∀ k R, (k, R) ∈ ruleOf → Composite (section_ (.obj c) k) ∧ Composite (section_ (.obj r) k)) :
    (∃ out, mergeWithRoot (.obj r) (.obj c) = .ok out ∧ Json.WF out ∧
      (∀ k, (∀ R, (k, R) ∉ ruleOf) → section_ out k = section_ (.obj c) k) ∧
      ∀ k R, (k, R) ∈ ruleOf →
        (Missing (section_ (.obj c) k) ∧ Missing (section_ (.obj r) k) → section_ out k = section_ (.obj c) k) ∧
        (¬ (Missing (section_ (.obj c) k) ∧ Missing (section_ (.obj r) k)) →
          ∃ s, section_ out k = some (.obj s) ∧
            R.holds (members (section_ (.obj c) k)) (members (section_ (.obj r) k)) (.obj s))) ∨
    (mergeWithRoot (.obj r) (.obj c) = .err .collision ∧
      Collide (members (section_ (.obj c) b!"components")) (members (section_ (.obj r) b!"components"))) := by
  have hcz : ∀ e ∈ table, Composite (Obj.lookup e.key c) ∧ Composite (Obj.lookup e.key r) :=
    fun e he => hz e.key e.R (mem_ruleOf.2 ⟨e, he, rfl, rfl⟩)
  rcases mergeSections_spec table_ok hc hr (fun e he => (hcz e he).1) (fun e he => (hcz e he).2) with
    ⟨c', h1, h2, h3, h4⟩ | ⟨h1, e, he, h2⟩
  · left
    refine ⟨.obj c', h1, h2, ?_, ?_⟩
    · intro k hk
      exact h3 k (fun e he h => hk e.R (mem_ruleOf.2 ⟨e, he, h.symm, rfl⟩))
    · intro k R hkR
      obtain ⟨e, he, rfl, rfl⟩ := mem_ruleOf.1 hkR
      rcases h4 e he with ⟨a, b, d⟩ | ⟨a, s, b, d⟩
      · exact ⟨fun _ => d, fun h => absurd ⟨a, b⟩ h⟩
      · exact ⟨fun h => absurd h a, fun _ => ⟨s, b, d⟩⟩
  · right
    refine ⟨h1, ?_⟩
    simp only [table, List.mem_cons, List.not_mem_nil, or_false] at he
    rcases he with rfl | rfl | rfl | rfl | rfl | rfl | rfl <;> first | exact h2.elim | exact h2

/-- C21: it fails exactly when a component collides. -/
theorem C21_fails_iff_component_collides {c r : Obj} (hc : Json.WF (.obj c)) (hr : Json.WF (.obj r))
    (hz : ∀ k R, (k, R) ∈ ruleOf → Composite (section_ (.obj c) k) ∧ Composite (section_ (.obj r) k)) :
    mergeWithRoot (.obj r) (.obj c) = .err .collision ↔
      Collide (members (section_ (.obj c) b!"components")) (members (section_ (.obj r) b!"components")) := by
  rcases C21_sections_follow_rules hc hr hz with ⟨out, h1, _, _, h3⟩ | ⟨h1, h2⟩
  · have := h3 b!"components" .disjoint (by simp [ruleOf])
    rw [h1]
    refine ⟨fun h => by simp at h, fun h => ?_⟩
    by_cases hm : Missing (section_ (.obj c) b!"components") ∧ Missing (section_ (.obj r) b!"components")
    · exfalso
      rcases hm with ⟨h4 | h4, h5 | h5⟩ <;>
        · rw [h4, h5] at h; exact Container.not_collide_empty [] h
    · obtain ⟨s, _, h5, _⟩ := this.2 hm
      exact absurd h h5
  · exact ⟨fun _ => h2, fun _ => h1⟩

/-- C21: a section of the scanned document that is a string, a number or a boolean makes `MergeWithRoot` panic (unless a
colliding component stops it before). -/
theorem C21_scalar_section_crashes {c r : Obj} (hc : Json.WF (.obj c)) (hr : Json.WF (.obj r))
    (hz : ∀ k R, (k, R) ∈ ruleOf → Composite (section_ (.obj r) k))
    {k : Str} {R : Rule} (hk : (k, R) ∈ ruleOf) {v : Json} (hs : section_ (.obj c) k = some v) (hv : scalar v = true)
    (hv' : v ≠ .null) :
    mergeWithRoot (.obj r) (.obj c) = .panic ∨ mergeWithRoot (.obj r) (.obj c) = .err .collision := by
  obtain ⟨e, he, rfl, rfl⟩ := mem_ruleOf.1 hk
  refine mergeSections_scalar table_ok hc hr (fun e he => hz e.key e.R (mem_ruleOf.2 ⟨e, he, rfl, rfl⟩)) ⟨e, he, ?_⟩
  rw [show Obj.lookup e.key c = some v from hs]
  rintro (h | ⟨x, h, h'⟩)
  · simp at h
  · cases h
    rcases h' with h' | h'
    · exact hv' h'
    · rw [hv] at h'; simp at h'

private theorem fills_empty {a b : Json} {s : Obj} (ha : a = .obj []) (hb : b = .obj []) (h : Fills a b (.obj s)) (hs : Json.WF (.obj s)) :
    s = [] := by
  have : Json.obj s = .obj [] := by
    apply Container.nodeAt_ext _ _ hs (by simp [Obj.Sorted])
    intro p
    subst ha; subst hb
    cases p with
    | nil => rfl
    | cons k p =>
      have := (h (k :: p)).2.2 (by simp [Container.nodeAt_obj_cons]) (by rw [Container.shadowed_cons]; simp)
      exact this
  simpa using this

/-- C22: if `servers`, `security` or `tags` is a list on one side and a list, null or missing on the other, then after
`MergeWithRoot` the section is the empty object. -/
theorem C22_lists_are_discarded {c r : Obj} (hc : Json.WF (.obj c)) (hr : Json.WF (.obj r))
    (hz : ∀ k R, (k, R) ∈ ruleOf → Composite (section_ (.obj c) k) ∧ Composite (section_ (.obj r) k))
    {k : Str} (hk : k = b!"servers" ∨ k = b!"security" ∨ k = b!"tags")
    (hl : (∃ xs, section_ (.obj c) k = some (.arr xs)) ∨ (∃ xs, section_ (.obj r) k = some (.arr xs)))
    (h1 : ∀ m, section_ (.obj c) k ≠ some (.obj m)) (h2 : ∀ m, section_ (.obj r) k ≠ some (.obj m))
    {out : Json} (h : mergeWithRoot (.obj r) (.obj c) = .ok out) : section_ out k = some (.obj []) := by
  have hkr : (k, Rule.docWins) ∈ ruleOf := by rcases hk with rfl | rfl | rfl <;> simp [ruleOf]
  rcases C21_sections_follow_rules hc hr hz with ⟨out', g1, gw, _, g3⟩ | ⟨g1, _⟩
  · rw [g1] at h; simp at h; subst h
    have hnm : ¬ (Missing (section_ (.obj c) k) ∧ Missing (section_ (.obj r) k)) := by
      rintro ⟨a, b⟩
      rcases hl with ⟨xs, hx⟩ | ⟨xs, hx⟩
      · rcases a with a | a <;> rw [a] at hx <;> simp at hx
      · rcases b with a | a <;> rw [a] at hx <;> simp at hx
    obtain ⟨s, hs, hR⟩ := (g3 k .docWins hkr).2 hnm
    have hm : ∀ {v : Option Json}, (∀ m, v ≠ some (.obj m)) → members v = .obj [] := by
      intro v hv
      cases v with
      | none => rfl
      | some x => cases x <;> first | rfl | exact absurd rfl (hv _)
    have hsw : Json.WF (.obj s) := by
      cases out' with
      | obj m => exact Json.WF_lookup gw hs
      | _ => simp [section_, child] at hs
    rw [hs, fills_empty (hm h1) (hm h2) hR hsw]
  · rw [g1] at h; simp at h

/-! ### concrete cases -/

private def exC : Obj := [(b!"components", .obj [(b!"schemas", .obj [(b!"A", .num 1)])]), (b!"info", .obj [(b!"title", .str b!"doc"), (b!"x", .num 1)]),
  (b!"openapi", .str b!"3.0.0"), (b!"servers", .arr [.obj [(b!"url", .str b!"u")]])]
private def exR : Obj := [(b!"components", .obj [(b!"schemas", .obj [(b!"B", .num 2)])]), (b!"info", .obj [(b!"title", .str b!"root")])]

private theorem ex_hyp : ∀ k R, (k, R) ∈ ruleOf → Composite (section_ (.obj exC) k) ∧ Composite (section_ (.obj exR) k) := by
  intro k R h
  obtain ⟨e, he, rfl, rfl⟩ := mem_ruleOf.1 h
  simp only [table, List.mem_cons, List.not_mem_nil, or_false] at he
  rcases he with rfl | rfl | rfl | rfl | rfl | rfl | rfl <;>
    exact ⟨by first | exact Or.inl rfl | exact Or.inr ⟨_, rfl, Or.inr rfl⟩, by first | exact Or.inl rfl | exact Or.inr ⟨_, rfl, Or.inr rfl⟩⟩

example : Json.WF (.obj exC) ∧ Json.WF (.obj exR) ∧
    (∀ k R, (k, R) ∈ ruleOf → Composite (section_ (.obj exC) k) ∧ Composite (section_ (.obj exR) k)) :=
  ⟨wfB_sound _ (by decide), wfB_sound _ (by decide), ex_hyp⟩

example : mergeWithRoot (.obj exR) (.obj exC) = .ok (.obj [
    (b!"components", .obj [(b!"schemas", .obj [(b!"A", .num 1), (b!"B", .num 2)])]),
    (b!"info", .obj [(b!"title", .str b!"root"), (b!"x", .num 1)]),
    (b!"openapi", .str b!"3.0.0"), (b!"servers", .obj [])]) := by decide
example : mergeWithRoot (.obj exR) (.obj [(b!"info", .str b!"text")]) = .panic := by decide
example : mergeWithRoot (.obj exC) (.obj exC) = .err .collision := by decide

end Oapi.Props
