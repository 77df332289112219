import Verif.Proofs.Det12

/-! Which exported components a resolved document has. -/
namespace Oapi.Resolver
open Spec Container

theorem getAt_addComponents_of {cfg : Cfg} {l : List (Export × Json)} (hl : Entries cfg l) {L : Loc}
    (ha : ∀ t ∈ l, Apart L (compLoc t.1)) : ∀ {con : Json}, Store cfg con → getAt (addComponents l con) L = getAt con L := by
  induction l with
  | nil => intro con _; rfl
  | cons t l ih =>
    intro con h
    have ht := hl t (by simp)
    rw [addComponents_cons, ih hl.tail (fun t ht => ha t (by simp [ht])) (h.put ht.1 ht.2), getAt_putKeys_apart (ha _ (by simp)) (h.2 _ ht.1)]

theorem compLoc_apart {e e' : Export} (h : compLoc e' ≠ compLoc e) : Apart (compLoc e) (compLoc e') := by
  constructor
  · intro hp; exact h (hp.eq_of_length rfl).symm
  · intro hp; exact h (hp.eq_of_length rfl)

/-- An exported component is in the result exactly if some pointer that is met is exported under its name. -/
theorem component_iff {cfg : Cfg} {c r : Json} {n : Nat} (hs : Setting cfg c) (hcyc : CyclesExported cfg c)
    (hres : ∀ p, Reach cfg c p → ∃ d, cfg.res p = .ok d) (h : resolve cfg n c = .ok r) {e : Export} (he : e ∈ cfg.exp) :
    (∃ v, getAt r (compLoc e) = some v) ↔ ∃ p e', Reach cfg c p ∧ get cfg.exp p = some e' ∧ compLoc e' = compLoc e := by
  constructor
  · rintro ⟨v, hv⟩
    obtain ⟨D, T, h1, h2, h3, rfl, h5, h6⟩ := resolve_spec hs.good hs.tidy hs.receives hs.bare hs.bares hcyc h
    by_cases hT : ∀ t ∈ T, compLoc t.1 ≠ compLoc e
    · rw [getAt_addComponents_of h6 (fun t ht => compLoc_apart (hT t ht)) h5] at hv
      cases h1 with
      | mk σ d w hother =>
        rw [getAt_subst _ (fun p hp _ => hother p ((hs.receives e he).2 p hp).2), (hs.receives e he).1] at hv
        cases hv
    · rw [Classical.not_forall] at hT
      obtain ⟨t, hT⟩ := hT
      rw [Classical.not_imp, Classical.not_not] at hT
      obtain ⟨p, d, k1, k2, _⟩ := (h3 t.1 t.2).1 hT.1
      exact ⟨p, _, k1, k2, hT.2⟩
  · rintro ⟨p, e', h1, h2, h3⟩
    obtain ⟨d, hd⟩ := hres p h1
    obtain ⟨v, _, hv⟩ := component_is hs hcyc h h1 h2 hd
    exact ⟨v, h3 ▸ hv⟩

end Oapi.Resolver
