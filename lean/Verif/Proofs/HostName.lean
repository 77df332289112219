import Verif.Proofs.Url
import Verif.Model.SpecUtil

/-! Host names and ports as texts. -/
namespace Oapi.Url
open Oapi Spec

theorem digit_iff {c : UInt8} : isDigit c = true ↔ 48 ≤ c ∧ c ≤ 57 := by simp [isDigit]

theorem digits_no_colon {ds : Str} (h : ∀ c ∈ ds, 48 ≤ c ∧ c ≤ 57) : (58 : UInt8) ∉ ds := by
  intro hm
  have := (h _ hm).2
  revert this; decide

/-- The host without its port. -/
def core (h : Str) : Str :=
  match fromLastColon h with
  | some p => if validOptionalPort p then h.take (h.length - p.length) else h
  | none => h

theorem port_valid {b : Str} : validOptionalPort (58 :: b) = true ↔ ∀ c ∈ b, 48 ≤ c ∧ c ≤ 57 := by
  simp only [validOptionalPort, beq_self_eq_true, Bool.true_and, List.all_eq_true]
  exact ⟨fun h c hc => digit_iff.1 (h c hc), fun h c hc => digit_iff.2 (h c hc)⟩

theorem hasPort_lastColon {h c ds : Str} (hp : HasPort h c ds) : fromLastColon h = some (58 :: ds) :=
  lastColon_some c ds (digits_no_colon hp.2) (by rw [hp.1]; simp [show b!":" = [58] from rfl])

theorem core_hasPort {h c ds : Str} (hp : HasPort h c ds) : core h = c := by
  rw [core, hasPort_lastColon hp]
  simp only [port_valid.2 hp.2, if_true]
  rw [hp.1]
  simp [show b!":" = [58] from rfl]

theorem core_iff {h c : Str} : core h = c ↔ (∃ ds, HasPort h c ds) ∨ c = h ∧ ¬ ∃ c ds, HasPort h c ds := by
  constructor
  · intro e
    by_cases hp : ∃ c ds, HasPort h c ds
    · obtain ⟨c', ds, hp⟩ := hp
      rw [core_hasPort hp] at e
      subst e
      exact .inl ⟨ds, hp⟩
    · refine .inr ⟨?_, hp⟩
      rw [← e, core]
      cases hl : fromLastColon h with
      | none => rfl
      | some r =>
        obtain ⟨a, b, h1, h2, h3⟩ := lastColon_inv hl
        subst h3
        by_cases hv : validOptionalPort (58 :: b) = true
        · exact absurd ⟨a, b, by rw [h2]; simp [show b!":" = [58] from rfl], port_valid.1 hv⟩ hp
        · simp only [hv]; rfl
  · rintro (⟨ds, hp⟩ | ⟨rfl, hn⟩)
    · exact core_hasPort hp
    · rw [core]
      cases hl : fromLastColon c with
      | none => rfl
      | some r =>
        obtain ⟨a, b, h1, h2, h3⟩ := lastColon_inv hl
        subst h3
        by_cases hv : validOptionalPort (58 :: b) = true
        · exact absurd ⟨a, b, by rw [h2]; simp [show b!":" = [58] from rfl], port_valid.1 hv⟩ hn
        · simp only [hv]; rfl

theorem bracket_iff {c : Str} : (c.head? = some 91 ∧ c.getLast? = some 93) ↔ ∃ m, c = b!"[" ++ m ++ b!"]" := by
  constructor
  · rintro ⟨h1, h2⟩
    cases c with
    | nil => cases h1
    | cons x t =>
      injection h1 with h1
      subst h1
      rcases List.eq_nil_or_concat t with rfl | ⟨m, y, rfl⟩
      · exact absurd h2 (by decide)
      · rw [List.concat_eq_append] at h2 ⊢
        rw [← List.cons_append, List.getLast?_append] at h2
        simp at h2
        subst h2
        exact ⟨m, by simp [show b!"[" = [91] from rfl, show b!"]" = [93] from rfl]⟩
  · rintro ⟨m, rfl⟩
    exact ⟨by simp [show b!"[" = [91] from rfl], by rw [List.getLast?_append]; simp [show b!"]" = [93] from rfl]⟩

theorem hostname_eq (u : URL) : hostname u =
    if (core u.host).head? = some 91 ∧ (core u.host).getLast? = some 93 then ((core u.host).drop 1).dropLast else core u.host := rfl

/-- `URL.Hostname` gives the name of the host. -/
theorem hostname_iff {u : URL} {n : Str} : hostname u = n ↔ HostName u.host n := by
  rw [hostname_eq]
  unfold HostName
  constructor
  · intro e
    refine ⟨core u.host, core_iff.1 rfl, ?_⟩
    by_cases hb : (core u.host).head? = some 91 ∧ (core u.host).getLast? = some 93
    · rw [if_pos hb] at e
      obtain ⟨m, hm⟩ := bracket_iff.1 hb
      left
      rw [hm] at e
      simp [show b!"[" = [91] from rfl, show b!"]" = [93] from rfl] at e
      rw [← e]; exact hm
    · rw [if_neg hb] at e
      exact .inr ⟨e.symm, fun h => hb (bracket_iff.2 h)⟩
  · rintro ⟨c, hc, h⟩
    rw [core_iff.2 hc]
    rcases h with rfl | ⟨rfl, hn⟩
    · rw [if_pos (bracket_iff.2 ⟨n, rfl⟩)]
      simp [show b!"[" = [91] from rfl, show b!"]" = [93] from rfl]
    · rw [if_neg fun h => hn (bracket_iff.1 h)]

/-- `URL.Port` gives the digits after the last colon. -/
theorem port_iff {u : URL} {ds : Str} : (SpecUtil.port u ≠ [] ∧ SpecUtil.port u = ds) ↔ ds ≠ [] ∧ ∃ c, HasPort u.host c ds := by
  constructor
  · rintro ⟨h1, rfl⟩
    refine ⟨h1, ?_⟩
    unfold SpecUtil.port at h1 ⊢
    cases hl : fromLastColon u.host with
    | none => rw [hl] at h1; exact absurd rfl h1
    | some r =>
      rw [hl] at h1
      obtain ⟨a, b, h2, h3, rfl⟩ := lastColon_inv hl
      by_cases hv : validOptionalPort (58 :: b) = true
      · simp only [hv, if_true, List.drop_succ_cons, List.drop_zero]
        exact ⟨a, by rw [h3]; simp [show b!":" = [58] from rfl], port_valid.1 hv⟩
      · simp [hv] at h1
  · rintro ⟨h1, c, hp⟩
    unfold SpecUtil.port
    rw [hasPort_lastColon hp]
    simp only [port_valid.2 hp.2, if_true, List.drop_succ_cons, List.drop_zero]
    exact ⟨h1, trivial⟩

end Oapi.Url
