import Verif.Props.Pkgs
import Verif.Proofs.Scan1

/- The walk over the packages: which packages are scanned, in which order, does not depend on the scanner. -/
namespace Oapi.Scan
open Spec Pkgs

variable {σ τ : Type} {F : Type}

/-- Two states of walks with different scanners that have done the same. -/
def Sim (s : Pkgs.St σ) (t : Pkgs.St τ) : Prop := s.seen = t.seen ∧ s.calls.map Prod.fst = t.calls.map Prod.fst

/-- Two outcomes of walks with different scanners. -/
def SimRes (a : Res (Pkgs.St σ)) (b : Res (Pkgs.St τ)) : Prop :=
  (∃ s t, a = .ok s ∧ b = .ok t ∧ Sim s t) ∨ (∃ e, a = .err e ∧ b = .err e) ∨ (a = .panic ∧ b = .panic)

theorem visitAll_sim {v : Nat → Pkgs.St σ → Res (Pkgs.St σ)} {w : Nat → Pkgs.St τ → Res (Pkgs.St τ)}
    (h : ∀ p s t, Sim s t → SimRes (v p s) (w p t)) : ∀ l s t, Sim s t → SimRes (visitAll v l s) (visitAll w l t) := by
  intro l
  induction l with
  | nil => intro s t hs; exact .inl ⟨s, t, rfl, rfl, hs⟩
  | cons p l ih =>
    intro s t hs
    rw [visitAll, visitAll]
    rcases h p s t hs with ⟨s', t', h1, h2, h3⟩ | ⟨e, h1, h2⟩ | ⟨h1, h2⟩
    · rw [h1, h2]; exact ih s' t' h3
    · rw [h1, h2]; exact .inr (.inl ⟨e, rfl, rfl⟩)
    · rw [h1, h2]; exact .inr (.inr ⟨rfl, rfl⟩)

theorem visit_sim (std : Str → Bool) (heap : Pkgs.Heap) (fn : Scanner σ) (gn : Scanner τ) : ∀ n p s t, Sim s t →
    SimRes (visit std heap fn n p s) (visit std heap gn n p t) := by
  intro n
  induction n with
  | zero => intro p s t _; exact .inr (.inl ⟨_, rfl, rfl⟩)
  | succ n ih =>
    intro p s t hs
    rw [visit, visit, hs.1]
    split
    · exact .inl ⟨s, t, rfl, rfl, hs⟩
    · cases heap[p]? with
      | none => exact .inr (.inr ⟨rfl, rfl⟩)
      | some pkg =>
        simp only
        split
        · exact .inl ⟨s, t, rfl, rfl, hs⟩
        · have := visitAll_sim ih (importIds heap.length pkg)
            { s with seen := p :: t.seen, errs := s.errs ++ pkg.errors.map wrap }
            { t with seen := p :: t.seen, errs := t.errs ++ pkg.errors.map wrap } ⟨rfl, hs.2⟩
          rcases this with ⟨s', t', h1, h2, h3⟩ | ⟨e, h1, h2⟩ | ⟨h1, h2⟩
          · rw [h1, h2]
            exact .inl ⟨_, _, rfl, rfl, h3.1, by simp [h3.2]⟩
          · rw [h1, h2]; exact .inr (.inl ⟨e, rfl, rfl⟩)
          · rw [h1, h2]; exact .inr (.inr ⟨rfl, rfl⟩)

/-- A scanner that does nothing. -/
def idle : Scanner Unit := ⟨fun _ _ => ((), none)⟩

/-- The packages a walk scans, in order. -/
def plan (std : Str → Bool) (heap : Pkgs.Heap) (roots : List Nat) : List Nat :=
  match Pkgs.scan std heap idle () roots with
  | .ok (s, _) => s.calls.map Prod.fst
  | _ => []

theorem scanned_plan {std : Str → Bool} {heap : Pkgs.Heap} {roots : List Nat} {fn : Scanner σ} {σ₀ : σ} {s : Pkgs.St σ} {e : Option Str}
    (h : Pkgs.scan std heap fn σ₀ roots = .ok (s, e)) : Props.scanned s = plan std heap roots := by
  have hv := (Props.scan_state h).1
  have := visitAll_sim (visit_sim std heap fn idle (heap.length + 1)) roots { scn := σ₀ } { scn := () } ⟨rfl, rfl⟩
  rcases this with ⟨s', t', h1, h2, h3⟩ | ⟨e, h1, _⟩ | ⟨h1, _⟩
  · rw [hv] at h1; cases h1
    unfold plan Pkgs.scan
    rw [h2]
    exact h3.2
  · rw [hv] at h1; cases h1
  · rw [hv] at h1; cases h1

/-- No package to scan has load errors. -/
def CleanLoad (inp : Input F) (roots : List Nat) : Prop :=
  ∀ q pkg, q ∈ plan inp.stdpkg inp.heap roots → inp.heap[q]? = some pkg → pkg.errors = []

/-- What a walk comes to: calling the scanner for the packages of the plan, one after the other. -/
theorem walk_gen [Crashing σ] {inp : Input F} {heap : Pkgs.Heap} {roots : List Nat} (hg : GraphOK inp.heap roots) (hs : SameGraph inp.heap heap)
    (fn : Scanner σ) (s r : σ) :
    walk inp heap roots fn s = .ok r ↔ (Crashing.crashed r = true ∨ CleanLoad inp roots ∧
      ∀ x ∈ (runScanner fn s (plan inp.stdpkg inp.heap roots)).2, x = none) ∧ (runScanner fn s (plan inp.stdpkg inp.heap roots)).1 = r := by
  unfold walk
  rw [← Props.C49_order_independent inp.stdpkg inp.heap heap fn s roots hg hs]
  obtain ⟨st, e, h⟩ := Props.C49_terminates inp.stdpkg inp.heap fn s roots hg
  rw [h]
  have hp := scanned_plan h
  have hgo := Props.C50_goes_on hg h
  have herr := Props.C50_error_iff hg h
  rw [hp] at hgo herr
  rw [hgo]
  simp only
  by_cases hcr : Crashing.crashed st.scn = true
  · rw [if_pos hcr]
    constructor
    · intro hr; cases hr; exact ⟨.inl hcr, rfl⟩
    · rintro ⟨_, hr⟩; rw [hr]
  rw [if_neg hcr]
  cases e with
  | none =>
    have hno : ¬ ((∃ q pkg, q ∈ plan inp.stdpkg inp.heap roots ∧ inp.heap[q]? = some pkg ∧ pkg.errors ≠ []) ∨ ∃ q m, (q, some m) ∈ st.calls) := by
      intro hx; obtain ⟨m, hm⟩ := herr.2 hx; cases hm
    constructor
    · intro hr
      cases hr
      refine ⟨.inr ⟨?_, ?_⟩, rfl⟩
      · intro q pkg hq hk
        exact Classical.not_not.1 fun hne => hno (.inl ⟨q, pkg, hq, hk, hne⟩)
      · intro x hx
        obtain ⟨⟨q, y⟩, hc, rfl⟩ := List.mem_map.1 hx
        cases y with
        | none => rfl
        | some m => exact absurd (.inr ⟨q, m, hc⟩) hno
    · rintro ⟨_, hr⟩; simp only at hr ⊢; rw [hr]
  | some m =>
    constructor
    · intro hr; cases hr
    · rintro ⟨h0 | ⟨h1, h2⟩, hr⟩
      · rw [← hr] at h0; exact absurd h0 hcr
      exfalso
      rcases herr.1 ⟨m, rfl⟩ with ⟨q, pkg, hq, hk, hne⟩ | ⟨q, m', hc⟩
      · exact hne (h1 q pkg hq hk)
      · have := h2 _ (List.mem_map.2 ⟨_, hc, rfl⟩)
        cases this

theorem walk_iff [Crashing σ] {inp : Input F} {heap : Pkgs.Heap} {roots : List Nat} (hg : GraphOK inp.heap roots) (hs : SameGraph inp.heap heap)
    (fn : Scanner σ) (s r : σ) (hr : Crashing.crashed r = false := by rfl) :
    walk inp heap roots fn s = .ok r ↔ CleanLoad inp roots ∧
      (∀ x ∈ (runScanner fn s (plan inp.stdpkg inp.heap roots)).2, x = none) ∧ (runScanner fn s (plan inp.stdpkg inp.heap roots)).1 = r := by
  rw [walk_gen hg hs, hr]
  simp only [Bool.false_eq_true, false_or, and_assoc]

theorem runScanner_cons_none {fn : Scanner σ} {s : σ} {p : Nat} {l : List Nat} :
    (∀ x ∈ (runScanner fn s (p :: l)).2, x = none) ↔ (fn.scan s p).2 = none ∧ ∀ x ∈ (runScanner fn (fn.scan s p).1 l).2, x = none := by
  simp [runScanner]

end Oapi.Scan
