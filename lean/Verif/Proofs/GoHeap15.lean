import Verif.Model.GoScan
import Verif.Proofs.GoHeap14
import Verif.Proofs.GoHeap10
import Verif.Proofs.Crash3
import Verif.Spec.Scan

/-! A scan in memory ends as a scan on documents. -/
namespace Oapi.Pkgs

/-- The walk does the same with two scanners that do the same. -/
structure Alike {σ τ : Type} (R : σ → τ → Prop) (s : St σ) (t : St τ) : Prop where
  seen : s.seen = t.seen
  errs : s.errs = t.errs
  calls : s.calls = t.calls
  scn : R s.scn t.scn

/-- Both results are alike. -/
def AlikeR {σ τ : Type} (R : σ → τ → Prop) : Res (St σ) → Res (St τ) → Prop
  | .ok s, .ok t => Alike R s t
  | .err e, .err e' => e = e'
  | .panic, .panic => True
  | _, _ => False

theorem visitAll_alike {σ τ : Type} {R : σ → τ → Prop} {v : Nat → St σ → Res (St σ)} {w : Nat → St τ → Res (St τ)}
    (hv : ∀ p s t, Alike R s t → AlikeR R (v p s) (w p t)) : ∀ (l : List Nat) {s : St σ} {t : St τ}, Alike R s t → AlikeR R (visitAll v l s) (visitAll w l t)
  | [], s, t, h => h
  | p :: l, s, t, h => by
    have := hv p s t h
    simp only [visitAll]
    cases e1 : v p s with
    | ok s' =>
      rw [e1] at this
      cases e2 : w p t with
      | ok t' => rw [e2] at this; exact visitAll_alike hv l this
      | err e => rw [e2] at this; exact this.elim
      | panic => rw [e2] at this; exact this.elim
    | err e =>
      rw [e1] at this
      cases e2 : w p t with
      | ok t' => rw [e2] at this; exact this.elim
      | err e => rw [e2] at this; exact this
      | panic => rw [e2] at this; exact this.elim
    | panic =>
      rw [e1] at this
      cases e2 : w p t with
      | ok t' => rw [e2] at this; exact this.elim
      | err e => rw [e2] at this; exact this.elim
      | panic => trivial

theorem visit_alike {σ τ : Type} {R : σ → τ → Prop} {std : Str → Bool} {heap : Heap} {fn : Scanner σ} {gn : Scanner τ}
    (hf : ∀ s t p, R s t → R (fn.scan s p).1 (gn.scan t p).1 ∧ (fn.scan s p).2 = (gn.scan t p).2) :
    ∀ (n p : Nat) {s : St σ} {t : St τ}, Alike R s t → AlikeR R (visit std heap fn n p s) (visit std heap gn n p t)
  | 0, p, s, t, h => rfl
  | n + 1, p, s, t, h => by
    simp only [visit, ← h.seen]
    by_cases hs : p ∈ s.seen
    · simp only [if_pos hs]; exact h
    · simp only [if_neg hs]
      cases heap[p]? with
      | none => trivial
      | some pkg =>
        simp only
        by_cases hp : std pkg.path
        · simp only [if_pos hp]; exact h
        · simp only [if_neg hp]
          have := visitAll_alike (R := R) (v := visit std heap fn n) (w := visit std heap gn n) (fun p s t => visit_alike hf n p) (importIds heap.length pkg)
            (s := { s with seen := p :: s.seen, errs := s.errs ++ pkg.errors.map wrap }) (t := { t with seen := p :: s.seen, errs := t.errs ++ pkg.errors.map wrap })
            ⟨rfl, by simp only [h.errs], h.calls, h.scn⟩
          cases e1 : visitAll (visit std heap fn n) (importIds heap.length pkg) { s with seen := p :: s.seen, errs := s.errs ++ pkg.errors.map wrap } with
          | ok s' =>
            rw [e1] at this
            cases e2 : visitAll (visit std heap gn n) (importIds heap.length pkg) { t with seen := p :: s.seen, errs := t.errs ++ pkg.errors.map wrap } with
            | ok t' =>
              rw [e2] at this
              obtain ⟨g1, g2⟩ := hf s'.scn t'.scn p this.scn
              exact ⟨this.seen, by simp only [this.errs, g2], by simp only [this.calls, g2], g1⟩
            | err e => rw [e2] at this; exact this.elim
            | panic => rw [e2] at this; exact this.elim
          | err e =>
            rw [e1] at this
            cases e2 : visitAll (visit std heap gn n) (importIds heap.length pkg) { t with seen := p :: s.seen, errs := t.errs ++ pkg.errors.map wrap } with
            | ok t' => rw [e2] at this; exact this.elim
            | err e => rw [e2] at this; exact this
            | panic => rw [e2] at this; exact this.elim
          | panic =>
            rw [e1] at this
            cases e2 : visitAll (visit std heap gn n) (importIds heap.length pkg) { t with seen := p :: s.seen, errs := t.errs ++ pkg.errors.map wrap } with
            | ok t' => rw [e2] at this; exact this.elim
            | err e => rw [e2] at this; exact this.elim
            | panic => trivial

end Oapi.Pkgs

namespace Oapi.Scan
open Types
variable {F : Type} {inp : Input F}

/-- Calls of `pkgutil.Scan` with scanners that do the same. -/
theorem walk_alike {σ τ : Type} [Crashing σ] [Crashing τ] {R : σ → τ → Prop} {heap : Pkgs.Heap} {roots : List Nat} {fn : Pkgs.Scanner σ} {gn : Pkgs.Scanner τ} {s : σ} {t : τ}
    (hf : ∀ s t p, R s t → R (fn.scan s p).1 (gn.scan t p).1 ∧ (fn.scan s p).2 = (gn.scan t p).2) (hc : ∀ s t, R s t → Crashing.crashed s = Crashing.crashed t) (h : R s t) :
    match walk inp heap roots gn t with
    | .ok b => ∃ a, walk inp heap roots fn s = .ok a ∧ R a b
    | .err e => walk inp heap roots fn s = .err e
    | .panic => walk inp heap roots fn s = .panic := by
  have := Pkgs.visitAll_alike (R := R) (fun p s t => Pkgs.visit_alike (std := inp.stdpkg) (heap := heap) hf (heap.length + 1) p) roots
    (s := { scn := s }) (t := { scn := t }) ⟨rfl, rfl, rfl, h⟩
  unfold walk Pkgs.scan
  cases e1 : Pkgs.visitAll (Pkgs.visit inp.stdpkg heap fn (heap.length + 1)) roots { scn := s } with
  | ok s' =>
    rw [e1] at this
    cases e2 : Pkgs.visitAll (Pkgs.visit inp.stdpkg heap gn (heap.length + 1)) roots { scn := t } with
    | ok t' =>
      rw [e2] at this
      simp only [hc _ _ this.scn, this.errs]
      by_cases hcr : Crashing.crashed t'.scn = true
      · simp only [if_pos hcr]; exact ⟨_, rfl, this.scn⟩
      · simp only [if_neg hcr]
        by_cases he : t'.errs.length > 0
        · simp only [if_pos he]
        · simp only [if_neg he]; exact ⟨_, rfl, this.scn⟩
    | err e => rw [e2] at this; exact this.elim
    | panic => rw [e2] at this; exact this.elim
  | err e =>
    rw [e1] at this
    cases e2 : Pkgs.visitAll (Pkgs.visit inp.stdpkg heap gn (heap.length + 1)) roots { scn := t } with
    | ok t' => rw [e2] at this; exact this.elim
    | err e' => rw [e2] at this; have : e = e' := this; rw [this]
    | panic => rw [e2] at this; exact this.elim
  | panic =>
    rw [e1] at this
    cases e2 : Pkgs.visitAll (Pkgs.visit inp.stdpkg heap gn (heap.length + 1)) roots { scn := t } with
    | ok t' => rw [e2] at this; exact this.elim
    | err e => rw [e2] at this; exact this.elim
    | panic => rfl

mutual
/-- Every schema has some references. -/
theorem refsIn_all (s : Schema F) : RefsIn (fun _ => True) s := by
  cases s with
  | mk r a items additional oneOf properties =>
    exact .mk (fun _ _ => trivial) (refsIn_opt items) (refsIn_opt additional) (refsIn_list oneOf) (refsIn_props properties)
termination_by structural s
theorem refsIn_opt (i : Option (Schema F)) : ∀ s, i = some s → RefsIn (fun _ => True) s := by
  cases i with
  | none => intro s h; cases h
  | some x => intro s h; cases h; exact refsIn_all x
termination_by structural i
theorem refsIn_list (l : List (Schema F)) : ∀ s ∈ l, RefsIn (fun _ => True) s := by
  cases l with
  | nil => intro s h; simp at h
  | cons x t =>
    intro s h
    rcases List.mem_cons.1 h with h | h
    · rw [h]; exact refsIn_all x
    · exact refsIn_list t s h
termination_by structural l
theorem refsIn_props (l : List (Str × Schema F)) : ∀ k s, (k, s) ∈ l → RefsIn (fun _ => True) s := by
  cases l with
  | nil => intro k s h; simp at h
  | cons x t =>
    obtain ⟨k0, x⟩ := x
    intro k s h
    rcases List.mem_cons.1 h with h | h
    · cases h; exact refsIn_all x
    · exact refsIn_props t k s h
termination_by structural l
end

end Oapi.Scan
