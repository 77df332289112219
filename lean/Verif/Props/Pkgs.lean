import Verif.Proofs.Pkgs

/-! C49–C50: the walk over the packages. -/
namespace Oapi.Props
open Spec
open Pkgs (Heap Scanner St scan Package)

variable {σ : Type} {std : Str → Bool} {heap : Heap} {fn : Scanner σ} {σ₀ : σ} {pkgs : List Nat} {s : St σ} {e : Option Str}

/-- The packages `fn.Scan` was called with, in order. -/
def scanned (s : St σ) : List Nat := s.calls.map Prod.fst

theorem scan_state (h : scan std heap fn σ₀ pkgs = .ok (s, e)) :
    Pkgs.visitAll (Pkgs.visit std heap fn (heap.length + 1)) pkgs { scn := σ₀ } = .ok s ∧
      e = if s.errs.length > 0 then some (Pkgs.newSingleError s.errs) else none := by
  unfold scan at h
  split at h
  · cases h
  · cases h
  · rename_i s' hs; cases h; exact ⟨hs, rfl⟩

/-- C49: the walk ends, without crash, on every import graph, cyclic ones included, whatever the scanner does. -/
theorem C49_terminates (std : Str → Bool) (heap : Heap) (fn : Scanner σ) (σ₀ : σ) (pkgs : List Nat) (hg : GraphOK heap pkgs) :
    ∃ s e, scan std heap fn σ₀ pkgs = .ok (s, e) := by
  obtain ⟨s, h⟩ := Pkgs.scan_ok (std := std) (fn := fn) hg σ₀
  exact ⟨s, _, by rw [scan, h]⟩

/-- C49: the packages scanned are exactly those reached from the given ones through imports outside the standard library … -/
theorem C49_scans_reachable (hg : GraphOK heap pkgs) (h : scan std heap fn σ₀ pkgs = .ok (s, e)) (q : Nat) :
    q ∈ scanned s ↔ ∃ p ∈ pkgs, PkgReach std heap p q := by
  obtain ⟨hv, _⟩ := scan_state h
  obtain ⟨G, O⟩ := Pkgs.scan_grow hg.keys hv
  constructor
  · exact G.reach q
  · rintro ⟨p, hp, hr⟩
    have hin : ∀ x, x ∈ s.seen → x ∈ scanned s := by
      intro x hx
      rcases G.back x hx with h | h
      · simp at h
      · exact h
    have : ∀ p q, PkgReach std heap p q → p ∈ scanned s → q ∈ scanned s := by
      intro p q hr
      induction hr with
      | refl _ => exact id
      | step ho hi hr ih =>
        intro hm
        exact ih (hin _ (G.closed _ hm _ hi hr.own_left))
    exact this p q hr (hin p (O p hp hr.own_left))

/-- C49: … each exactly once … -/
theorem C49_scans_once (hg : GraphOK heap pkgs) (h : scan std heap fn σ₀ pkgs = .ok (s, e)) : (scanned s).Nodup :=
  (Pkgs.scan_grow hg.keys (scan_state h).1).1.nodup

/-- C49: … none of the standard library … -/
theorem C49_never_std (hg : GraphOK heap pkgs) (h : scan std heap fn σ₀ pkgs = .ok (s, e)) (q : Nat) (hq : q ∈ scanned s) :
    ∃ pkg, heap[q]? = some pkg ∧ std pkg.path = false := by
  obtain ⟨p, _, hr⟩ := (C49_scans_reachable hg h q).1 hq
  exact hr.own_right

/-- C49: … and after every package it imports, unless that package imports it back. -/
theorem C49_after_imports (hg : GraphOK heap pkgs) (h : scan std heap fn σ₀ pkgs = .ok (s, e)) (p q : Nat) (hp : p ∈ scanned s)
    (hi : Imports heap p q) (ho : Own std heap q) (hc : ¬ PkgReach std heap q p) : Before (scanned s) q p := by
  obtain ⟨G, _⟩ := Pkgs.scan_grow hg.keys (scan_state h).1
  rcases G.order p hp q hi ho with hb | hr
  · exact hb
  · exact absurd hr hc

/-- C49: on acyclic graphs every package comes after all packages it imports, directly or not. -/
theorem C49_dependencies_first (hg : GraphOK heap pkgs) (hac : Acyclic std heap) (h : scan std heap fn σ₀ pkgs = .ok (s, e))
    (p q r : Nat) (hp : p ∈ scanned s) (hi : Imports heap p q) (hr : PkgReach std heap q r) : Before (scanned s) r p := by
  have hnd := C49_scans_once hg h
  have htrans : ∀ {a b c : Nat}, Before (scanned s) a b → Before (scanned s) b c → Before (scanned s) a c := by
    intro a b c h1 h2
    obtain ⟨x, y, z, e1⟩ := h1
    obtain ⟨u, v, w, e2⟩ := h2
    rw [e1] at e2 hnd
    -- `b` stands at one place only
    have key : x ++ a :: y = u := by
      have : ∀ (l₁ l₂ m₁ m₂ : List Nat), (l₁ ++ b :: l₂).Nodup → l₁ ++ b :: l₂ = m₁ ++ b :: m₂ → l₁ = m₁ := by
        intro l₁
        induction l₁ with
        | nil =>
          intro l₂ m₁ m₂ hn he
          cases m₁ with
          | nil => rfl
          | cons c m₁ =>
            simp only [List.nil_append, List.cons_append] at he hn
            injection he with h3 h4
            rw [List.nodup_cons, h4] at hn
            exact absurd (by simp) hn.1
        | cons c l₁ ih =>
          intro l₂ m₁ m₂ hn he
          cases m₁ with
          | nil =>
            simp only [List.nil_append, List.cons_append] at he hn
            injection he with h3 h4
            rw [List.nodup_cons] at hn
            exact absurd (by rw [h3]; simp) hn.1
          | cons d m₁ =>
            simp only [List.cons_append] at he hn
            injection he with h3 h4
            rw [List.nodup_cons] at hn
            rw [h3, ih l₂ m₁ m₂ hn.2 h4]
      exact this (x ++ a :: y) z u (v ++ c :: w) hnd (by rw [e2]; simp)
    refine ⟨x, y ++ b :: v, w, ?_⟩
    rw [e1, e2, ← key]; simp
  have hmem : ∀ {a b : Nat}, Before (scanned s) a b → a ∈ scanned s := by
    rintro a b ⟨x, y, z, e1⟩; rw [e1]; simp
  induction hr generalizing p with
  | refl ho => exact C49_after_imports hg h p _ hp hi ho (hac p _ hi)
  | step ho hi' hr ih =>
    have h1 := C49_after_imports hg h p _ hp hi ho (hac p _ hi)
    exact htrans (ih _ (hmem h1) hi') h1

/-- C49: the iteration order of the import maps does not matter. -/
theorem C49_order_independent (std : Str → Bool) (heap heap' : Heap) (fn : Scanner σ) (σ₀ : σ) (pkgs : List Nat) (hg : GraphOK heap pkgs)
    (hs : SameGraph heap heap') : scan std heap fn σ₀ pkgs = scan std heap' fn σ₀ pkgs := by
  unfold scan
  rw [← hs.1, Pkgs.visitAll_congr (Pkgs.visit_congr hg.keys hs _)]

/-- C50: the walk returns an error exactly if some package it visits has load errors or some scan fails. -/
theorem C50_error_iff (hg : GraphOK heap pkgs) (h : scan std heap fn σ₀ pkgs = .ok (s, e)) :
    (∃ m, e = some m) ↔ (∃ q pkg, q ∈ scanned s ∧ heap[q]? = some pkg ∧ pkg.errors ≠ []) ∨ ∃ q m, (q, some m) ∈ s.calls := by
  obtain ⟨hv, he⟩ := scan_state h
  obtain ⟨G, _⟩ := Pkgs.scan_grow hg.keys hv
  obtain ⟨ne, h1, h2⟩ := G.errs
  have h1 : s.errs = ne := by simpa using h1
  rw [h1] at he
  have hne : (∃ m, e = some m) ↔ ∃ m, m ∈ ne := by
    rw [he]
    cases ne with
    | nil => simp
    | cons a l => simp only [List.length_cons, gt_iff_lt, Nat.zero_lt_succ, if_true]
                  exact ⟨fun _ => ⟨a, by simp⟩, fun _ => ⟨_, rfl⟩⟩
  rw [hne]
  constructor
  · rintro ⟨m, hm⟩
    rcases (h2 m).1 hm with ⟨x, pkg, er, hx, h3, h4, _⟩ | ⟨x, hx⟩
    · exact Or.inl ⟨x, pkg, hx, h3, fun h0 => by rw [h0] at h4; cases h4⟩
    · exact Or.inr ⟨x, m, hx⟩
  · rintro (⟨q, pkg, hq, h3, h4⟩ | ⟨q, m, hq⟩)
    · obtain ⟨er, l, hl⟩ := List.exists_cons_of_ne_nil h4
      exact ⟨_, (h2 _).2 (Or.inl ⟨q, pkg, er, hq, h3, by rw [hl]; simp, rfl⟩)⟩
    · exact ⟨m, (h2 m).2 (Or.inr ⟨q, hq⟩)⟩

/-- C50: the error's text shows every load error and every scan error. -/
theorem C50_all_messages (hg : GraphOK heap pkgs) (h : scan std heap fn σ₀ pkgs = .ok (s, e)) (m : Str)
    (hm : (∃ q pkg, q ∈ scanned s ∧ heap[q]? = some pkg ∧ m ∈ pkg.errors) ∨ ∃ q, (q, some m) ∈ s.calls) :
    ∃ a b, e = some (a ++ m ++ b) := by
  obtain ⟨hv, he⟩ := scan_state h
  obtain ⟨G, _⟩ := Pkgs.scan_grow hg.keys hv
  obtain ⟨ne, h1, h2⟩ := G.errs
  have h1 : s.errs = ne := by simpa using h1
  have : ∃ w x, w ++ m ++ x ∈ ne := by
    rcases hm with ⟨q, pkg, hq, h3, h4⟩ | ⟨q, hq⟩
    · exact ⟨b!"failed to parse pkg: ", [], (h2 _).2 (Or.inl ⟨q, pkg, m, hq, h3, h4, by simp [Pkgs.wrap]⟩)⟩
    · exact ⟨[], [], by simpa using (h2 m).2 (Or.inr ⟨q, hq⟩)⟩
  obtain ⟨w, x, hw⟩ := this
  have hpos : s.errs.length > 0 := by rw [h1]; exact List.length_pos_of_mem hw
  rw [if_pos hpos, h1] at he
  obtain ⟨a, b, hj⟩ := Pkgs.mem_joinWith b!"\n" (List.mem_map.2 ⟨_, hw, rfl⟩ : b!"\t- " ++ (w ++ m ++ x) ∈ ne.map fun m => b!"\t- " ++ m)
  refine ⟨b!"failed to scan: \n" ++ a ++ b!"\t- " ++ w, x ++ b, ?_⟩
  rw [he, Pkgs.newSingleError, hj]
  simp

/-- C50: errors stop nothing: the scanner is called for every package to visit (see C49, which asks nothing of the scanner), in
the state the calls before left it in, failed ones included, and the recorded results are its answers. -/
theorem C50_goes_on (hg : GraphOK heap pkgs) (h : scan std heap fn σ₀ pkgs = .ok (s, e)) :
    runScanner fn σ₀ (scanned s) = (s.scn, s.calls.map Prod.snd) :=
  (Pkgs.scan_grow hg.keys (scan_state h).1).1.scn

/-! A graph with a standard library package (0), a diamond and a cycle (3 ↔ 4). -/
def demoHeap : Heap := [
  { path := b!"fmt" },
  { path := b!"m/a", imports := [(b!"m/c", 3), (b!"m/b", 2), (b!"fmt", 0)] },
  { path := b!"m/b", imports := [(b!"m/c", 3)], errors := [b!"bad"] },
  { path := b!"m/c", imports := [(b!"m/d", 4)] },
  { path := b!"m/d", imports := [(b!"m/c", 3), (b!"fmt", 0)] }]

def demoStd (p : Str) : Bool := p = b!"fmt"
/-- A scanner that counts its calls and fails at the second one. -/
def demoScanner : Scanner Nat := ⟨fun n _ => (n + 1, if n = 1 then some b!"oops" else none)⟩

example : GraphOK demoHeap [1] where
  roots := by decide
  imports := by
    rintro p q ⟨pkg, k, h1, h2⟩
    have : ∀ pkg ∈ demoHeap, ∀ e ∈ pkg.imports, e.2 < demoHeap.length := by decide
    exact this pkg (List.mem_of_getElem? h1) _ h2
  keys := by decide

example : ∃ s, scan demoStd demoHeap demoScanner 0 [1] =
    .ok (s, some b!"failed to scan: \n\t- failed to parse pkg: bad\n\t- oops") ∧ scanned s = [4, 3, 2, 1] ∧ s.scn = 4 :=
  ⟨_, rfl, rfl, rfl⟩

end Oapi.Props
