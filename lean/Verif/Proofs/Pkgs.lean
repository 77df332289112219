import Verif.Spec.Pkgs
import Verif.Proofs.Json

/-! Lemmas about the walk over the import graph. -/
namespace Oapi.Pkgs
open Spec

/-! ### Sorting -/

theorem insertStr_perm (k : Str) (l : List Str) : (insertStr k l).Perm (k :: l) := by
  induction l with
  | nil => exact .refl _
  | cons h t ih =>
    rw [insertStr]
    split
    · exact ((List.Perm.cons h ih).trans (List.Perm.swap k h t))
    · exact .refl _

theorem sortStrs_perm (l : List Str) : (sortStrs l).Perm l := by
  induction l with
  | nil => exact .refl _
  | cons h t ih => exact (insertStr_perm h _).trans (ih.cons h)

/-- No element before a smaller one. -/
def Ordered (l : List Str) : Prop := l.Pairwise fun x y => Str.lt y x = false

theorem le_trans' {a b c : Str} (h1 : Str.lt b a = false) (h2 : Str.lt c b = false) : Str.lt c a = false := by
  cases h : Str.lt c a with
  | false => rfl
  | true =>
    by_cases hab : a = b
    · subst hab; rw [h] at h2; cases h2
    · have := Str.lt_tri (a := b) (b := a) (fun e => hab e.symm) h1
      rw [Str.lt_trans h this] at h2; cases h2

theorem insertStr_ordered (k : Str) (l : List Str) (h : Ordered l) : Ordered (insertStr k l) := by
  induction l with
  | nil => simp [insertStr, Ordered]
  | cons a t ih =>
    rw [insertStr]
    rw [Ordered, List.pairwise_cons] at h
    split
    · rename_i hlt
      rw [Ordered, List.pairwise_cons]
      refine ⟨?_, ih h.2⟩
      intro x hx
      rcases List.mem_cons.1 ((insertStr_perm k t).mem_iff.1 hx) with rfl | hx
      · exact Str.lt_asymm hlt
      · exact h.1 x hx
    · rename_i hlt
      have hlt : Str.lt a k = false := by simpa using hlt
      rw [Ordered, List.pairwise_cons]
      refine ⟨?_, by rw [List.pairwise_cons]; exact h⟩
      intro x hx
      rcases List.mem_cons.1 hx with rfl | hx
      · exact hlt
      · exact le_trans' hlt (h.1 x hx)

theorem sortStrs_ordered (l : List Str) : Ordered (sortStrs l) := by
  induction l with
  | nil => simp [sortStrs, Ordered]
  | cons h t ih => exact insertStr_ordered h _ ih

theorem ordered_unique : ∀ {a b : List Str}, Ordered a → Ordered b → a.Perm b → a = b := by
  intro a
  induction a with
  | nil => intro b _ _ h; exact (List.nil_perm.1 h).symm
  | cons x a ih =>
    intro b ha hb h
    cases b with
    | nil => exact absurd h (by simp)
    | cons y b =>
      rw [Ordered, List.pairwise_cons] at ha hb
      have : x = y := by
        have hx : x ∈ y :: b := h.mem_iff.1 (by simp)
        have hy : y ∈ x :: a := h.mem_iff.2 (by simp)
        rcases List.mem_cons.1 hx with rfl | hx
        · rfl
        · rcases List.mem_cons.1 hy with rfl | hy
          · rfl
          · exact Classical.byContradiction fun hne =>
              absurd (Str.lt_tri hne (hb.1 x hx)) (by rw [ha.1 y hy]; simp)
      subst this
      rw [ih ha.2 hb.2 (List.Perm.cons_inv h)]

theorem sortStrs_congr {a b : List Str} (h : a.Perm b) : sortStrs a = sortStrs b :=
  ordered_unique (sortStrs_ordered a) (sortStrs_ordered b) ((sortStrs_perm a).trans (h.trans (sortStrs_perm b).symm))

theorem importOf_of_mem {l : List (Str × Nat)} (hn : (l.map Prod.fst).Nodup) {k : Str} {q : Nat} (h : (k, q) ∈ l) : importOf l k = some q := by
  induction l with
  | nil => cases h
  | cons e t ih =>
    unfold importOf
    rw [List.map_cons, List.nodup_cons] at hn
    rcases List.mem_cons.1 h with rfl | h
    · simp
    · have : e.1 ≠ k := fun hx => hn.1 (List.mem_map.2 ⟨_, h, hx.symm⟩)
      rw [List.find?_cons_of_neg (by simpa using this)]
      exact ih hn.2 h

theorem importOf_mem {l : List (Str × Nat)} {k : Str} {q : Nat} (h : importOf l k = some q) : (k, q) ∈ l := by
  unfold importOf at h
  obtain ⟨e, he, rfl⟩ := Option.map_eq_some_iff.1 h
  have h1 := List.mem_of_find?_eq_some he
  have h2 := List.find?_some he
  simp only [decide_eq_true_eq] at h2
  rw [← h2]; exact h1

theorem mem_importIds {nil : Nat} {pkg : Package} (hn : (pkg.imports.map Prod.fst).Nodup) {q : Nat} :
    q ∈ importIds nil pkg ↔ ∃ k, (k, q) ∈ pkg.imports := by
  unfold importIds
  rw [List.mem_map]
  constructor
  · rintro ⟨k, hk, e⟩
    rw [(sortStrs_perm _).mem_iff, List.mem_map] at hk
    obtain ⟨⟨k', q'⟩, hm, rfl⟩ := hk
    rw [importOf_of_mem hn hm] at e
    cases e
    exact ⟨_, hm⟩
  · rintro ⟨k, hm⟩
    refine ⟨k, ?_, by rw [importOf_of_mem hn hm]; rfl⟩
    rw [(sortStrs_perm _).mem_iff, List.mem_map]
    exact ⟨_, hm, rfl⟩

theorem importIds_congr {nil : Nat} {a b : Package} (hn : (a.imports.map Prod.fst).Nodup) (h : a.imports.Perm b.imports) :
    importIds nil a = importIds nil b := by
  unfold importIds
  rw [sortStrs_congr (h.map _)]
  apply List.map_congr_left
  intro k _
  congr 1
  have hb : (b.imports.map Prod.fst).Nodup := (h.map _).nodup_iff.1 hn
  cases ha : importOf a.imports k with
  | some q => rw [importOf_of_mem hb (h.mem_iff.1 (importOf_mem ha))]
  | none =>
    cases hc : importOf b.imports k with
    | none => rfl
    | some q => rw [importOf_of_mem hn (h.mem_iff.2 (importOf_mem hc))] at ha; cases ha

/-! ### Reachability -/

theorem _root_.Oapi.Spec.PkgReach.own_left {std : Str → Bool} {heap : Heap} {p q : Nat} (h : PkgReach std heap p q) : Own std heap p := by
  cases h <;> assumption

theorem _root_.Oapi.Spec.PkgReach.own_right {std : Str → Bool} {heap : Heap} {p q : Nat} (h : PkgReach std heap p q) : Own std heap q := by
  induction h with
  | refl h => exact h
  | step _ _ _ ih => exact ih

theorem _root_.Oapi.Spec.PkgReach.trans {std : Str → Bool} {heap : Heap} {p q r : Nat} (h : PkgReach std heap p q) (h' : PkgReach std heap q r) : PkgReach std heap p r := by
  induction h with
  | refl _ => exact h'
  | step a b _ ih => exact .step a b (ih h')

/-! ### What a visit does -/

variable {σ : Type} {std : Str → Bool} {heap : Heap} {fn : Scanner σ}

abbrev St.ids (s : St σ) : List Nat := s.calls.map Prod.fst

theorem runScanner_append (s : σ) (a b : List Nat) :
    runScanner fn s (a ++ b) = ((runScanner fn (runScanner fn s a).1 b).1, (runScanner fn s a).2 ++ (runScanner fn (runScanner fn s a).1 b).2) := by
  induction a generalizing s with
  | nil => rfl
  | cons p a ih => simp only [List.cons_append, runScanner, ih]

/-- An error message that must be reported for the calls `new`. -/
def ErrFor (heap : Heap) (new : List (Nat × Option Str)) (m : Str) : Prop :=
  (∃ x pkg e, x ∈ new.map Prod.fst ∧ heap[x]? = some pkg ∧ e ∈ pkg.errors ∧ m = wrap e) ∨ ∃ x, (x, some m) ∈ new

structure Grow (std : Str → Bool) (heap : Heap) (fn : Scanner σ) (from_ : List Nat) (s s' : St σ) (new : List (Nat × Option Str)) : Prop where
  calls : s'.calls = s.calls ++ new
  nodup : (new.map Prod.fst).Nodup
  fresh : ∀ x ∈ new.map Prod.fst, x ∉ s.seen ∧ x ∈ s'.seen
  back : ∀ x ∈ s'.seen, x ∈ s.seen ∨ x ∈ new.map Prod.fst
  mono : ∀ x ∈ s.seen, x ∈ s'.seen
  reach : ∀ x ∈ new.map Prod.fst, ∃ p ∈ from_, PkgReach std heap p x
  closed : ∀ x ∈ new.map Prod.fst, ∀ q, Imports heap x q → Own std heap q → q ∈ s'.seen
  order : ∀ x ∈ new.map Prod.fst, ∀ q, Imports heap x q → Own std heap q → Before s'.ids q x ∨ PkgReach std heap q x
  scn : runScanner fn s.scn (new.map Prod.fst) = (s'.scn, new.map Prod.snd)
  errs : ∃ ne, s'.errs = s.errs ++ ne ∧ ∀ m, m ∈ ne ↔ ErrFor heap new m

theorem Grow.nil (s : St σ) (l : List Nat) : Grow std heap fn l s s [] where
  calls := by simp
  nodup := by simp
  fresh := by simp
  back := fun x h => Or.inl h
  mono := fun x h => h
  reach := by simp
  closed := by simp
  order := by simp
  scn := rfl
  errs := ⟨[], by simp, by simp [ErrFor]⟩

theorem _root_.Oapi.Spec.Before.append {l : List Nat} {a b : Nat} (h : Before l a b) (r : List Nat) : Before (l ++ r) a b := by
  obtain ⟨x, y, z, rfl⟩ := h
  exact ⟨x, y, z ++ r, by simp⟩

theorem ErrFor_append {a b : List (Nat × Option Str)} {m : Str} : ErrFor heap (a ++ b) m ↔ ErrFor heap a m ∨ ErrFor heap b m := by
  unfold ErrFor
  constructor
  · rintro (⟨x, pkg, e, hx, h1, h2, h3⟩ | ⟨x, h⟩)
    · rw [List.map_append, List.mem_append] at hx
      rcases hx with hx | hx
      · exact Or.inl (Or.inl ⟨x, pkg, e, hx, h1, h2, h3⟩)
      · exact Or.inr (Or.inl ⟨x, pkg, e, hx, h1, h2, h3⟩)
    · rcases List.mem_append.1 h with h | h
      · exact Or.inl (Or.inr ⟨x, h⟩)
      · exact Or.inr (Or.inr ⟨x, h⟩)
  · rintro ((⟨x, pkg, e, hx, h1, h2, h3⟩ | ⟨x, h⟩) | (⟨x, pkg, e, hx, h1, h2, h3⟩ | ⟨x, h⟩))
    · exact Or.inl ⟨x, pkg, e, by rw [List.map_append]; exact List.mem_append_left _ hx, h1, h2, h3⟩
    · exact Or.inr ⟨x, List.mem_append_left _ h⟩
    · exact Or.inl ⟨x, pkg, e, by rw [List.map_append]; exact List.mem_append_right _ hx, h1, h2, h3⟩
    · exact Or.inr ⟨x, List.mem_append_right _ h⟩

theorem Grow.trans {l l' : List Nat} {s s₁ s₂ : St σ} {n₁ n₂ : List (Nat × Option Str)} (h : Grow std heap fn l s s₁ n₁)
    (h' : Grow std heap fn l' s₁ s₂ n₂) : Grow std heap fn (l ++ l') s s₂ (n₁ ++ n₂) := by
  have hids : s₂.ids = s₁.ids ++ n₂.map Prod.fst := by simp [St.ids, h'.calls]
  obtain ⟨e₁, he₁, hm₁⟩ := h.errs
  obtain ⟨e₂, he₂, hm₂⟩ := h'.errs
  constructor
  · rw [h'.calls, h.calls, List.append_assoc]
  · rw [List.map_append, List.nodup_append]
    refine ⟨h.nodup, h'.nodup, ?_⟩
    intro a ha b hb e
    subst e
    exact (h'.fresh a hb).1 (h.fresh a ha).2
  · intro x hx
    rw [List.map_append, List.mem_append] at hx
    rcases hx with hx | hx
    · exact ⟨(h.fresh x hx).1, h'.mono x (h.fresh x hx).2⟩
    · exact ⟨fun hs => (h'.fresh x hx).1 (h.mono x hs), (h'.fresh x hx).2⟩
  · intro x hx
    rw [List.map_append, List.mem_append]
    rcases h'.back x hx with hx | hx
    · rcases h.back x hx with hx | hx
      · exact Or.inl hx
      · exact Or.inr (Or.inl hx)
    · exact Or.inr (Or.inr hx)
  · exact fun x hx => h'.mono x (h.mono x hx)
  · intro x hx
    rw [List.map_append, List.mem_append] at hx
    rcases hx with hx | hx
    · obtain ⟨p, hp, hr⟩ := h.reach x hx; exact ⟨p, List.mem_append_left _ hp, hr⟩
    · obtain ⟨p, hp, hr⟩ := h'.reach x hx; exact ⟨p, List.mem_append_right _ hp, hr⟩
  · intro x hx q hq ho
    rw [List.map_append, List.mem_append] at hx
    rcases hx with hx | hx
    · exact h'.mono q (h.closed x hx q hq ho)
    · exact h'.closed x hx q hq ho
  · intro x hx q hq ho
    rw [List.map_append, List.mem_append] at hx
    rcases hx with hx | hx
    · rcases h.order x hx q hq ho with hb | hr
      · exact Or.inl (by rw [hids]; exact Before.append hb _)
      · exact Or.inr hr
    · exact h'.order x hx q hq ho
  · rw [List.map_append, List.map_append, runScanner_append, h.scn, h'.scn]
  · refine ⟨e₁ ++ e₂, by rw [he₂, he₁, List.append_assoc], ?_⟩
    intro m
    rw [List.mem_append, hm₁, hm₂, ErrFor_append]

/-- Packages being visited: seen, not yet scanned. -/
def Grey (s : St σ) (g : Nat) : Prop := g ∈ s.seen ∧ g ∉ s.ids

theorem Grow.grey {l : List Nat} {s s' : St σ} {n : List (Nat × Option Str)} (h : Grow std heap fn l s s' n) {g : Nat} (hg : Grey s' g) : Grey s g := by
  obtain ⟨h1, h2⟩ := hg
  have hids : s'.ids = s.ids ++ n.map Prod.fst := by simp [St.ids, h.calls]
  rw [hids, List.mem_append, not_or] at h2
  rcases h.back g h1 with h1 | h1
  · exact ⟨h1, h2.1⟩
  · exact absurd h1 h2.2

theorem Grow.widen {l l' : List Nat} {s s' : St σ} {n : List (Nat × Option Str)} (h : Grow std heap fn l s s' n) (hl : ∀ x ∈ l, x ∈ l') :
    Grow std heap fn l' s s' n :=
  { h with reach := fun x hx => by obtain ⟨p, hp, hr⟩ := h.reach x hx; exact ⟨p, hl p hp, hr⟩ }

/-- What visiting one package guarantees. -/
def VisitSpec (std : Str → Bool) (heap : Heap) (fn : Scanner σ) (v : Nat → St σ → Res (St σ)) : Prop :=
  ∀ p s s', v p s = .ok s' → (∀ g, Grey s g → Own std heap p → PkgReach std heap g p) →
    ∃ new, Grow std heap fn [p] s s' new ∧ (Own std heap p → p ∈ s'.seen)

theorem visitAll_grow {v : Nat → St σ → Res (St σ)} (hv : VisitSpec std heap fn v) : ∀ (l : List Nat) (s s' : St σ),
    visitAll v l s = .ok s' → (∀ p ∈ l, ∀ g, Grey s g → Own std heap p → PkgReach std heap g p) →
    ∃ new, Grow std heap fn l s s' new ∧ ∀ p ∈ l, Own std heap p → p ∈ s'.seen := by
  intro l
  induction l with
  | nil => intro s s' h _; cases h; exact ⟨[], Grow.nil s [], by simp⟩
  | cons p l ih =>
    intro s s' h hg
    rw [visitAll] at h
    cases hp : v p s with
    | err e => rw [hp] at h; cases h
    | panic => rw [hp] at h; cases h
    | ok s₁ =>
      rw [hp] at h
      obtain ⟨n₁, g₁, o₁⟩ := hv p s s₁ hp (hg p (by simp))
      obtain ⟨n₂, g₂, o₂⟩ := ih s₁ s' h (fun q hq g hgr => hg q (by simp [hq]) g (g₁.grey hgr))
      refine ⟨n₁ ++ n₂, g₁.trans g₂, ?_⟩
      intro q hq ho
      rcases List.mem_cons.1 hq with rfl | hq
      · exact g₂.mono _ (o₁ ho)
      · exact o₂ q hq ho

theorem visit_grow (hk : ∀ pkg ∈ heap, (pkg.imports.map Prod.fst).Nodup) (n : Nat) : VisitSpec std heap fn (visit std heap fn n) := by
  induction n with
  | zero => intro p s s' h; cases h
  | succ n ih =>
    intro p s s' h hg
    rw [visit] at h
    by_cases hs : p ∈ s.seen
    · rw [if_pos hs] at h; cases h; exact ⟨[], Grow.nil s _, fun _ => hs⟩
    rw [if_neg hs] at h
    cases hh : heap[p]? with
    | none => rw [hh] at h; cases h
    | some pkg =>
      rw [hh] at h
      simp only at h
      by_cases hstd : std pkg.path = true
      · rw [if_pos hstd] at h
        cases h
        refine ⟨[], Grow.nil s _, ?_⟩
        rintro ⟨pkg', h1, h2⟩
        rw [hh] at h1; cases h1; rw [hstd] at h2; cases h2
      rw [if_neg hstd] at h
      have hown : Own std heap p := ⟨pkg, hh, by simpa using hstd⟩
      have hkn := hk pkg (List.mem_of_getElem? hh)
      have himp : ∀ q, q ∈ importIds heap.length pkg ↔ Imports heap p q := by
        intro q
        rw [mem_importIds hkn]
        constructor
        · rintro ⟨k, hm⟩; exact ⟨pkg, k, hh, hm⟩
        · rintro ⟨pkg', k, h1, hm⟩; rw [hh] at h1; cases h1; exact ⟨k, hm⟩
      generalize hs₁ : ({ s with seen := p :: s.seen, errs := s.errs ++ pkg.errors.map wrap } : St σ) = s₁ at h
      have e1 : s₁.seen = p :: s.seen := by rw [← hs₁]
      have e2 : s₁.calls = s.calls := by rw [← hs₁]
      have e3 : s₁.scn = s.scn := by rw [← hs₁]
      have e4 : s₁.errs = s.errs ++ pkg.errors.map wrap := by rw [← hs₁]
      have e5 : s₁.ids = s.ids := by rw [St.ids, e2]
      cases hc : visitAll (visit std heap fn n) (importIds heap.length pkg) s₁ with
      | err e => rw [hc] at h; cases h
      | panic => rw [hc] at h; cases h
      | ok s₂ =>
        rw [hc] at h
        have hgrey : ∀ g, Grey s₁ g → PkgReach std heap g p := by
          intro g hgr
          obtain ⟨h1, h2⟩ := hgr
          rw [e1] at h1
          rw [e5] at h2
          rcases List.mem_cons.1 h1 with rfl | h1
          · exact .refl hown
          · exact hg g ⟨h1, h2⟩ hown
        obtain ⟨nw, G, O⟩ := visitAll_grow ih _ s₁ s₂ hc (by
          intro q hq g hgr ho
          exact (hgrey g hgr).trans (.step hown ((himp q).1 hq) (.refl ho)))
        simp only at h
        cases h
        have hpn : p ∉ nw.map Prod.fst := fun hx => (G.fresh p hx).1 (by rw [e1]; simp)
        have hps : p ∈ s₂.seen := G.mono p (by rw [e1]; simp)
        refine ⟨nw ++ [(p, (fn.scan s₂.scn p).2)], ?_, fun _ => hps⟩
        have hids₂ : s₂.ids = s.ids ++ nw.map Prod.fst := by
          have := G.calls
          simp [St.ids, this, e2]
        have hcl : ∀ q, Imports heap p q → Own std heap q → q ∈ s₂.seen := fun q hq ho => O q ((himp q).2 hq) ho
        have hmem : ∀ x, x ∈ List.map Prod.fst (nw ++ [(p, (fn.scan s₂.scn p).2)]) ↔ x ∈ nw.map Prod.fst ∨ x = p := by
          intro x; simp
        constructor
        · show s₂.calls ++ _ = _
          rw [G.calls, e2, List.append_assoc]
        · rw [List.map_append, List.nodup_append]
          refine ⟨G.nodup, by simp, ?_⟩
          intro a ha b hb e
          simp at hb
          rw [hb] at e; rw [e] at ha
          exact hpn ha
        · intro x hx
          rcases (hmem x).1 hx with hx | rfl
          · have := G.fresh x hx
            rw [e1] at this
            exact ⟨fun h => this.1 (by simp [h]), this.2⟩
          · exact ⟨hs, hps⟩
        · intro x hx
          rcases G.back x hx with h | h
          · rw [e1] at h
            rcases List.mem_cons.1 h with rfl | h
            · exact Or.inr ((hmem _).2 (Or.inr rfl))
            · exact Or.inl h
          · exact Or.inr ((hmem _).2 (Or.inl h))
        · intro x hx; exact G.mono x (by rw [e1]; simp [hx])
        · intro x hx
          refine ⟨p, by simp, ?_⟩
          rcases (hmem x).1 hx with hx | rfl
          · obtain ⟨q, hq, hr⟩ := G.reach x hx
            exact .step hown ((himp q).1 hq) hr
          · exact .refl hown
        · intro x hx q hq ho
          rcases (hmem x).1 hx with hx | rfl
          · exact G.closed x hx q hq ho
          · exact hcl q hq ho
        · intro x hx q hq ho
          have hidf : List.map Prod.fst (s₂.calls ++ [(p, (fn.scan s₂.scn p).2)]) = s₂.ids ++ [p] := by simp [St.ids]
          show Before (List.map Prod.fst (s₂.calls ++ [(p, (fn.scan s₂.scn p).2)])) q x ∨ _
          rw [hidf]
          rcases (hmem x).1 hx with hx | rfl
          · rcases G.order x hx q hq ho with hb | hr
            · exact Or.inl (Before.append hb _)
            · exact Or.inr hr
          · by_cases hqc : q ∈ s₂.ids
            · obtain ⟨a, b, e⟩ := List.append_of_mem hqc
              exact Or.inl ⟨a, b, [], by rw [e]⟩
            · exact Or.inr (hgrey q (G.grey ⟨hcl q hq ho, hqc⟩))
        · rw [List.map_append, runScanner_append]
          have hS := G.scn
          rw [e3] at hS
          rw [hS]
          simp [runScanner]
        · obtain ⟨ne, he, hm⟩ := G.errs
          refine ⟨pkg.errors.map wrap ++ ne ++ ((fn.scan s₂.scn p).2).toList, ?_, ?_⟩
          · show s₂.errs ++ _ = _
            rw [he, e4]; simp
          · intro m
            rw [ErrFor_append, List.mem_append, List.mem_append, hm]
            have : ErrFor heap [(p, (fn.scan s₂.scn p).2)] m ↔ m ∈ pkg.errors.map wrap ∨ m ∈ ((fn.scan s₂.scn p).2).toList := by
              unfold ErrFor
              constructor
              · rintro (⟨x, pkg', e, hx, h1, h2, h3⟩ | ⟨x, hx⟩)
                · simp at hx; subst hx
                  rw [hh] at h1; cases h1
                  exact Or.inl (List.mem_map.2 ⟨e, h2, h3.symm⟩)
                · simp at hx
                  exact Or.inr (by rw [← hx.2]; simp)
              · rintro (hx | hx)
                · obtain ⟨e, he, rfl⟩ := List.mem_map.1 hx
                  exact Or.inl ⟨p, pkg, e, by simp, hh, he, rfl⟩
                · exact Or.inr ⟨p, by rw [Option.mem_toList] at hx; rw [hx]; simp⟩
            rw [this]
            constructor
            · rintro ((h | h) | h)
              · exact Or.inr (Or.inl h)
              · exact Or.inl h
              · exact Or.inr (Or.inr h)
            · rintro (h | h | h)
              · exact Or.inl (Or.inr h)
              · exact Or.inl (Or.inl h)
              · exact Or.inr h

/-! ### Termination -/

theorem nodup_bounded {N : Nat} : ∀ {l : List Nat}, l.Nodup → (∀ x ∈ l, x < N) → l.length ≤ N := by
  induction N with
  | zero =>
    intro l _ hb
    cases l with
    | nil => simp
    | cons x l => exact absurd (hb x (by simp)) (by omega)
  | succ N ih =>
    intro l hn hb
    have h1 := ih (l := l.erase N) (hn.erase N) (by
      intro x hx
      have := (hn.mem_erase_iff).1 hx
      have := hb x this.2
      omega)
    have : (l.erase N).length = if N ∈ l then l.length - 1 else l.length := List.length_erase ..
    split at this <;> omega

/-- `seen` is a set of packages. -/
def SeenOK (heap : Heap) (s : St σ) : Prop := s.seen.Nodup ∧ ∀ x ∈ s.seen, x < heap.length

theorem visitAll_total {v : Nat → St σ → Res (St σ)} {N : Nat}
    (hv : ∀ p s, p < heap.length → SeenOK heap s → N < s.seen.length + 1 → ∃ s', v p s = .ok s' ∧ SeenOK heap s' ∧ s.seen.length ≤ s'.seen.length) :
    ∀ (l : List Nat) (s : St σ), (∀ p ∈ l, p < heap.length) → SeenOK heap s → N < s.seen.length + 1 →
      ∃ s', visitAll v l s = .ok s' ∧ SeenOK heap s' ∧ s.seen.length ≤ s'.seen.length := by
  intro l
  induction l with
  | nil => intro s _ h _; exact ⟨s, rfl, h, Nat.le_refl _⟩
  | cons p l ih =>
    intro s hl hs hn
    obtain ⟨s₁, h1, h2, h3⟩ := hv p s (hl p (by simp)) hs hn
    obtain ⟨s₂, h4, h5, h6⟩ := ih s₁ (fun q hq => hl q (by simp [hq])) h2 (by omega)
    exact ⟨s₂, by rw [visitAll, h1]; exact h4, h5, by omega⟩

theorem visit_total (hk : ∀ pkg ∈ heap, (pkg.imports.map Prod.fst).Nodup) (hi : ∀ p q, Imports heap p q → q < heap.length) :
    ∀ (n : Nat) (p : Nat) (s : St σ), p < heap.length → SeenOK heap s → heap.length < n + s.seen.length →
      ∃ s', visit std heap fn n p s = .ok s' ∧ SeenOK heap s' ∧ s.seen.length ≤ s'.seen.length := by
  intro n
  induction n with
  | zero =>
    intro p s hp hs hn
    have := nodup_bounded hs.1 hs.2
    omega
  | succ n ih =>
    intro p s hp hs hn
    rw [visit]
    by_cases hin : p ∈ s.seen
    · rw [if_pos hin]; exact ⟨s, rfl, hs, Nat.le_refl _⟩
    rw [if_neg hin]
    rw [List.getElem?_eq_getElem hp]
    simp only
    by_cases hstd : std (heap[p]).path = true
    · rw [if_pos hstd]; exact ⟨s, rfl, hs, Nat.le_refl _⟩
    rw [if_neg hstd]
    have hkn := hk (heap[p]) (List.getElem_mem hp)
    obtain ⟨s₂, h1, h2, h3⟩ := visitAll_total (heap := heap) (v := visit std heap fn n) (N := heap.length + 1 - n)
      (by intro q t hq ht hlt; exact ih q t hq ht (by omega))
      (importIds heap.length heap[p]) { s with seen := p :: s.seen, errs := s.errs ++ heap[p].errors.map wrap }
      (by
        intro q hq
        obtain ⟨k, hm⟩ := (mem_importIds hkn).1 hq
        exact hi p q ⟨heap[p], k, List.getElem?_eq_getElem hp, hm⟩)
      ⟨by show (p :: s.seen).Nodup; rw [List.nodup_cons]; exact ⟨hin, hs.1⟩, by
        intro x hx
        rcases List.mem_cons.1 hx with rfl | hx
        · exact hp
        · exact hs.2 x hx⟩
      (by show _ < (p :: s.seen).length + 1; simp; omega)
    rw [h1]
    refine ⟨_, rfl, h2, ?_⟩
    have : (p :: s.seen).length ≤ s₂.seen.length := h3
    simp at this
    show s.seen.length ≤ s₂.seen.length
    omega

/-! ### Iteration order -/

theorem visitAll_congr {v w : Nat → St σ → Res (St σ)} (h : ∀ p s, v p s = w p s) (l : List Nat) (s : St σ) : visitAll v l s = visitAll w l s := by
  have : v = w := funext fun p => funext fun s => h p s
  rw [this]

theorem visit_congr {heap' : Heap} (hk : ∀ pkg ∈ heap, (pkg.imports.map Prod.fst).Nodup) (hs : SameGraph heap heap') :
    ∀ (n p : Nat) (s : St σ), visit std heap fn n p s = visit std heap' fn n p s := by
  intro n
  induction n with
  | zero => intro p s; rfl
  | succ n ih =>
    intro p s
    rw [visit, visit]
    by_cases hin : p ∈ s.seen
    · rw [if_pos hin, if_pos hin]
    rw [if_neg hin, if_neg hin]
    by_cases hp : p < heap.length
    · have hp' : p < heap'.length := by rw [← hs.1]; exact hp
      have hx := List.getElem?_eq_getElem hp
      have hy := List.getElem?_eq_getElem hp'
      rw [hx, hy]
      obtain ⟨h1, h2, h3⟩ := hs.2 p _ _ hx hy
      simp only
      rw [← h1, ← h2, ← hs.1, ← importIds_congr (hk _ (List.getElem_mem hp)) h3, visitAll_congr ih]
    · rw [List.getElem?_eq_none (by omega), List.getElem?_eq_none (by rw [← hs.1]; omega)]

theorem scan_ok {pkgs : List Nat} (hg : GraphOK heap pkgs) (σ₀ : σ) :
    ∃ s, visitAll (visit std heap fn (heap.length + 1)) pkgs { scn := σ₀ } = .ok s := by
  obtain ⟨s, h, _, _⟩ := visitAll_total (heap := heap) (v := visit std heap fn (heap.length + 1)) (N := 0)
    (by intro p s hp hs _; exact visit_total hg.keys hg.imports _ p s hp hs (by omega)) pkgs { scn := σ₀ } hg.roots
    ⟨by simp, by simp⟩ (by simp)
  exact ⟨s, h⟩

theorem scan_grow {pkgs : List Nat} (hk : ∀ pkg ∈ heap, (pkg.imports.map Prod.fst).Nodup) {σ₀ : σ} {s : St σ}
    (h : visitAll (visit std heap fn (heap.length + 1)) pkgs { scn := σ₀ } = .ok s) :
    Grow std heap fn pkgs { scn := σ₀ } s s.calls ∧ ∀ p ∈ pkgs, Own std heap p → p ∈ s.seen := by
  obtain ⟨new, G, O⟩ := visitAll_grow (visit_grow hk _) pkgs _ s h (by
    intro p _ g hg _
    have := hg.1
    simp at this)
  have : s.calls = new := by have := G.calls; simpa using this
  rw [this]
  exact ⟨G, O⟩

theorem mem_joinWith (sep : Str) {l : List Str} {x : Str} (h : x ∈ l) : ∃ a b, joinWith sep l = a ++ x ++ b := by
  induction l with
  | nil => cases h
  | cons y l ih =>
    cases l with
    | nil =>
      rcases List.mem_cons.1 h with rfl | h
      · exact ⟨[], [], by simp [joinWith]⟩
      · cases h
    | cons z l =>
      rw [joinWith]
      rcases List.mem_cons.1 h with rfl | h
      · exact ⟨[], sep ++ joinWith sep (z :: l), by simp⟩
      · obtain ⟨a, b, e⟩ := ih h
        exact ⟨y ++ sep ++ a, b, by rw [e]; simp⟩

end Oapi.Pkgs
