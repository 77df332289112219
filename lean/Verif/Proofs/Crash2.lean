import Verif.Proofs.Crash1
import Verif.Proofs.PrepText
import Verif.Props.Prepare
import Verif.Spec.Crash

/-! When a scan panics (C99). -/
namespace Oapi.Container

theorem gabsSet_np (v : Json) (p : List Str) (j : Json) : Gabs.set v p j ≠ .panic := by
  unfold Gabs.set
  split
  · simp
  · exact Gabs.setGo_no_panic _ _ _ _

theorem collide_np {f : Merger} (hf : ∀ a b, f a b ≠ .panic) (c : Json) (p : List Str) (e v : Json) : collide f c p e v ≠ .panic := by
  intro h
  unfold collide at h
  split at h
  · exact gabsSet_np _ _ _ h
  · cases h
  · rename_i hp; exact hf _ _ hp

mutual
theorem mergeMap_np {f : Merger} (hf : ∀ a b, f a b ≠ .panic) (c : Json) (path : List Str) (kvs : List (Str × Json)) :
    mergeMap f c path kvs ≠ .panic := by
  match kvs with
  | [] => simp [mergeMap]
  | (key, value) :: t =>
    intro h
    simp only [mergeMap] at h
    split at h
    · exact mergeMap_np hf _ path t h
    · cases h
    · rename_i hp; exact mergeOne_np hf c _ value hp
termination_by structural kvs
theorem mergeOne_np {f : Merger} (hf : ∀ a b, f a b ≠ .panic) (c : Json) (p : List Str) (value : Json) : mergeOne f c p value ≠ .panic := by
  match value with
  | .obj t =>
    intro h
    simp only [mergeOne] at h
    split at h
    · exact gabsSet_np _ _ _ h
    · split at h
      · exact mergeMap_np hf c p t h
      · exact collide_np hf _ _ _ _ h
  | .arr _ | .str _ | .num _ | .bool _ | .null =>
    intro h
    simp only [mergeOne] at h
    split at h
    · exact gabsSet_np _ _ _ h
    · exact collide_np hf _ _ _ _ h
termination_by structural value
end

theorem merge_np {f : Merger} (hf : ∀ a b, f a b ≠ .panic) (c s : Json) : merge c s f ≠ .panic := by
  unfold merge
  split
  · exact mergeMap_np hf _ _ _
  · simp

end Oapi.Container

namespace Oapi.OAPI
open Container

theorem pathsGo_np : ∀ (m : Obj), pathsGo m ≠ .panic
  | [] => by simp [pathsGo]
  | (P, item) :: t => by
    intro h
    unfold pathsGo at h
    split at h
    · split at h
      · cases h
      · cases h
      · rename_i hp; exact pathsGo_np t hp
    · cases h
    · rename_i hp; unfold childrenMap at hp; split at hp <;> cases hp

theorem paths_np (c : Json) : paths c ≠ .panic := by
  intro h
  unfold paths at h
  split at h
  · exact pathsGo_np _ h
  · cases h
  · rename_i hp; unfold childrenMap at hp; split at hp <;> cases hp

theorem matching_np {mt : Str → Str → Str → Res Bool} (hm : ∀ a b c, mt a b c ≠ .panic) (pat : Str) : ∀ (l : List Op) (i : Nat), matching mt pat i l ≠ .panic
  | [], _ => by simp [matching]
  | o :: t, i => by
    intro h
    unfold matching at h
    split at h
    · split at h
      · cases h
      · cases h
      · rename_i hp; exact matching_np hm pat t _ hp
    · cases h
    · rename_i hp; exact hm _ _ _ hp

theorem applyAt_np (ov : Json) (st : St) (i : Nat) : applyAt ov st i ≠ .panic := by
  intro h
  unfold applyAt at h
  split at h
  · cases h
  · split at h
    · split at h
      · split at h
        · cases h
        · cases h
        · rename_i hp; exact Props.C13_setP_no_panic _ _ _ hp
      · cases h
      · rename_i hp
        split at hp
        · exact gabsSet_np _ _ _ hp
        · cases hp
    · cases h
    · rename_i hp; exact merge_np (by simp [mergeDefault]) _ _ hp

theorem applyAll_np (ov : Json) : ∀ (l : List Nat) (st : St), applyAll ov l st ≠ .panic
  | [], _ => by simp [applyAll]
  | i :: t, st => by
    intro h
    unfold applyAll at h
    split at h
    · exact applyAll_np ov t _ h
    · cases h
    · rename_i hp; exact applyAt_np _ _ _ hp

theorem applyDefaults_np {mt : Str → Str → Str → Res Bool} (hm : ∀ a b c, mt a b c ≠ .panic) : ∀ (l : List (Str × Json)) (st : St),
    applyDefaults mt l st ≠ .panic
  | [], _ => by simp [applyDefaults]
  | (pat, ov) :: t, st => by
    intro h
    unfold applyDefaults at h
    split at h
    · split at h
      · exact applyDefaults_np hm t _ h
      · cases h
      · rename_i hp; exact applyAll_np _ _ _ hp
    · cases h
    · rename_i hp; exact matching_np hm _ _ _ hp

theorem runDefaults_np {mt : Str → Str → Str → Res Bool} (hm : ∀ a b c, mt a b c ≠ .panic) (c : Json) (ops : List Op) (d : List (Str × Json)) :
    runDefaults mt c ops d ≠ .panic := by
  intro h
  unfold runDefaults at h
  split at h
  · cases h
  · cases h
  · rename_i hp; exact applyDefaults_np hm _ _ hp

open Spec

theorem holds_not_fails {R : Rule} {z y s : Json} (h : R.holds z y s) : ¬ R.fails z y := by
  cases R with
  | disjoint => exact h.1
  | docWins => exact id
  | rootWins => exact id

theorem sectionOut_not_fails {R : Rule} {z y z' : Option Json} (h : SectionOut R z y z') : ¬ R.fails (members z) (members y) := by
  rcases h with ⟨h1, h2, _⟩ | ⟨_, s, _, h⟩
  · cases R with
    | disjoint =>
      intro hc
      rcases h1 with rfl | rfl <;> rcases h2 with rfl | rfl <;> exact Container.not_collide_empty [] hc
    | docWins => exact id
    | rootWins => exact id
  · exact holds_not_fails h

/-- The sections before the first one that is neither an object, a list, null nor missing are merged; that one crashes. -/
theorem mergeSections_panic {L : List Entry} (hL : Table L) {c r : Obj} (hc : Json.WF (.obj c)) (hr : Json.WF (.obj r))
    (hy : ∀ e ∈ L, Composite (Obj.lookup e.key r)) :
    mergeSections (.obj r) (L.map fun e => (e.key, e.f)) (.obj c) = .panic ↔
    ∃ L₁ e L₂, L = L₁ ++ e :: L₂ ∧ ¬ Composite (Obj.lookup e.key c) ∧ ∀ x ∈ L₁, Composite (Obj.lookup x.key c) ∧
      ¬ x.R.fails (members (Obj.lookup x.key c)) (members (Obj.lookup x.key r)) := by
  induction L generalizing c with
  | nil => simp [mergeSections]
  | cons e t ih =>
    have hnd : e.key ∉ t.map Entry.key := by
      have := hL.nodup; simp only [List.map_cons, List.nodup_cons] at this; exact this.1
    have hne : ∀ x ∈ t, x.key ≠ e.key := fun x hx h => hnd (List.mem_map.2 ⟨x, hx, h⟩)
    simp only [List.map_cons, mergeSections]
    by_cases hcz : Composite (Obj.lookup e.key c)
    · rcases mergeSection_spec (hL.impl e (by simp)) hc hr (hL.nodot e (by simp)).1 (hL.nodot e (by simp)).2
        hcz (hy e (by simp)) with ⟨c', h1, h2, h3, h4⟩ | ⟨h1, h2⟩
      · rw [h1]
        simp only
        rw [ih hL.tail h2 (fun x hx => hy x (by simp [hx]))]
        constructor
        · rintro ⟨L₁, x, L₂, rfl, h5, h6⟩
          refine ⟨e :: L₁, x, L₂, rfl, by rw [← h3 _ (hne x (by simp))]; exact h5, ?_⟩
          intro y hy'
          rcases List.mem_cons.1 hy' with rfl | hy'
          · exact ⟨hcz, sectionOut_not_fails h4⟩
          · have := h6 y hy'
            rwa [h3 _ (hne y (by simp [hy']))] at this
        · rintro ⟨L₁, x, L₂, e1, h5, h6⟩
          cases L₁ with
          | nil => cases e1; exact absurd hcz h5
          | cons y L₁ =>
            cases e1
            refine ⟨L₁, x, L₂, rfl, by rw [h3 _ (hne x (by simp))]; exact h5, ?_⟩
            intro y hy'
            rw [h3 _ (hne y (by simp [hy']))]
            exact h6 y (by simp [hy'])
      · rw [h1]
        simp only
        constructor
        · intro h; cases h
        · rintro ⟨L₁, x, L₂, e1, h5, h6⟩
          cases L₁ with
          | nil => cases e1; exact absurd hcz h5
          | cons y L₁ => cases e1; exact absurd h2 (h6 e (by simp)).2
    · have : mergeSection (.obj r) (.obj c) e.key e.f = .panic := by
        unfold mergeSection
        rw [path_key (hL.nodot e (by simp)).1 (hL.nodot e (by simp)).2]
        unfold bothNil
        rw [isNil_scalar hcz]
      rw [this]
      simp only [true_iff]
      exact ⟨[], e, t, rfl, hcz, by simp⟩

theorem split_or {α : Type} {P : α → Prop} : ∀ (l : List α), (∃ x ∈ l, P x) → ∃ a x b, l = a ++ x :: b ∧ P x ∧ ∀ y ∈ a, ¬ P y
  | [], h => by obtain ⟨_, h, _⟩ := h; cases h
  | x :: t, h => by
    by_cases hx : P x
    · exact ⟨[], x, t, rfl, hx, by simp⟩
    · obtain ⟨y, hy, hp⟩ := h
      rcases List.mem_cons.1 hy with rfl | hy
      · exact absurd hp hx
      · obtain ⟨a, z, b, e, h1, h2⟩ := split_or t ⟨y, hy, hp⟩
        refine ⟨x :: a, z, b, by rw [e]; rfl, h1, ?_⟩
        intro w hw
        rcases List.mem_cons.1 hw with rfl | hw
        · exact hx
        · exact h2 w hw

theorem mergeWithRoot_panic {c r : Obj} (hc : Json.WF (.obj c)) (hr : Json.WF (.obj r))
    (hz : ∀ k R, (k, R) ∈ ruleOf → Composite (section_ (.obj r) k)) :
    mergeWithRoot (.obj r) (.obj c) = .panic ↔ (∃ k R, (k, R) ∈ ruleOf ∧ ¬ Composite (section_ (.obj c) k)) ∧
      (Composite (section_ (.obj c) b!"info") →
        ¬ Collide (members (section_ (.obj c) b!"components")) (members (section_ (.obj r) b!"components"))) := by
  have hp := mergeSections_panic table_ok hc hr (fun e he => hz e.key e.R (mem_ruleOf.2 ⟨e, he, rfl, rfl⟩))
  rw [show mergeWithRoot (.obj r) (.obj c) = mergeSections (.obj r) (table.map fun e => (e.key, e.f)) (.obj c) from rfl, hp]
  have hmem : ∀ {v : Option Json}, ¬ Composite v → ∀ w, ¬ Collide (members v) (members w) := by
    intro v hv w
    have : members v = .obj [] := by
      cases v with
      | none => rfl
      | some x =>
        cases x with
        | obj m => exact absurd (.inr ⟨_, rfl, .inr rfl⟩) hv
        | _ => rfl
    rw [this]
    obtain ⟨m, hm⟩ := members_isObj w
    rw [hm]
    intro h
    exact Container.not_collide_empty m h
  constructor
  · rintro ⟨L₁, e, L₂, e1, h1, h2⟩
    refine ⟨⟨e.key, e.R, mem_ruleOf.2 ⟨e, by rw [e1]; simp, rfl, rfl⟩, h1⟩, ?_⟩
    intro hi
    match L₁, e1 with
    | [], e1 => cases e1; exact absurd hi h1
    | [a], e1 => cases e1; exact hmem h1 _
    | a :: b :: L₁, e1 =>
      have : b = ⟨b!"components", mergeStrict, .disjoint⟩ := by
        simp only [table, List.cons_append, List.cons.injEq] at e1
        exact e1.2.1.symm
      subst this
      exact (h2 ⟨b!"components", mergeStrict, .disjoint⟩ (by simp)).2
  · rintro ⟨⟨k, R, hk, hnc⟩, h2⟩
    obtain ⟨e, he, rfl, rfl⟩ := mem_ruleOf.1 hk
    obtain ⟨a, x, b, e1, h3, h4⟩ := split_or (P := fun e : Entry => ¬ Composite (Obj.lookup e.key c)) table ⟨e, he, hnc⟩
    refine ⟨a, x, b, e1, h3, ?_⟩
    intro y hy
    have hyc : Composite (Obj.lookup y.key c) := Classical.not_not.1 (h4 y hy)
    refine ⟨hyc, ?_⟩
    have hyt : y ∈ table := by rw [e1]; simp [hy]
    simp only [table, List.mem_cons, List.not_mem_nil, or_false] at hyt
    rcases hyt with rfl | rfl | rfl | rfl | rfl | rfl | rfl
    all_goals first | exact id | skip
    refine h2 ?_
    match a, e1, hy with
    | i :: a, e1, hy =>
      have : i = ⟨b!"info", mergeOverride, .rootWins⟩ := by
        simp only [table, List.cons_append, List.cons.injEq] at e1
        exact e1.1.symm
      subst this
      exact Classical.not_not.1 (h4 ⟨b!"info", mergeOverride, .rootWins⟩ (by simp))

end Oapi.OAPI
