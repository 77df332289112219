import Verif.Proofs.Det5
import Verif.Props.Defaults

/-! The document that default operations are applied to, and its references afterwards. -/
namespace Oapi.Resolver
open Spec

/-- What the resolved document has under `paths`. -/
structure PathsLike (c r : Json) : Prop where
  items : PathItemsOk r
  ops : ∀ P M a, opAt r P M = some a → ∃ b, opAt c P M = some b ∧ (b = .null → a = .null) ∧ ((∃ m, b = .obj m) → ∃ m, a = .obj m)

theorem resolved_paths {cfg : Cfg} {c r : Json} {n : Nat} (hg : GoodCfg cfg c) (ht : Tidy c) (hc : CanReceive cfg c) (hb : NotBare c)
    (hitems : PathItemsOk c) (hplain : ∀ P x p, ¬ RefAt c [.key b!"paths", .key P] x p)
    (h : resolve cfg n c = .ok r) : PathsLike c r ∧ Json.WF r := by
  obtain ⟨D, T, rfl, h2, h3, h4⟩ := resolve_ok hg ht hc h
  have hstore := Store.add h3.entries h4
  have hget : ∀ B : Loc, getAt (addComponents T D) (.key b!"paths" :: B) = getAt D (.key b!"paths" :: B) := fun B =>
    getAt_addComponents h3.entries (fun e _ => ⟨by
      rintro ⟨s, hs⟩
      simp [compLoc] at hs, by
      rintro ⟨s, hs⟩
      simp [compLoc] at hs⟩) h4
  refine ⟨?_, hstore.1⟩
  cases h2 with
  | mk σ d v hother hexp hcyc hres hrec =>
    have n0 : σ [] = none := hother [] hb
    have n1 : σ [.key b!"paths"] = none := by
      apply hother
      intro x p hr
      have := ht.single _ _ _ hr
      have hs : section_ c b!"paths" = some (refObj x) := by
        obtain ⟨m, rfl⟩ := ht.isObj
        simp only [getAt, child] at this
        simp only [section_, child]
        revert this
        cases Obj.lookup b!"paths" m <;> simp
      rcases hitems with hm | ⟨ps, h1, h2⟩
      · rcases hm with hm | hm <;> rw [hs] at hm <;> cases hm
      · rw [hs] at h1
        cases h1
        rcases h2 refKey (.str x) (by simp [Obj.lookup]) with h | ⟨m, h⟩ <;> cases h
    have n2 : ∀ P, σ [.key b!"paths", .key P] = none := fun P => hother _ (hplain P)
    have e1 : getAt (addComponents T (subst σ c)) [.key b!"paths"] = (getAt c [.key b!"paths"]).map (subst fun l => σ ([.key b!"paths"] ++ l)) := by
      rw [hget, getAt_subst]
      intro p hp hne
      obtain ⟨s, hs⟩ := hp
      cases p with
      | nil => exact n0
      | cons a p =>
        cases p with
        | nil => simp only [List.cons_append, List.nil_append, List.cons.injEq] at hs; obtain ⟨rfl, _⟩ := hs; exact absurd rfl hne
        | cons b p => simp at hs
    have e3 : ∀ P M, opAt (addComponents T (subst σ c)) P M = (opAt c P M).map (subst fun l => σ ([.key b!"paths", .key P, .key M] ++ l)) := by
      intro P M
      unfold opAt
      rw [hget, getAt_subst]
      intro p hp hne
      obtain ⟨s, hs⟩ := hp
      match p, hs, hne with
      | [], _, _ => exact n0
      | [a], hs, _ => simp only [List.cons_append, List.nil_append, List.cons.injEq] at hs; obtain ⟨rfl, _⟩ := hs; exact n1
      | [a, b], hs, _ => simp only [List.cons_append, List.nil_append, List.cons.injEq] at hs; obtain ⟨rfl, rfl, _⟩ := hs; exact n2 P
      | [a, b, e], hs, hne => simp only [List.cons_append, List.nil_append, List.cons.injEq] at hs; obtain ⟨rfl, rfl, rfl, _⟩ := hs; exact absurd rfl hne
      | a :: b :: e :: f :: p, hs, _ => simp at hs
    have sec : ∀ j : Json, getAt j [.key b!"paths"] = section_ j b!"paths" := by
      intro j
      simp only [getAt, section_]
      cases child j (.key b!"paths") <;> rfl
    refine ⟨?_, ?_⟩
    · rw [sec, sec] at e1
      rcases hitems with hm | ⟨ps, h1, h2⟩
      · rcases hm with hm | hm
        · exact .inl (.inl (by rw [e1, hm]; rfl))
        · refine .inl (.inr ?_)
          rw [e1, hm]
          simp [subst, n1]
      · refine .inr ⟨substO (fun l => σ ([.key b!"paths"] ++ l)) ps, ?_, ?_⟩
        · rw [e1, h1, Option.map_some, subst_obj (by simpa using n1)]
        · intro P w hw
          rw [lookup_substO] at hw
          cases hq : Obj.lookup P ps with
          | none => rw [hq] at hw; cases hw
          | some u =>
            rw [hq] at hw
            simp only [Option.map_some, Option.some.injEq] at hw
            have n2' := n2 P
            rcases h2 P u hq with rfl | ⟨m, rfl⟩
            · left; rw [← hw]; simp [subst, n2']
            · right; rw [← hw, subst_obj (by simpa using n2')]; exact ⟨_, rfl⟩
    · intro P M a ha
      rw [e3] at ha
      cases hq : opAt c P M with
      | none => rw [hq] at ha; cases ha
      | some b =>
        rw [hq] at ha
        simp only [Option.map_some, Option.some.injEq] at ha
        refine ⟨b, rfl, ?_, ?_⟩
        · rintro rfl
          rw [← ha]
          have : σ [.key b!"paths", .key P, .key M] = none := hother _ (by
            intro x p hr
            have := ht.single _ _ _ hr
            rw [show getAt c [.key b!"paths", .key P, .key M] = some .null from hq] at this
            cases this)
          simp [subst, this]
        · rintro ⟨m, rfl⟩
          rw [← ha]
          by_cases hr : ∃ x p, RefAt c [.key b!"paths", .key P, .key M] x p
          · obtain ⟨x, p, hr⟩ := hr
            cases hge : get cfg.exp p with
            | some e =>
              have := hexp _ x p e hr hge (fun hm => by cases hm)
              exact ⟨_, subst_some (v := refObj (localText e)) (by simpa using this) _⟩
            | none =>
              have := hres _ x p hr (by simp) hge
              have hd := (hg.docs p _ (.doc hr) this.1).isObj
              obtain ⟨m', hm'⟩ := (hrec _ x p hr (by simp) hge).isObj hd
              rw [subst_some (v := v [.key b!"paths", .key P, .key M]) (by simpa [mkRepl] using this.2)]
              exact ⟨m', hm'⟩
          · have : σ [.key b!"paths", .key P, .key M] = none := hother _ (fun x p h => hr ⟨x, p, h⟩)
            exact ⟨_, subst_obj (by simpa using this) m⟩

end Oapi.Resolver

namespace Oapi
open Spec Container OAPI

/-- The way to a value that is not an object leads through keys to a leaf. -/
theorem leaf_path : ∀ (L : Loc) (j : Json) {v : Json}, getAt j L = some v → (∀ m, v ≠ .obj m) →
    ∃ p rest w, L = keyLoc p ++ rest ∧ nodeAt j p = some (.leaf w) ∧ getAt w rest = some v
  | L, j, v, h, hv => by
    rcases isObj_cases j with hj | ⟨m, rfl⟩
    · exact ⟨[], L, j, rfl, nodeAt_leaf hj, h⟩
    · match L, h with
      | [], h => cases h; exact absurd rfl (hv m)
      | .idx n :: L, h => simp [getAt, child] at h
      | .key k :: L, h =>
        simp only [getAt, child] at h
        cases hl : Obj.lookup k m with
        | none => rw [hl] at h; cases h
        | some c =>
          rw [hl] at h
          obtain ⟨p, rest, w, rfl, h2, h3⟩ := leaf_path L c h hv
          refine ⟨k :: p, rest, w, rfl, ?_, h3⟩
          rw [nodeAt_obj_cons, hl]
          exact h2

theorem getAt_leaf : ∀ (p : List Str) (j : Json) {w : Json}, nodeAt j p = some (.leaf w) → getAt j (keyLoc p) = some w
  | [], j, w, h => by
    rcases isObj_cases j with hj | ⟨m, rfl⟩
    · rw [nodeAt_leaf hj] at h; cases h; rfl
    · cases h
  | k :: p, j, w, h => by
    cases j with
    | obj m =>
      rw [nodeAt_obj_cons] at h
      simp only [List.map_cons, getAt, child]
      cases hl : Obj.lookup k m with
      | none => rw [hl] at h; cases h
      | some c => rw [hl] at h; exact getAt_leaf p c h
    | _ => cases h

/-- Filling gaps invents no reference. -/
theorem fills_refs {a b r : Json} (h : Fills a b r) {x : Str} (hx : HasRef r x) : HasRef a x ∨ HasRef b x := by
  obtain ⟨L, hL⟩ := hx
  obtain ⟨p, rest, w, h1, h2, h3⟩ := leaf_path _ _ hL (by simp)
  obtain ⟨f1, f2, f3⟩ := h p
  have key : ∀ j, nodeAt j p = some (.leaf w) → HasRef j x := by
    intro j hj
    refine ⟨L, ?_⟩
    rw [h1, getAt_append, getAt_leaf p j hj]
    exact h3
  cases ha : nodeAt a p with
  | some n =>
    have := f1 n ha
    rw [h2] at this
    cases this
    exact .inl (key a ha)
  | none =>
    by_cases hs : Shadowed a p
    · rw [f2 ha hs] at h2; cases h2
    · rw [f3 ha hs] at h2
      exact .inr (key b h2)

theorem fillsAll_refs {a r : Json} {ds : List Json} (h : FillsAll a ds r) {x : Str} (hx : HasRef r x) : HasRef a x ∨ ∃ d ∈ ds, HasRef d x := by
  induction h with
  | nil a => exact .inl hx
  | cons h1 _ _ ih =>
    rcases ih hx with h | ⟨d, hd, h⟩
    · rcases fills_refs h1 h with h | h
      · exact .inl h
      · exact .inr ⟨_, by simp, h⟩
    · exact .inr ⟨d, by simp [hd], h⟩

theorem opOutcome_refs {a b : Json} {ds : List Json} (h : OpOutcome ds a b) {x : Str} (hx : HasRef b x) : HasRef a x ∨ ∃ d ∈ ds, HasRef d x := by
  rcases h with ⟨_, rfl⟩ | ⟨_, ha, h⟩
  · exact .inl hx
  · rcases fillsAll_refs h hx with h | h
    · rcases ha with rfl | ⟨m, rfl⟩
      · obtain ⟨L, hL⟩ := h
        have : getAt (.obj []) (L ++ [.key refKey]) = none := Resolver.getAt_empty
        rw [show members (some .null) = .obj [] from rfl, this] at hL
        cases hL
      · exact .inl h
    · exact .inr h

theorem fillsAll_obj {a r : Json} {ds : List Json} (h : FillsAll a ds r) : (∃ m, a = .obj m) → ∃ m, r = .obj m := by
  induction h with
  | nil a => exact id
  | cons h1 _ _ ih =>
    rintro ⟨m, rfl⟩
    apply ih
    have := (h1 []).1 .obj rfl
    rename_i b _ _ _ _
    cases b <;> first | exact ⟨_, rfl⟩ | cases this

theorem opOutcome_str {ds : List Json} {a : Json} {x : Str} (h : OpOutcome ds a (.str x)) : a = .str x := by
  rcases h with ⟨_, h⟩ | ⟨_, _, h⟩
  · exact h.symm
  · obtain ⟨m, hm⟩ := fillsAll_obj h (by unfold members; split <;> exact ⟨_, rfl⟩)
    cases hm

/-- Where the references of a document with changed operations come from. -/
theorem opsRelated_refs {R : Str → Str → Json → Json → Prop} {c out : Obj} (h : OpsRelated R (.obj c) (.obj out)) {x : Str}
    (hR : ∀ P M a, R P M a (.str x) → a = .str x) (hx : HasRef (.obj out) x) :
    HasRef (.obj c) x ∨ ∃ P M a b, opAt (.obj c) P M = some a ∧ R P M a b ∧ HasRef b x := by
  obtain ⟨hs, hp⟩ := h
  obtain ⟨L, hL⟩ := hx
  have same : ∀ (k : Str) (B : Loc), L ++ [.key refKey] = .key k :: B → section_ (.obj out) k = section_ (.obj c) k → HasRef (.obj c) x := by
    intro k B e hk
    refine ⟨L, ?_⟩
    rw [e] at hL ⊢
    simp only [getAt, section_] at hL hk ⊢
    rw [← hk]
    exact hL
  cases L with
  | nil => exact .inl (same refKey [] rfl (hs _ (by decide)))
  | cons s L =>
    cases s with
    | idx n => simp [getAt, child] at hL
    | key k =>
      by_cases hk : k = b!"paths"
      · subst hk
        rcases PathsRel_cases hp with ⟨ps, ps', e1, e2, hit⟩ | ⟨_, e⟩
        · have hL' : getAt (.obj ps') (L ++ [.key refKey]) = some (.str x) := by
            simp only [List.cons_append, getAt] at hL
            rw [show child (.obj out) (.key b!"paths") = some (.obj ps') from e2] at hL
            exact hL
          have back : ∀ L : Loc, getAt (.obj ps) (L ++ [.key refKey]) = some (.str x) → HasRef (.obj c) x := by
            intro L hg
            refine ⟨.key b!"paths" :: L, ?_⟩
            simp only [List.cons_append, getAt]
            rw [show child (.obj c) (.key b!"paths") = some (.obj ps) from e1]
            exact hg
          have itemSame : ∀ (P : Str) (B : Loc), L ++ [.key refKey] = .key P :: B → Obj.lookup P ps = Obj.lookup P ps' → HasRef (.obj c) x := by
            intro P B e hP
            refine back L ?_
            rw [e] at hL' ⊢
            simp only [getAt, child] at hL' ⊢
            rw [hP]
            exact hL'
          cases L with
          | nil =>
            left
            rcases ItemRel_cases (hit refKey) with ⟨a, b, e1', e2', _⟩ | ⟨_, e'⟩
            · simp [getAt, child, e2'] at hL'
            · exact itemSame refKey [] rfl e'
          | cons s L =>
            cases s with
            | idx n => simp [getAt, child] at hL'
            | key P =>
              rcases ItemRel_cases (hit P) with ⟨it, it', e1', e2', hm⟩ | ⟨_, e'⟩
              · have hL2 : getAt (.obj it') (L ++ [.key refKey]) = some (.str x) := by
                  simp only [List.cons_append, getAt, child, e2'] at hL'
                  exact hL'
                have mem : ∀ (M : Str) (B : Loc), L ++ [.key refKey] = .key M :: B → (∃ b, Obj.lookup M it' = some b ∧ getAt b B = some (.str x)) ∧
                    ∀ b, Obj.lookup M it' = some b → ∃ a, opAt (.obj c) P M = some a ∧ R P M a b := by
                  intro M B e
                  rw [e] at hL2
                  simp only [getAt, child] at hL2
                  have hmm := hm M
                  refine ⟨?_, ?_⟩
                  · cases hb : Obj.lookup M it' with
                    | none => rw [hb] at hL2; cases hL2
                    | some b => rw [hb] at hL2; exact ⟨b, rfl, hL2⟩
                  · intro b hb
                    rw [hb] at hmm
                    cases ha : Obj.lookup M it with
                    | none => rw [ha] at hmm; exact hmm.elim
                    | some a =>
                      rw [ha] at hmm
                      refine ⟨a, ?_, hmm⟩
                      rw [OAPI.opAt_eq M e1 e1', ha]
                cases L with
                | nil =>
                  obtain ⟨⟨b, hb, hbx⟩, k⟩ := mem refKey [] rfl
                  obtain ⟨a, ha, hab⟩ := k b hb
                  cases hbx
                  rw [hR _ _ _ hab] at ha
                  exact .inl ⟨[.key b!"paths", .key P], ha⟩
                | cons s L =>
                  cases s with
                  | idx n => simp [getAt, child] at hL2
                  | key M =>
                    obtain ⟨⟨b, hb, hbx⟩, k⟩ := mem M _ rfl
                    obtain ⟨a, ha, hab⟩ := k b hb
                    exact .inr ⟨P, M, a, b, ha, hab, L, hbx⟩
              · exact .inl (itemSame P _ rfl e')
        · exact .inl (same _ _ rfl e.symm)
      · exact .inl (same k _ rfl (hs k hk))

end Oapi
