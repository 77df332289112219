import Verif.Proofs.Prep4

/-! Where the scalars of the prepared document come from (C77, C79). -/
namespace Oapi.Scan
open Spec Container Types

theorem lookup_mapRefsO_back (f : Str → Str) {k : Str} {w : Json} : ∀ {m : List (Str × Json)}, Obj.lookup k (mapRefsO f m) = some w →
    ∃ v, Obj.lookup k m = some v ∧ ((∃ x, v = .str x ∧ w = .str (if k = refKey then f x else x)) ∨ ((∀ x, v ≠ .str x) ∧ w = mapRefs f v)) := by
  intro m
  induction m with
  | nil => intro h; cases h
  | cons e t ih =>
    obtain ⟨k', v'⟩ := e
    intro h
    by_cases hk : k = k'
    · subst hk
      refine ⟨v', by simp [Obj.lookup], ?_⟩
      cases v' with
      | str s => simp [mapRefsO, Obj.lookup] at h; exact .inl ⟨s, rfl, h.symm⟩
      | _ => simp [mapRefsO, Obj.lookup] at h; exact .inr ⟨by simp, h.symm⟩
    · have e1 : Obj.lookup k ((k', v') :: t) = Obj.lookup k t := by simp [Obj.lookup, hk]
      have e2 : Obj.lookup k (mapRefsO f ((k', v') :: t)) = Obj.lookup k (mapRefsO f t) := by
        cases v' <;> simp [mapRefsO, Obj.lookup, hk]
      rw [e2] at h
      rw [e1]
      exact ih h

theorem scalar_mapRefs {f : Str → Str} {d : Json} (h : scalar (mapRefs f d) = true) : mapRefs f d = d := by
  cases d <;> first | rfl | (simp [mapRefs, scalar] at h)

/-- A scalar of the mapped document is one of the document, or a mapped reference. -/
theorem mapRefs_back (f : Str → Str) : ∀ (L : Loc) (d : Json) {v : Json}, getAt (mapRefs f d) L = some v → scalar v = true →
    getAt d L = some v ∨ ∃ L₀ x, L = L₀ ++ [.key refKey] ∧ getAt d L = some (.str x) ∧ v = .str (f x)
  | [], d, v, h, hv => by
    cases h
    have := scalar_mapRefs hv
    exact .inl (by rw [this]; rfl)
  | .key k :: L, d, v, h, hv => by
    cases d with
    | obj m =>
      simp only [mapRefs, getAt, child] at h ⊢
      cases hl : Obj.lookup k (mapRefsO f m) with
      | none => rw [hl] at h; cases h
      | some w =>
        rw [hl] at h
        obtain ⟨u, hu, hcase⟩ := lookup_mapRefsO_back f hl
        rw [hu]
        rcases hcase with ⟨x, rfl, rfl⟩ | ⟨_, rfl⟩
        · cases L with
          | cons s L => cases s <;> simp [getAt, child] at h
          | nil =>
            simp only [getAt, Option.some.injEq] at h ⊢
            by_cases hk : k = refKey
            · rw [if_pos hk] at h
              exact .inr ⟨[], x, by rw [hk]; rfl, rfl, h.symm⟩
            · rw [if_neg hk] at h
              exact .inl h
        · rcases mapRefs_back f L u h hv with h | ⟨L₀, x, rfl, h1, h2⟩
          · exact .inl h
          · exact .inr ⟨.key k :: L₀, x, rfl, h1, h2⟩
    | _ => simp [mapRefs, getAt, child] at h
  | .idx n :: L, d, v, h, hv => by
    cases d with
    | arr xs =>
      simp only [mapRefs, getAt, child, getElem_mapRefsA] at h ⊢
      cases hl : xs[n]? with
      | none => rw [hl] at h; cases h
      | some u =>
        rw [hl] at h
        rcases mapRefs_back f L u h hv with h | ⟨L₀, x, rfl, h1, h2⟩
        · exact .inl h
        · exact .inr ⟨.idx n :: L₀, x, rfl, h1, h2⟩
    | _ => simp [mapRefs, getAt, child] at h

theorem fills_leaf {a b r : Json} (h : Fills a b r) {p : List Str} {n : Node} (hn : nodeAt r p = some n) :
    nodeAt a p = some n ∨ nodeAt b p = some n := by
  obtain ⟨h1, h2, h3⟩ := h p
  cases ha : nodeAt a p with
  | some m => left; rw [h1 m ha] at hn; exact hn
  | none =>
    right
    by_cases hs : Shadowed a p
    · rw [h2 ha hs] at hn; cases hn
    · rw [h3 ha hs] at hn; exact hn

theorem rule_leaf {R : Rule} {z y r : Json} (h : R.holds z y r) {p : List Str} {n : Node} (hn : nodeAt r p = some n) :
    nodeAt z p = some n ∨ nodeAt y p = some n := by
  cases R with
  | rootWins => exact (fills_leaf h hn).symm
  | docWins => exact fills_leaf h hn
  | disjoint =>
    have := h.2 p
    rw [hn] at this
    cases hz : nodeAt z p with
    | some m => rw [hz] at this; exact .inl this.symm
    | none => rw [hz] at this; exact .inr this.symm

theorem members_leaf {c : Obj} {k : Str} {p : List Str} {w : Json} (h : nodeAt (members (section_ (.obj c) k)) p = some (.leaf w)) {rest : Loc} {v : Json}
    (hv : getAt w rest = some v) : getAt (.obj c) (.key k :: (keyLoc p ++ rest)) = some v := by
  cases hs : section_ (.obj c) k with
  | none =>
    rw [hs] at h
    cases p <;> simp [members, nodeAt, nodeAt_obj_cons] at h
  | some x =>
    rw [hs] at h
    have hx : child (.obj c) (.key k) = some x := hs
    cases x with
    | obj m =>
      simp only [getAt, hx, getAt_append]
      rw [getAt_leaf p (.obj m) h]
      exact hv
    | _ => cases p <;> simp [members, nodeAt, nodeAt_obj_cons] at h

/-- Merging with the root document: the outcome is well-formed, and its scalars are from the two documents. -/
theorem root_back {c root : Obj} {out : Json} (hc : Json.WF (.obj c)) (hr : Json.WF (.obj root))
    (hz : ∀ k R, (k, R) ∈ ruleOf → Composite (section_ (.obj root) k)) (h : OAPI.mergeWithRoot (.obj root) (.obj c) = .ok out) :
    Json.WF out ∧ ∀ L v, getAt out L = some v → scalar v = true → getAt (.obj c) L = some v ∨ getAt (.obj root) L = some v := by
  have hzc : ∀ k R, (k, R) ∈ ruleOf → Composite (section_ (.obj c) k) := by
    intro k R hk
    cases hs : section_ (.obj c) k with
    | none => exact .inl rfl
    | some w =>
      by_cases h1 : scalar w = true
      · by_cases h2 : w = .null
        · exact .inr ⟨w, rfl, .inl h2⟩
        · rcases Props.C21_scalar_section_crashes hc hr hz hk hs h1 h2 with e | e <;> rw [e] at h <;> cases h
      · exact .inr ⟨w, rfl, .inr (by simpa using h1)⟩
  obtain ⟨om, hom⟩ := mergeWithRoot_isObj h
  rcases Props.C21_sections_follow_rules hc hr (fun k R hk => ⟨hzc k R hk, hz k R hk⟩) with ⟨out', e, hw, hother, hrule⟩ | ⟨e, _⟩
  · rw [h] at e
    cases e
    refine ⟨hw, ?_⟩
    intro L v hv hsc
    subst hom
    cases L with
    | nil => cases hv; cases hsc
    | cons s L =>
      cases s with
      | idx n => simp [getAt, child] at hv
      | key k =>
        have same : section_ (.obj om) k = section_ (.obj c) k → getAt (.obj c) (.key k :: L) = some v := by
          intro he
          simp only [getAt] at hv ⊢
          rw [show child (.obj om) (.key k) = child (.obj c) (.key k) from he] at hv
          exact hv
        by_cases hk : ∃ R, (k, R) ∈ ruleOf
        · obtain ⟨R, hk⟩ := hk
          obtain ⟨r1, r2⟩ := hrule k R hk
          by_cases hm : Missing (section_ (.obj c) k) ∧ Missing (section_ (.obj root) k)
          · exact .inl (same (r1 hm))
          · obtain ⟨s, hs, hh⟩ := r2 hm
            simp only [getAt, show child (.obj om) (.key k) = some (.obj s) from hs] at hv
            obtain ⟨p, rest, w, e1, e2, e3⟩ := leaf_path _ _ hv (by intro m e; subst e; cases hsc)
            subst e1
            exact (rule_leaf hh e2).imp (fun h => members_leaf h e3) (fun h => members_leaf h e3)
        · exact .inl (same (hother k fun R hR => hk ⟨R, hR⟩))
  · rw [h] at e; cases e

variable {F : Type} {inp : Input F} {o : Orders}

theorem prepared_doc_wf (hi : InputOK inp) (ho : OrdersOK inp o) (hd : DistinctPaths inp) {root : Obj} (hroot : inp.root = .obj root)
    (hrw : Json.WF (.obj root)) (hz : ∀ k R, (k, R) ∈ ruleOf → Composite (section_ (.obj root) k)) {pre : Prepared} (h : prepare inp o = .ok pre) :
    Json.WF pre.doc := by
  obtain ⟨c, hm, hmr⟩ := (prepare_gives hi ho hd h).doc
  obtain ⟨cm, rfl⟩ := hm.object
  rw [hroot] at hmr
  exact (root_back hm.wf hrw hz hmr).1

/-- Every scalar of the prepared document is in the root document or in a specification, at the same place. -/
theorem prepared_back (hi : InputOK inp) (ho : OrdersOK inp o) (hd : DistinctPaths inp) {root : Obj} (hroot : inp.root = .obj root)
    (hrw : Json.WF (.obj root)) (hz : ∀ k R, (k, R) ∈ ruleOf → Composite (section_ (.obj root) k)) {pre : Prepared} (h : prepare inp o = .ok pre)
    {L : Loc} {v : Json} (hv : getAt pre.doc L = some v) (hsc : scalar v = true) :
    getAt (.obj root) L = some v ∨ ∃ p i d, SpecAt inp p i d ∧ Carries (pathOf inp.heap p) d L v := by
  obtain ⟨c, hm, hmr⟩ := (prepare_gives hi ho hd h).doc
  obtain ⟨cm, rfl⟩ := hm.object
  rw [hroot] at hmr
  have hno : ∀ m, v ≠ .obj m := by intro m e; subst e; cases hsc
  rcases (root_back hm.wf hrw hz hmr).2 L v hv hsc with h | h
  · obtain ⟨q, rest, w, e1, e2, e3⟩ := leaf_path _ _ h hno
    have hq : q ≠ [] := by
      rintro rfl
      simp [nodeAt] at e2
    obtain ⟨p, i, d, f, hs, hf, hn⟩ := (hm.nodes q _ hq).1 e2
    refine .inr ⟨p, i, d, hs, ?_⟩
    have hg : getAt (mapRefs f d) L = some v := by
      rw [e1, getAt_append, getAt_leaf q _ hn]
      exact e3
    rcases mapRefs_back f L d hg hsc with h | ⟨L₀, x, rfl, h1, h2⟩
    · exact .inl h
    · exact .inr ⟨L₀, x, f x, rfl, h1, h2, hf x ⟨L₀, h1⟩⟩
  · exact .inl h

theorem prepared_lone (hi : InputOK inp) (ho : OrdersOK inp o) (hd : DistinctPaths inp) {root : Obj} (hroot : inp.root = .obj root)
    (hrw : Json.WF (.obj root)) (hz : ∀ k R, (k, R) ∈ ruleOf → Composite (section_ (.obj root) k)) {pre : Prepared} (h : prepare inp o = .ok pre)
    {L : Loc} (hl : OnlyAt inp L) : Lone pre.doc L := by
  intro L' v hv hsc e
  rcases prepared_back hi ho hd hroot hrw hz h hv hsc with h | ⟨p, i, d, hs, h | ⟨_, x, _, _, h, _⟩⟩
  · exact hl.2 L' v (by rw [hroot]; exact h) hsc e
  · exact hl.1 p i d hs L' v h hsc e
  · exact hl.1 p i d hs L' _ h rfl e

end Oapi.Scan
