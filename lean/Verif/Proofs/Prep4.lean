import Verif.Proofs.PrepText
import Verif.Props.Root
import Verif.Proofs.Det6

/-! References of specifications in the prepared document (C79). -/
namespace Oapi.Scan
open Spec Container Types

theorem lookup_mapRefsO_some (f : Str → Str) {k : Str} {v : Json} : ∀ {m : List (Str × Json)}, Obj.lookup k m = some v → (∀ s, v ≠ .str s) →
    Obj.lookup k (mapRefsO f m) = some (mapRefs f v) := by
  intro m
  induction m with
  | nil => intro h; cases h
  | cons e t ih =>
    obtain ⟨k', v'⟩ := e
    intro h hv
    by_cases hk : k = k'
    · subst hk
      simp only [Obj.lookup, if_true, Option.some.injEq] at h
      subst h
      cases v' with
      | str s => exact absurd rfl (hv s)
      | _ => simp [mapRefsO, Obj.lookup]
    · have e1 : Obj.lookup k ((k', v') :: t) = Obj.lookup k t := by simp [Obj.lookup, hk]
      have e2 : Obj.lookup k (mapRefsO f ((k', v') :: t)) = Obj.lookup k (mapRefsO f t) := by
        cases v' <;> simp [mapRefsO, Obj.lookup, hk]
      rw [e2]
      rw [e1] at h
      exact ih h hv

theorem lookup_mapRefsO_ref (f : Str → Str) {x : Str} : ∀ {m : List (Str × Json)}, Obj.lookup refKey m = some (.str x) →
    Obj.lookup refKey (mapRefsO f m) = some (.str (f x)) := by
  intro m
  induction m with
  | nil => intro h; cases h
  | cons e t ih =>
    obtain ⟨k', v'⟩ := e
    intro h
    by_cases hk : refKey = k'
    · subst hk
      simp only [Obj.lookup, if_true, Option.some.injEq] at h
      subst h
      simp [mapRefsO, Obj.lookup]
    · have e1 : Obj.lookup refKey ((k', v') :: t) = Obj.lookup refKey t := by simp [Obj.lookup, hk]
      have e2 : Obj.lookup refKey (mapRefsO f ((k', v') :: t)) = Obj.lookup refKey (mapRefsO f t) := by
        cases v' <;> simp [mapRefsO, Obj.lookup, hk]
      rw [e2]
      rw [e1] at h
      exact ih h

theorem getElem_mapRefsA (f : Str → Str) : ∀ (xs : List Json) (n : Nat), (mapRefsA f xs)[n]? = xs[n]?.map (mapRefs f) := by
  intro xs
  induction xs with
  | nil => intro n; simp [mapRefsA]
  | cons x t ih => intro n; cases n <;> simp [mapRefsA, ih]

/-- References are mapped where they are. -/
theorem getAt_mapRefs (f : Str → Str) {x : Str} : ∀ (L : Loc) (d : Json), getAt d (L ++ [.key refKey]) = some (.str x) →
    getAt (mapRefs f d) (L ++ [.key refKey]) = some (.str (f x))
  | [], d, h => by
    cases d with
    | obj m =>
      simp only [List.nil_append, getAt, child] at h ⊢
      cases hl : Obj.lookup refKey m with
      | none => rw [hl] at h; cases h
      | some v =>
        rw [hl] at h
        cases h
        simp only [mapRefs, lookup_mapRefsO_ref f hl]
    | _ => simp [getAt, child] at h
  | .key k :: L, d, h => by
    cases d with
    | obj m =>
      simp only [List.cons_append, getAt, child] at h ⊢
      cases hl : Obj.lookup k m with
      | none => rw [hl] at h; cases h
      | some v =>
        rw [hl] at h
        have hv : ∀ s, v ≠ .str s := by
          rintro s rfl
          cases L <;> simp [getAt, child] at h
        simp only [mapRefs, lookup_mapRefsO_some f hl hv]
        exact getAt_mapRefs f L v h
    | _ => simp [getAt, child] at h
  | .idx n :: L, d, h => by
    cases d with
    | arr xs =>
      simp only [List.cons_append, getAt, child] at h ⊢
      cases hl : xs[n]? with
      | none => rw [hl] at h; cases h
      | some v =>
        rw [hl] at h
        simp only [mapRefs, getElem_mapRefsA, hl, Option.map_some]
        exact getAt_mapRefs f L v h
    | _ => simp [getAt, child] at h

variable {F : Type} {inp : Input F} {o : Orders}

/-- What the merge with the root document keeps of the paths. -/
theorem root_keeps_paths {c root : Obj} {out : Json} (hc : Json.WF (.obj c)) (hr : Json.WF (.obj root))
    (hz : ∀ k R, (k, R) ∈ ruleOf → Composite (section_ (.obj root) k)) (h : OAPI.mergeWithRoot (.obj root) (.obj c) = .ok out)
    {P : Str} {L : Loc} {v : Json} (hv : getAt (.obj c) (.key b!"paths" :: .key P :: L) = some v) (hno : ∀ m, v ≠ .obj m) :
    getAt out (.key b!"paths" :: .key P :: L) = some v := by
  have hzc : ∀ k R, (k, R) ∈ ruleOf → Composite (section_ (.obj c) k) := by
    intro k R hk
    cases hs : section_ (.obj c) k with
    | none => exact .inl rfl
    | some w =>
      by_cases h1 : scalar w = true
      · by_cases h2 : w = .null
        · exact .inr ⟨w, rfl, .inl h2⟩
        · rcases Props.C21_scalar_section_crashes hc hr hz hk hs h1 h2 with e | e <;> rw [e] at h <;> cases h
      · exact .inr ⟨w, rfl, .inr (by simpa using h1)⟩
  rcases Props.C21_sections_follow_rules hc hr (fun k R hk => ⟨hzc k R hk, hz k R hk⟩) with ⟨out', e, _, _, hrule⟩ | ⟨e, _⟩
  · rw [h] at e
    cases e
    have hp := hrule b!"paths" .docWins (by simp [ruleOf])
    simp only [getAt] at hv ⊢
    cases hs : child (.obj c) (.key b!"paths") with
    | none => rw [hs] at hv; cases hv
    | some w =>
      rw [hs] at hv
      cases w with
      | obj w =>
        obtain ⟨s, h1, h2⟩ := hp.2 (by
          rintro ⟨hm, _⟩
          rcases hm with hm | hm <;> rw [section_, hs] at hm <;> cases hm)
        rw [section_] at h1
        rw [h1]
        rw [section_, hs] at h2
        change Fills (.obj w) _ (.obj s) at h2
        have hv' : getAt (.obj w) (.key P :: L) = some v := hv
        obtain ⟨p, rest, j, e1, e2, e3⟩ := leaf_path _ _ hv' hno
        change getAt (.obj s) (.key P :: L) = some v
        rw [e1, getAt_append, getAt_leaf p _ ((h2 p).1 _ e2)]
        exact e3
      | _ => simp [child] at hv
  · rw [h] at e; cases e

/-- A reference in the paths of a specification is in the prepared document, made absolute. -/
theorem prepared_ref (hi : InputOK inp) (ho : OrdersOK inp o) (hd : DistinctPaths inp) {root : Obj} (hroot : inp.root = .obj root)
    (hrw : Json.WF (.obj root)) (hz : ∀ k R, (k, R) ∈ ruleOf → Composite (section_ (.obj root) k)) {pre : Prepared} (h : prepare inp o = .ok pre)
    {p i : Nat} {d : Json} (hs : SpecAt inp p i d) {P : Str} {L : Loc} {x y : Str}
    (hx : getAt d (.key b!"paths" :: .key P :: L ++ [.key refKey]) = some (.str x)) (hy : Absolute (pathOf inp.heap p) x y) :
    getAt pre.doc (.key b!"paths" :: .key P :: L ++ [.key refKey]) = some (.str y) := by
  obtain ⟨c, hm, hmr⟩ := (prepare_gives hi ho hd h).doc
  have hprep := (prepare_iff hi ho hd).1 ⟨pre, h⟩
  obtain ⟨cm, rfl⟩ := hm.object
  rw [hroot] at hmr
  refine root_keeps_paths (P := P) (L := L ++ [.key refKey]) (v := .str y) hm.wf hrw hz hmr ?_ (by intro m; simp)
  have h1 := getAt_mapRefs (Props.newRef (pathOf inp.heap p)) (.key b!"paths" :: .key P :: L) d hx
  rw [← absolute_newRef (visited_path hi hs.1) hy] at h1
  obtain ⟨q, rest, w, e1, e2, e3⟩ := leaf_path _ _ h1 (by intro m; simp)
  have hq : q ≠ [] := by
    rintro rfl
    obtain ⟨m, rfl⟩ := (specAt_ok hi hs).object
    simp [mapRefs, nodeAt] at e2
  have h2 := (hm.nodes q _ hq).2 ⟨p, i, d, Props.newRef (pathOf inp.heap p), hs, fun x hx => by
    obtain ⟨ptr, hp⟩ := hprep.refs p i d x hs hx
    exact newRef_absolute (visited_path hi hs.1) hp, e2⟩
  rw [show Step.key b!"paths" :: .key P :: (L ++ [.key refKey]) = keyLoc q ++ rest from e1, getAt_append, getAt_leaf q _ h2]
  exact e3

end Oapi.Scan
