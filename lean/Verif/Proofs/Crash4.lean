import Verif.Proofs.Crash3

/-! Scans end (C99): only finitely many pointers can be met. -/
namespace Oapi.Scan
open Spec Container Types

variable {F : Type} {inp : Input F} {o : Orders}

/-- All strings in a document. -/
def strings (j : Json) : List Str := (leaves j).filterMap fun q => match q.2 with | .str x => some x | _ => none

theorem refLike_strings {j : Json} (hw : Json.WF j) {x : Str} (h : RefLike j x) : x ∈ strings j := by
  obtain ⟨L, k, h1, _⟩ := h
  refine List.mem_filterMap.2 ⟨(_, .str x), (mem_leaves j hw _ _).2 ⟨h1, rfl⟩, rfl⟩

/-- The text a reference is kept under. -/
def printed (x : Str) : Str := match Pointer.parse x with | .ok p => p.toStr | _ => []

theorem printed_ext {x : Str} {p : Pointer} (h : ExtRef x p) : printed x = p.toStr := by
  unfold printed
  rw [h.1]

theorem at_mem {m : PMap} {u : GoType} {q : Pointer} (h : q ∈ m.at u) : ∃ qs, (u, qs) ∈ m ∧ q ∈ qs := by
  induction m with
  | nil => cases h
  | cons e m ih =>
    obtain ⟨k, ps⟩ := e
    unfold PMap.at at h
    split at h
    · rename_i hk; subst hk; exact ⟨ps, by simp, h⟩
    · obtain ⟨qs, h1, h2⟩ := ih h; exact ⟨qs, by simp [h1], h2⟩

/-- The texts of the pointers that can be met in a scan. -/
def meetable (inp : Input F) (pre : Prepared) : List Str :=
  (strings pre.doc).map printed ++ (inp.override.flatMap fun e => (strings e.2).map printed) ++ pre.points.flatMap fun e => e.2.map (·.toStr)

theorem meetable_doc {pre : Prepared} (hw : Json.WF pre.doc) {x : Str} {p : Pointer} (h : RefLike pre.doc x) (hx : ExtRef x p) : p.toStr ∈ meetable inp pre := by
  unfold meetable
  rw [List.mem_append, List.mem_append]
  exact .inl (.inl (List.mem_map.2 ⟨x, refLike_strings hw h, printed_ext hx⟩))

theorem meetable_override {pre : Prepared} {e : Str × Json} (he : e ∈ inp.override) (hw : Json.WF e.2) {x : Str} {p : Pointer} (h : RefLike e.2 x)
    (hx : ExtRef x p) : p.toStr ∈ meetable inp pre := by
  unfold meetable
  rw [List.mem_append, List.mem_append]
  exact .inl (.inr (List.mem_flatMap.2 ⟨e, he, List.mem_map.2 ⟨x, refLike_strings hw h, printed_ext hx⟩⟩))

theorem meetable_point {pre : Prepared} {v : GoType} {q : Pointer} (h : q ∈ pre.points.at v) : q.toStr ∈ meetable inp pre := by
  unfold meetable
  obtain ⟨qs, h1, h2⟩ := at_mem h
  rw [List.mem_append]
  exact .inr (List.mem_flatMap.2 ⟨_, h1, List.mem_map.2 ⟨q, h2, rfl⟩⟩)

theorem resolveFn_no_fuel (hi : InputOK inp) (ho : OrdersOK inp o) (hs : SchemasOK inp) {pre : Prepared} (hp : prepare inp o = .ok pre)
    (p : Pointer) : resolveFn inp o pre.points p ≠ .err .fuel := by
  intro h
  unfold resolveFn at h
  split at h
  · cases h
  · split at h
    · obtain ⟨runs, hc⟩ := scan_converts hi ho hs hp
      split at h
      · unfold make at h; split at h <;> cases h
      · rename_i e he
        cases h
        cases hf : (ctx inp o pre.points p.toStr).m.findType p with
        | none => unfold Types.resolve at he; rw [hf] at he; cases he
        | some u =>
          rcases Props.C38_outcome (hc p.toStr) hf with ⟨_, e', h1, h2⟩ | ⟨_, s, h1⟩
          · rw [he] at h1; cases h1; exact h2 rfl
          · rw [he] at h1; cases h1
      · cases h
    · cases h

/-- In whatever order a scan is made, only these pointers can be met. -/
theorem finiteRefs (hi : InputOK inp) (ho : OrdersOK inp o) (hd : DistinctPaths inp) (hs : SchemasOK inp) (hso : Sound inp) {o' : Orders}
    (ho' : OrdersOK inp o') {pre pre' : Prepared} (hp : prepare inp o = .ok pre) (hp' : prepare inp o' = .ok pre') (hsame : SamePre pre pre') :
    FiniteRefs (cfg inp o' pre') pre'.doc (meetable inp pre) where
  wf := prepared_wf hi ho' hd hso hp'
  wfs p d _ h := resolveFn_wf hi ho' hs hso hp' h
  doc x p h hx := by
    rw [← hsame.doc] at h
    exact meetable_doc (prepared_wf hi ho hd hso hp) h hx
  step p d x q _ h hx hq := by
    rcases resolveFn_stands hi ho' hs hp' h with h | ⟨_, _, u, s, _, hsc, rfl⟩
    · exact meetable_override (lookup_mem' h) (hso.override _ (lookup_mem' h)) hx hq
    · obtain ⟨q', ⟨v, hb⟩, rfl⟩ := (schemaOf_refs hs (by assumption)).doc (encNum hs) hx
      obtain ⟨runs', hr⟩ := prepare_scanned hi ho' hp'
      have hinv := scan_inv hi.prog hr
      obtain ⟨pkg, f, t, hg, _⟩ := hinv.pts v q' hb.1
      obtain ⟨p', a1, a2, a3⟩ := hg.parses hi.prog
      have : q = p' := by have := hq.1; rw [a1] at this; cases this; rfl
      rw [this, a3]
      exact meetable_point ((hsame.points v q').2 hb.1)

/-- From some depth on, the recursion budget does not matter, in whatever order. -/
theorem scan_ends (hi : InputOK inp) (hd : DistinctPaths inp) (hs : SchemasOK inp) (hso : Sound inp) :
    ∃ N, ∀ o, OrdersOK inp o → ∃ out, ∀ fuel, N ≤ fuel → scan inp o fuel = out := by
  by_cases h : ∃ o pre, OrdersOK inp o ∧ prepare inp o = .ok pre
  · obtain ⟨o, pre, ho, hp⟩ := h
    refine ⟨(meetable inp pre).length + 1, fun o' ho' => ?_⟩
    obtain ⟨pre', hp', hsame⟩ := prepare_same hi ho ho' hp
    obtain ⟨r, _, hr⟩ := Props.C29_terminates (resolveFn_no_fuel hi ho' hs hp') ho'.resolver (finiteRefs hi ho hd hs hso ho' hp hp' hsame)
    refine ⟨scan inp o' ((meetable inp pre).length + 1), fun fuel hf => ?_⟩
    unfold scan
    rw [hp']
    simp only
    unfold finish
    rw [hr fuel hf, hr _ (Nat.le_refl _)]
  · refine ⟨0, fun o ho => ⟨scan inp o 0, fun fuel _ => ?_⟩⟩
    unfold scan
    cases hp : prepare inp o with
    | panic => rfl
    | err e => rfl
    | ok pre => exact absurd ⟨o, pre, ho, hp⟩ h

end Oapi.Scan
