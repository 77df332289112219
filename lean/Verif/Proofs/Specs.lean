import Verif.Model.Specs
import Verif.Proofs.Refs
import Verif.Proofs.Pointer

namespace Oapi
open Spec

/-! ### Pointer sets -/
namespace Pointers

theorem get_put (k k' : Str) (v : Pointer) (m : Pointers) : get k' (put k v m) = if k' = k then some v else get k' m := by
  induction m with
  | nil => simp only [put, get]
  | cons p t ih =>
    obtain ⟨x, w⟩ := p
    simp only [put]
    split
    · rename_i e; subst e
      simp only [get]
      split <;> rfl
    · rename_i e
      simp only [get, ih]
      split
      · rename_i h1
        split
        · rename_i h2; exact absurd (h2.symm.trans h1) e
        · rfl
      · rfl

theorem get_copyInto (k : Str) : ∀ (src dst : Pointers), (src.map Prod.fst).Nodup →
    get k (copyInto dst src) = match get k src with | some v => some v | none => get k dst := by
  intro src
  induction src with
  | nil => intro dst _; rfl
  | cons p t ih =>
    intro dst hn
    obtain ⟨x, w⟩ := p
    simp only [List.map_cons, List.nodup_cons] at hn
    simp only [copyInto, get]
    rw [ih _ hn.2, get_put]
    by_cases e : k = x
    · subst e
      rw [if_pos rfl, if_pos rfl]
      have : get k t = none := by
        have hn1 := hn.1
        clear ih hn
        induction t with
        | nil => rfl
        | cons q t ih =>
          obtain ⟨y, z⟩ := q
          simp only [List.map_cons, List.mem_cons, not_or] at hn1
          simp only [get]
          rw [if_neg hn1.1, ih hn1.2]
      rw [this]
    · rw [if_neg e, if_neg e]

theorem get_eq_some {k : Str} {v : Pointer} {m : Pointers} (hn : (m.map Prod.fst).Nodup) : get k m = some v ↔ (k, v) ∈ m := by
  induction m with
  | nil => simp [get]
  | cons p t ih =>
    obtain ⟨x, w⟩ := p
    simp only [List.map_cons, List.nodup_cons] at hn
    simp only [get, List.mem_cons, Prod.mk.injEq]
    split
    · rename_i e; subst e
      constructor
      · intro h; cases h; exact Or.inl ⟨rfl, rfl⟩
      · rintro (h | h)
        · rw [h.2]
        · exact absurd (List.mem_map_of_mem (f := Prod.fst) h) hn.1
    · rename_i e
      rw [ih hn.2]
      constructor
      · exact Or.inr
      · rintro (h | h)
        · exact absurd h.1 e
        · exact h

theorem get_perm {k : Str} {a b : Pointers} (hp : a.Perm b) (hn : (a.map Prod.fst).Nodup) : get k a = get k b := by
  have hb : (b.map Prod.fst).Nodup := (hp.map _).nodup_iff.1 hn
  cases h : get k a with
  | some v => exact ((get_eq_some hb).2 (hp.mem_iff.1 ((get_eq_some hn).1 h))).symm
  | none =>
    cases h' : get k b with
    | none => rfl
    | some v =>
      rw [(get_eq_some hn).2 (hp.mem_iff.2 ((get_eq_some hb).1 h'))] at h; cases h

end Pointers

/-! ### The spec scanner -/
namespace Specs

/-- The text a reference becomes. -/
def newRef (pkg x : Str) : Str := match rewriteRef pkg x with
  | .ok p => p.toStr
  | _ => x

theorem scanRefs_ok {pkg : Str} : ∀ (ws : List (Loc × Json)) {c : Json} {ps : Pointers},
    (∀ w ∈ ws, ∀ s, w.2 = .str s → GoodLoc w.1 ∧ w.1 ≠ [] ∧ getAt c w.1 = some w.2) → (ws.Pairwise fun a b => Apart a.1 b.1) →
    (∀ w ∈ ws, ∀ s, w.2 = .str s → ∃ p, rewriteRef pkg s = .ok p) →
    ∃ ps', scanRefs pkg (ws.map dotEntry) c ps =
        .ok (putAll c (ws.filterMap fun w => (refVal (newRef pkg) w.2).map (w.1, ·)), ps') ∧
      (∀ k p, Pointers.get k ps' = some p →
        Pointers.get k ps = some p ∨ ∃ w ∈ ws, ∃ s, w.2 = .str s ∧ rewriteRef pkg s = .ok p ∧ p.toStr = k) ∧
      (∀ k p, Pointers.get k ps = some p → ∃ p', Pointers.get k ps' = some p') ∧
      (∀ w ∈ ws, ∀ s, w.2 = .str s → ∃ p', Pointers.get (newRef pkg s) ps' = some p') := by
  intro ws
  induction ws with
  | nil =>
    intro c ps _ _ _
    exact ⟨ps, rfl, fun k p h => Or.inl h, fun k p h => ⟨p, h⟩, by simp⟩
  | cons w ws ih =>
    intro c ps hw hap hr
    have hrest := List.pairwise_cons.1 hap
    obtain ⟨L, v⟩ := w
    by_cases hv : ∃ s, v = .str s
    · obtain ⟨s, rfl⟩ := hv
      obtain ⟨hg, hne, hget⟩ := hw (L, .str s) (by simp) s rfl
      obtain ⟨p, hp⟩ := hr (L, .str s) (by simp) s rfl
      have hnew : newRef pkg s = p.toStr := by unfold newRef; rw [hp]
      obtain ⟨ps', h1, h2, h3, h4⟩ := ih (c := putAt (.str p.toStr) L c) (ps := Pointers.put p.toStr p ps)
        (fun w hw' s' hs' => ⟨(hw w (by simp [hw']) s' hs').1, (hw w (by simp [hw']) s' hs').2.1, by
          rw [getAt_putAt_apart (hrest.1 w hw')]; exact (hw w (by simp [hw']) s' hs').2.2⟩)
        hrest.2 (fun w hw' => hr w (by simp [hw']))
      refine ⟨ps', ?_, ?_, ?_, ?_⟩
      · simp only [List.map_cons, dotEntry, scanRefs, hp]
        rw [dotted_good hg, setP_good _ hg hne hget]
        simp only [List.filterMap_cons, refVal, Option.map_some, hnew]
        exact h1
      · intro k q hq
        rcases h2 k q hq with h | ⟨w, hw', s', h⟩
        · rw [Pointers.get_put] at h
          split at h
          · rename_i e; cases h
            exact Or.inr ⟨(L, .str s), by simp, s, rfl, hp, e.symm⟩
          · exact Or.inl h
        · exact Or.inr ⟨w, by simp [hw'], s', h⟩
      · intro k q hq
        by_cases e : k = p.toStr
        · exact h3 k p (by rw [Pointers.get_put, if_pos e])
        · exact h3 k q (by rw [Pointers.get_put, if_neg e]; exact hq)
      · intro w hw' s' hs'
        rcases List.mem_cons.1 hw' with rfl | hw'
        · cases hs'
          rw [hnew]
          exact h3 _ p (by rw [Pointers.get_put, if_pos rfl])
        · exact h4 w hw' s' hs'
    · have hv' : refVal (newRef pkg) v = none := by
        cases v <;> first | rfl | exact absurd ⟨_, rfl⟩ hv
      obtain ⟨ps', h1, h2, h3, h4⟩ := ih (c := c) (ps := ps) (fun w hw' => hw w (by simp [hw'])) hrest.2 (fun w hw' => hr w (by simp [hw']))
      refine ⟨ps', ?_, ?_, h3, ?_⟩
      · have : scanRefs pkg (((L, v) :: ws).map dotEntry) c ps = scanRefs pkg (ws.map dotEntry) c ps := by
          simp only [List.map_cons, dotEntry]
          cases v <;> first | rfl | exact absurd ⟨_, rfl⟩ hv
        rw [this, h1]
        simp only [List.filterMap_cons, hv', Option.map_none]
      · intro k q hq
        rcases h2 k q hq with h | ⟨w, hw', s', h⟩
        · exact Or.inl h
        · exact Or.inr ⟨w, by simp [hw'], s', h⟩
      · intro w hw' s' hs'
        rcases List.mem_cons.1 hw' with rfl | hw'
        · exact absurd ⟨s', hs'⟩ hv
        · exact h4 w hw' s' hs'

/-- A reference that does not parse makes the scan fail. -/
theorem scanRefs_err {pkg : Str} : ∀ (ws : List (Loc × Json)) {c : Json} {ps : Pointers} {r : Json × Pointers},
    (∃ w ∈ ws, ∃ s, w.2 = .str s ∧ ∀ p, rewriteRef pkg s ≠ .ok p) → scanRefs pkg (ws.map dotEntry) c ps ≠ .ok r := by
  intro ws
  induction ws with
  | nil => rintro c ps r ⟨w, hw, _⟩; cases hw
  | cons w ws ih =>
    rintro c ps r ⟨x, hx, s, hs, hbad⟩ h
    simp only [List.map_cons, dotEntry] at h
    obtain ⟨L, v⟩ := w
    rcases List.mem_cons.1 hx with rfl | hx
    · simp only at hs; subst hs
      simp only [scanRefs] at h
      split at h
      · cases h
      · cases h
      · rename_i p hp; exact hbad p hp
    · have ih' := fun c ps => ih (c := c) (ps := ps) (r := r) ⟨x, hx, s, hs, hbad⟩
      cases v with
      | str t =>
        simp only [scanRefs] at h
        split at h
        · cases h
        · cases h
        · split at h
          · cases h
          · cases h
          · exact ih' _ _ h
      | _ => exact ih' _ _ h

theorem rewrite_no_panic {pkg s : Str} : rewriteRef pkg s ≠ .panic := by
  unfold rewriteRef
  cases hp : Pointer.parse s with
  | panic =>
    exfalso
    unfold Pointer.parse at hp
    split at hp
    · cases hp
    · split at hp
      · cases hp
      · split at hp
        · cases hp
        · cases hp
        · rename_i u _ _ hf
          unfold Fragment.new at hf
          cases hu : u.fragment with
          | nil => rw [hu] at hf; simp [Fragment.parseFragment] at hf
          | cons a b => rw [hu] at hf; simp only [Fragment.parseFragment] at hf; split at hf <;> cases hf
  | err e => simp
  | ok p => simp only; split <;> simp

theorem scanRefs_no_panic (pkg : Str) (es : List (Str × Json)) : ∀ c ps, scanRefs pkg es c ps ≠ .panic := by
  induction es with
  | nil => intro c ps h; cases h
  | cons e es ih =>
    obtain ⟨k, v⟩ := e
    intro c ps
    cases v with
    | str s =>
      simp only [scanRefs]
      split
      · simp
      · rename_i h; exact absurd h rewrite_no_panic
      · split
        · simp
        · rename_i h
          exact absurd h (Props.C13_setP_no_panic _ _ _)
        · exact ih _ _
    | _ => exact ih _ _

/-- The replacement made by the scan. -/
theorem putAll_refs {f : Str → Str} {c : Json} (hw : Json.WF c) {ws : List (Loc × Json)}
    (h1 : ∀ L x, getAt c (L ++ [.key refKey]) = some (.str x) → (L ++ [.key refKey], .str x) ∈ ws)
    (h2 : ∀ w ∈ ws, getAt c w.1 = some w.2 ∧ ∀ x, w.2 = .str x → ∃ L, w.1 = L ++ [.key refKey])
    (h3 : ws.Pairwise fun a b => Apart a.1 b.1) :
    putAll c (ws.filterMap fun w => (refVal f w.2).map (w.1, ·)) = mapRefs f c := by
  have hmem : ∀ x : Loc × Json, x ∈ (ws.filterMap fun w => (refVal f w.2).map (w.1, ·)) ↔
      ∃ s, (x.1, Json.str s) ∈ ws ∧ x.2 = .str (f s) := by
    intro x
    rw [List.mem_filterMap]
    constructor
    · rintro ⟨⟨L, v⟩, hm, he⟩
      cases v with
      | str s => simp only [refVal, Option.map_some, Option.some.injEq] at he; subst he; exact ⟨s, hm, rfl⟩
      | _ => simp [refVal] at he
    · rintro ⟨s, hm, he⟩
      refine ⟨_, hm, ?_⟩
      simp only [refVal, Option.map_some]
      rw [← he]
  have hap : (ws.filterMap fun w => (refVal f w.2).map (w.1, ·)).Pairwise fun a b => Apart a.1 b.1 := by
    rw [List.pairwise_filterMap]
    refine h3.imp ?_
    intro a b hab x hx y hy
    obtain ⟨v, _, rfl⟩ := Option.map_eq_some_iff.1 hx
    obtain ⟨v', _, rfl⟩ := Option.map_eq_some_iff.1 hy
    exact hab
  rw [putAll_eq hw (by
    intro x hx
    obtain ⟨s, hm, _⟩ := (hmem x).1 hx
    exact ⟨_, (h2 _ hm).1⟩) hap]
  have hnd : ((ws.filterMap fun w => (refVal f w.2).map (w.1, ·)).map Prod.fst).Nodup := by
    rw [List.Nodup, List.pairwise_map]
    exact hap.imp fun h e => h.1 (by rw [e]; exact List.prefix_refl _)
  apply subst_refs f c hw
  · apply writes_none
    intro v hm
    obtain ⟨s, hm, _⟩ := (hmem _).1 hm
    obtain ⟨L, hL⟩ := (h2 _ hm).2 s rfl
    simp at hL
  · intro L v hL hne
    unfold refσ
    by_cases hlast : L.getLast? = some (.key refKey)
    · rw [if_pos hlast, hL]
      obtain ⟨L', rfl⟩ : ∃ L', L = L' ++ [.key refKey] := by
        rw [List.getLast?_eq_some_iff] at hlast; exact hlast
      cases v with
      | str s =>
        simp only [Option.bind_some, refVal]
        apply writes_of_mem hnd
        rw [hmem]
        exact ⟨s, h1 _ _ hL, rfl⟩
      | _ =>
        simp only [Option.bind_some, refVal]
        apply writes_none
        intro v hm
        obtain ⟨s, hm, _⟩ := (hmem _).1 hm
        have := (h2 _ hm).1
        rw [hL] at this; cases this
    · rw [if_neg hlast]
      apply writes_none
      intro v hm
      obtain ⟨s, hm, _⟩ := (hmem _).1 hm
      obtain ⟨L', hL'⟩ := (h2 _ hm).2 s rfl
      simp only at hL'
      rw [hL'] at hlast
      simp at hlast

end Specs

/-! ### Plain references -/
namespace Pointer

/-- The URL of a pointer read from a plain reference, without its fragment, reads back from its print. -/
theorem plain_url {x : Str} (hx : PlainRef x) {p : Pointer} (h : parse x = .ok p) :
    (∃ rp, Url.parse (Url.toStr { p.url with fragment := [] }) = some { p.url with rawPath := rp, fragment := [], rawFragment := [] }) ∧
    (35 : UInt8) ∉ Url.toStr { p.url with fragment := [] } := by
  rcases parse_inv h with ⟨_, rfl⟩ | ⟨h1, h2, hP, hf⟩
  · refine ⟨⟨[], by decide⟩, by decide⟩
  · obtain ⟨raw, f, hraw, hx⟩ := hx
    obtain ⟨u0, hu0, hpu⟩ : ∃ u0, Url.parse raw = some u0 ∧
        ({ p.url with fragment := [], rawFragment := [] } : Url.URL) = { u0 with fragment := [], rawFragment := [] } := by
      unfold Url.Parse at hP
      have hcut : Str.cut 35 x = (raw, none) ∨ Str.cut 35 x = (raw, some f) := by
        rcases hx with rfl | rfl
        · exact Or.inl (Url.cut_none fun hm => (Url.uri_facts _ (hraw _ hm)).2.1 rfl)
        · exact Or.inr (Url.cut_some (uri_hash hraw))
      rcases hcut with e | e
      · rw [e] at hP
        simp only at hP
        cases hr : Url.parse raw with
        | none => rw [hr] at hP; cases hP
        | some u => rw [hr] at hP; simp at hP; exact ⟨u, rfl, by rw [hP]⟩
      · rw [e] at hP
        simp only at hP
        cases hr : Url.parse raw with
        | none => rw [hr] at hP; cases hP
        | some u =>
          rw [hr] at hP
          refine ⟨u, rfl, ?_⟩
          simp only at hP
          cases f with
          | nil => simp at hP; rw [hP]
          | cons c t =>
            simp only [Url.setFragment] at hP
            split at hP
            · cases hP
            · simp only [Option.some.injEq] at hP; rw [← hP]
    obtain ⟨⟨rp, r1⟩, r2, r3, r4⟩ := Url.roundtrip hraw hu0
    have hs : Url.toStr { p.url with fragment := [] } = Url.toStr u0 := by
      have e : Url.toStr { p.url with fragment := [] } = Url.toStr { p.url with fragment := [], rawFragment := [] } := rfl
      rw [e, hpu]
      cases u0; simp only at r3 r4; subst r3; subst r4; rfl
    rw [hs, r1]
    refine ⟨⟨rp, ?_⟩, fun hm => (r2 _ hm).1 rfl⟩
    have hpu' : ({ p.url with rawPath := rp, fragment := [], rawFragment := [] } : Url.URL) =
        { u0 with rawPath := rp, fragment := [], rawFragment := [] } := by
      have := congrArg (fun u : Url.URL => { u with rawPath := rp }) hpu
      exact this
    rw [hpu']
    cases u0; simp only at r3 r4; subst r3; subst r4; rfl

end Pointer
end Oapi
