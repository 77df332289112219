import Verif.Proofs.Scan1
import Verif.Proofs.Resolver7

/- References that do not resolve. -/
namespace Oapi.Scan
open Spec Resolver

/-- A reference that is alone at its printed path is found by every iteration. -/
theorem extract_lone {j : Json} (hw : Json.WF j) {es es' : List (Str × Json)} (h : Container.extractKey j b!"$ref" = .ok es) {L : Loc} {x : Str}
    (hx : getAt j (L ++ [.key refKey]) = some (.str x)) (hl : Lone j (L ++ [.key refKey])) (hp : Container.MapOrder es es') :
    (dotted (L ++ [.key refKey]), Json.str x) ∈ es' := by
  have h1 : (dotted (L ++ [.key refKey]), Json.str x) ∈ es := (extract_refs_iff hw h _ _).2 ⟨L, refKey, hx, rfl, .inl rfl, rfl⟩
  obtain ⟨e, h2, h3⟩ := List.mem_map.1 (hp.2.2 _ h1)
  obtain ⟨s, v⟩ := e
  simp only at h3
  subst h3
  obtain ⟨L', k, h4, h5, _, h6⟩ := (extract_refs_iff hw h _ _).1 (hp.2.1 _ h2)
  have := hl _ v h4 h5 h6.symm
  rw [this, hx] at h4
  cases h4
  exact h2

variable {cfg : Cfg}

theorem visit_fails {call : List Str → Json → Resolver.St → Res (Cur × Resolver.St)} {pp : List Str} {cx : Cur} {st : Resolver.St}
    {key x : Str} {p : Pointer} (hx : ExtRef x p) (hp : p.toStr ∉ pp) :
    (∀ r, cfg.res p ≠ .ok r) → ∀ r, visit cfg call pp cx st key (.str x) ≠ .ok r := by
  intro hr r h
  unfold visit at h
  simp only [hx.1] at h
  rw [if_neg (by simp [Pointer.isExternal, hx.2]), if_neg hp] at h
  split at h
  · cases h
  · cases h
  · rename_i e; exact hr _ e

theorem loop_fails {call : List Str → Json → Resolver.St → Res (Cur × Resolver.St)} {pp : List Str} {key x : Str} {p : Pointer}
    (hx : ExtRef x p) (hp : p.toStr ∉ pp) (hr : ∀ r, cfg.res p ≠ .ok r) (l : List (Str × Json)) :
    (key, Json.str x) ∈ l → ∀ {cx : Cur} {st : Resolver.St} {r}, loop cfg call pp l cx st ≠ .ok r := by
  induction l with
  | nil => intro h; cases h
  | cons a t ih =>
    obtain ⟨k, v⟩ := a
    intro hm cx st r h
    unfold loop at h
    split at h
    · cases h
    · cases h
    · rename_i hv
      rcases List.mem_cons.1 hm with e | hm
      · cases e; exact visit_fails hx hp hr _ hv
      · exact ih hm h

/-- A document with a reference that does not resolve is not resolved. -/
theorem resolve_fails {n : Nat} {m : Obj} {L : Loc} {x : Str} {p : Pointer} (hord : ∀ n l, Container.MapOrder l (cfg.ord n l))
    (hw : Json.WF (.obj m)) (hx : RefAt (.obj m) L x p) (hl : Lone (.obj m) (L ++ [.key refKey])) (hr : ∀ r, cfg.res p ≠ .ok r) : ∀ r, resolve cfg n (.obj m) ≠ .ok r := by
  intro r h
  unfold resolve at h
  split at h
  · cases h
  · cases h
  · rename_i hi
    cases n with
    | zero => cases hi
    | succ n =>
      obtain ⟨es, he⟩ : ∃ es, Container.extractKey (.obj m) b!"$ref" = .ok es := ⟨_, rfl⟩
      have hq := extract_lone hw he hx.1 hl (hord 0 es)
      unfold iter at hi
      rw [show readCur none ⟨.obj m, 0⟩ = Json.obj m from rfl, he] at hi
      simp only at hi
      exact loop_fails hx.2 (by simp) hr _ hq hi

theorem loop_panics {call : List Str → Json → Resolver.St → Res (Cur × Resolver.St)} {cx : Cur} {st : Resolver.St} (l : List (Str × Json)) :
    (∀ k x, (k, Json.str x) ∈ l → ∃ p, Pointer.parse x = .ok p ∧ (p.url.scheme ≠ [] → cfg.res p = .panic)) →
    (∃ k x p, (k, Json.str x) ∈ l ∧ ExtRef x p) → loop cfg call [] l cx st = .panic := by
  induction l with
  | nil => rintro _ ⟨_, _, _, h, _⟩; cases h
  | cons a t ih =>
    obtain ⟨k, v⟩ := a
    rintro hall ⟨k', x, p, hm, hx⟩
    unfold loop
    cases v with
    | str s =>
      obtain ⟨q, hq, hqr⟩ := hall k s (List.mem_cons_self ..)
      by_cases hs : q.url.scheme = []
      · have : visit cfg call [] cx st k (.str s) = .ok (cx, st) := by
          unfold visit; simp only [hq]; rw [if_pos (by simp [Pointer.isExternal, hs])]
        rw [this]
        refine ih (fun k x h => hall k x (List.mem_cons_of_mem _ h)) ⟨k', x, p, ?_, hx⟩
        rcases List.mem_cons.1 hm with e | hm
        · cases e; rw [hx.1] at hq; cases hq; exact absurd hs hx.2
        · exact hm
      · have : visit cfg call [] cx st k (.str s) = .panic := by
          unfold visit; simp only [hq]
          rw [if_neg (by simp [Pointer.isExternal, hs]), if_neg (by simp), hqr hs]
        rw [this]
    | _ =>
      refine ih (fun k x h => hall k x (List.mem_cons_of_mem _ h)) ⟨k', x, p, ?_, hx⟩
      rcases List.mem_cons.1 hm with e | hm
      · cases e
      · exact hm

/-- A document whose external references all make the resolver function panic makes the resolution panic. -/
theorem resolve_panics {n : Nat} {m : Obj} {L : Loc} {x : Str} {p : Pointer} (hw : Json.WF (.obj m)) (hord : ∀ n l, Container.MapOrder l (cfg.ord n l))
    (hall : ∀ y, RefLike (.obj m) y → ∃ q, Pointer.parse y = .ok q ∧ (q.url.scheme ≠ [] → cfg.res q = .panic))
    (hx : RefAt (.obj m) L x p) (hl : Lone (.obj m) (L ++ [.key refKey])) : resolve cfg (n + 1) (.obj m) = .panic := by
  obtain ⟨es, he⟩ : ∃ es, Container.extractKey (.obj m) b!"$ref" = .ok es := ⟨_, rfl⟩
  unfold resolve iter
  rw [show readCur none ⟨.obj m, 0⟩ = Json.obj m from rfl, he]
  simp only
  rw [loop_panics]
  · intro k y hy
    exact hall y (Resolver.extract_refLike hw he ((hord 0 es).2.1 _ hy))
  · exact ⟨_, x, p, extract_lone hw he hx.1 hl (hord 0 es), hx.2⟩

end Oapi.Scan
