import Verif.Proofs.Det11

/-! References of default operations. -/
namespace Oapi.OAPI
open Spec Container

theorem fillsAll_keeps {a b : Json} {ds : List Json} (h : FillsAll a ds b) {p : List Str} {n : Node} (hn : nodeAt a p = some n) : nodeAt b p = some n := by
  induction h with
  | nil => exact hn
  | cons hf _ _ ih => exact ih ((hf p).1 n hn)

/-- A default's member that the operation does not have is in the result. -/
theorem fillsAll_member {m : Obj} {b d : Json} {ds : List Json} (h : FillsAll (.obj m) ds b) (wa : Json.WF (.obj m)) (hd : d ∈ ds)
    (hds : ∀ d ∈ ds, Json.WF d ∧ ∃ m, d = .obj m) (hnc : ds.Pairwise fun x y => ¬ Conflict x y) {k : Str} (hk : Obj.lookup k m = none)
    {p : List Str} {n : Node} (hn : nodeAt d (k :: p) = some n) : nodeAt b (k :: p) = some n := by
  obtain ⟨l1, l2, rfl⟩ := List.append_of_mem hd
  have hp : (l1 ++ d :: l2).Perm (d :: (l1 ++ l2)) := List.perm_middle
  have := fillsAll_perm hp ⟨m, rfl⟩ wa hds hnc h
  cases this with
  | cons hf _ hrest =>
    refine fillsAll_keeps hrest ?_
    have hnone : nodeAt (.obj m) (k :: p) = none := by rw [nodeAt_obj_cons, hk]; rfl
    rw [(hf (k :: p)).2.2 hnone ?_]
    · exact hn
    · rintro ⟨q, j, hq, hj⟩
      cases q with
      | nil => cases hj
      | cons k' q =>
        obtain ⟨e, _⟩ := List.cons_prefix_cons.1 hq
        subst e
        rw [nodeAt_obj_cons, hk] at hj
        cases hj

/-- So are the values below it that are not objects. -/
theorem fillsAll_value {m : Obj} {b d : Json} {ds : List Json} (h : FillsAll (.obj m) ds b) (wa : Json.WF (.obj m)) (hd : d ∈ ds)
    (hds : ∀ d ∈ ds, Json.WF d ∧ ∃ m, d = .obj m) (hnc : ds.Pairwise fun x y => ¬ Conflict x y) {k : Str} (hk : Obj.lookup k m = none)
    {L : Loc} {v : Json} (hv : getAt d (.key k :: L) = some v) (hobj : ∀ m, v ≠ .obj m) : getAt b (.key k :: L) = some v := by
  obtain ⟨p, rest, w, e1, e2, e3⟩ := leaf_path _ _ hv hobj
  cases p with
  | nil =>
    obtain ⟨_, m', rfl⟩ := hds d hd
    cases e2
  | cons k' p =>
    simp only [List.map_cons, List.cons_append, List.cons.injEq, Step.key.injEq] at e1
    obtain ⟨e, e1⟩ := e1
    subst e
    have := getAt_leaf _ _ (fillsAll_member h wa hd hds hnc hk e2)
    rw [e1, show Step.key k :: (keyLoc p ++ rest) = keyLoc (k :: p) ++ rest from rfl, getAt_append, this]
    exact e3

end Oapi.OAPI

namespace Oapi.Resolver
open Spec Container OAPI

/-- An operation that is not itself a reference has the same members after the resolution. -/
theorem resolved_op {cfg : Cfg} {c r : Json} {n : Nat} (hg : GoodCfg cfg c) (ht : Tidy c) (hc : CanReceive cfg c)
    (h : resolve cfg n c = .ok r) {P M : Str} {m : Obj} (hm : opAt c P M = some (.obj m))
    (hno : ∀ p, p <+: [Step.key b!"paths", .key P, .key M] → ∀ x q, ¬ RefAt c p x q) :
    ∃ m', opAt r P M = some (.obj m') ∧ Obj.keys m' = Obj.keys m := by
  obtain ⟨D, T, rfl, h2, h3, h4⟩ := resolve_ok hg ht hc h
  have hget : ∀ B : Loc, getAt (addComponents T D) (.key b!"paths" :: B) = getAt D (.key b!"paths" :: B) := fun B =>
    getAt_addComponents h3.entries (fun e _ => ⟨by
      rintro ⟨s, hs⟩
      simp [compLoc] at hs, by
      rintro ⟨s, hs⟩
      simp [compLoc] at hs⟩) h4
  cases h2 with
  | mk σ d v hother hexp hcyc hres hrec =>
    have e3 : opAt (addComponents T (subst σ c)) P M = (opAt c P M).map (subst fun l => σ ([.key b!"paths", .key P, .key M] ++ l)) := by
      unfold opAt
      rw [hget, getAt_subst]
      intro p hp hne
      exact hother p (hno p hp)
    rw [e3, hm, Option.map_some, subst_obj (by simpa using hother _ (hno _ (List.prefix_refl _)))]
    exact ⟨_, rfl, keys_substO _ _⟩

end Oapi.Resolver

namespace Oapi.OAPI
open Spec Container

theorem conflict_symm {a b : Json} (h : ¬ Conflict a b) : ¬ Conflict b a :=
  fun ⟨p, x, y, h1, h2, h3⟩ => h ⟨p, y, x, h2, h1, fun e => h3 e.symm⟩

/-- What an operation lacks and a default has is copied as it is. -/
theorem outcome_value {m : Obj} {b d : Json} {ds ds' : List Json} (h : OpOutcome ds' (.obj m) b) (hp : ds'.Perm ds) (wa : Json.WF (.obj m))
    (hd : d ∈ ds) (hds : ∀ d ∈ ds, Json.WF d ∧ ∃ m, d = .obj m) (hnc : ds.Pairwise fun x y => ¬ Conflict x y) {k : Str}
    (hk : Obj.lookup k m = none) {L : Loc} {v : Json} (hv : getAt d (.key k :: L) = some v) (hobj : ∀ m, v ≠ .obj m) :
    getAt b (.key k :: L) = some v := by
  rcases h with ⟨h, _⟩ | ⟨_, _, h⟩
  · rw [h d (hp.mem_iff.2 hd)] at hv
    cases hv
  · exact fillsAll_value h wa (hp.mem_iff.2 hd) (fun d hd => hds d (hp.mem_iff.1 hd))
      ((hp.pairwise_iff (fun h => conflict_symm h)).2 hnc) hk hv hobj

end Oapi.OAPI
