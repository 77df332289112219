import Verif.Proofs.Crash3
import Verif.Spec.Idle

/-! Overrides that no reference reaches, and default operations that match nothing (C120). -/
namespace Oapi.Resolver
open Spec

/-- Only the pointers that are met matter to the loop. -/
theorem loop_met {a b : Cfg} (he : a.exp = b.exp) {f g : List Str → Json → St → Res (Cur × St)} {pp : List Str} : ∀ {l : List (Str × Json)} {cx : Cur} {st : St},
    (∀ k x p, (k, Json.str x) ∈ l → ExtRef x p → a.res p = b.res p ∧ ∀ d pp' st', a.res p = .ok d → f pp' d st' = g pp' d st') →
    loop a f pp l cx st = loop b g pp l cx st
  | [], _, _, _ => rfl
  | (k, v) :: t, cx, st, h => by
    have hv : visit a f pp cx st k v = visit b g pp cx st k v := by
      unfold visit
      cases v with
      | str x =>
        dsimp only
        cases hp : Pointer.parse x with
        | err e => rfl
        | panic => rfl
        | ok p =>
          dsimp only
          by_cases hx : p.isExternal = false
          · rw [if_pos hx, if_pos hx]
          · rw [if_neg hx, if_neg hx]
            obtain ⟨h1, h2⟩ := h k x p (by simp) ⟨hp, by simpa [Pointer.isExternal] using hx⟩
            by_cases hm : p.toStr ∈ pp
            · rw [if_pos hm, if_pos hm]
              unfold setRecursive
              rw [he]
            · rw [if_neg hm, if_neg hm, ← h1]
              cases hr : a.res p with
              | err e => rfl
              | panic => rfl
              | ok d =>
                dsimp only
                rw [← h2 d _ _ hr]
                cases f (pp ++ [p.toStr]) d st with
                | err e => rfl
                | panic => rfl
                | ok r =>
                  dsimp only
                  unfold set
                  rw [he]
      | _ => rfl
    unfold loop
    rw [hv]
    cases visit b g pp cx st k v with
    | err e => rfl
    | panic => rfl
    | ok r =>
      dsimp only
      exact loop_met he fun k x p hm => h k x p (List.mem_cons_of_mem _ hm)

/-- Only the pointers that are met matter to the iteration. -/
theorem iter_met {a b : Cfg} (he : a.exp = b.exp) (ho : a.ord = b.ord) (hord : ∀ n l, Container.MapOrder l (a.ord n l)) (hwf : ∀ p d, a.res p = .ok d → Json.WF d) :
    ∀ (n : Nat) {pp : List Str} {cx : Cur} {st : St}, Json.WF (readCur cx st) → (∀ p, Meets a (readCur cx st) p → a.res p = b.res p) →
      iter a n pp cx st = iter b n pp cx st
  | 0, _, _, _, _, _ => rfl
  | n + 1, pp, cx, st, hw, h => by
    unfold iter
    cases hr : Container.extractKey (readCur cx st) b!"$ref" with
    | err e => rfl
    | panic => rfl
    | ok refs =>
      dsimp only
      rw [← ho]
      refine loop_met he fun k x p hm hx => ?_
      have hl := extract_refLike hw hr ((hord _ _).2.1 _ hm)
      refine ⟨h p (.here hl hx), fun d pp' st' hd => ?_⟩
      exact iter_met he ho hord hwf n (cx := some d) (hwf p d hd) fun q hq => h q (.later hl hx hd hq)

theorem resolve_met {a b : Cfg} (he : a.exp = b.exp) (ho : a.ord = b.ord) (hord : ∀ n l, Container.MapOrder l (a.ord n l)) (hwf : ∀ p d, a.res p = .ok d → Json.WF d)
    {c : Json} (hw : Json.WF c) (h : ∀ p, Meets a c p → a.res p = b.res p) (n : Nat) : resolve a n c = resolve b n c := by
  unfold resolve
  rw [iter_met he ho hord hwf n (cx := none) (st := ⟨c, 0⟩) hw h]

end Oapi.Resolver

namespace Oapi.OAPI

/-- Applying defaults does not change the paths and names of operations. -/
theorem applyAt_names {ov : Json} {st st' : St} {i : Nat} (h : applyAt ov st i = .ok st') :
    st'.ops.map (fun o => (o.path, o.method)) = st.ops.map fun o => (o.path, o.method) := by
  unfold applyAt at h
  split at h
  · cases h; rfl
  · rename_i o ho
    repeat' split at h
    all_goals first | cases h | skip
    rename_i nc _ _ cnt1 _ _ cnt2 hx
    have hd : ∀ w (x : Op), ((detach w x).path, (detach w x).method) = (x.path, x.method) := by
      intro w x; unfold detach; split <;> rfl
    rw [List.map_map]
    have : ((fun o : Op => (o.path, o.method)) ∘ detach (Gabs.dotPathToSlice (opKey o))) = fun o => (o.path, o.method) := funext fun x => hd _ x
    rw [this, List.map_set]
    refine List.ext_getElem? fun j => ?_
    rw [List.getElem?_set]
    split
    · rename_i hij
      subst hij
      rw [List.getElem?_map, ho]
      split
      · rfl
      · rename_i hlt
        rw [List.length_map] at hlt
        exact absurd (List.getElem?_eq_some_iff.1 ho).1 hlt
    · rfl

theorem applyAll_names {ov : Json} : ∀ {is : List Nat} {st st' : St}, applyAll ov is st = .ok st' →
    st'.ops.map (fun o => (o.path, o.method)) = st.ops.map fun o => (o.path, o.method)
  | [], _, _, h => by cases h; rfl
  | i :: t, st, st', h => by
    unfold applyAll at h
    split at h
    · rename_i s hs
      rw [applyAll_names h, applyAt_names hs]
    · cases h
    · cases h

theorem matching_idle {mt : Str → Str → Str → Res Bool} {pat : Str} : ∀ {l : List Op} {i : Nat}, (∀ o ∈ l, mt pat o.method o.path = .ok false) → matching mt pat i l = .ok []
  | [], _, _ => rfl
  | o :: t, i, h => by
    unfold matching
    rw [h o (by simp)]
    simp only [matching_idle (i := i + 1) fun o ho => h o (List.mem_cons_of_mem _ ho)]
    rfl

/-- A pattern that matches none of the operations may be left out. -/
theorem applyDefaults_idle {mt : Str → Str → Str → Res Bool} {pat : Str} {ov : Json} : ∀ {before later : List (Str × Json)} {st : St},
    (∀ o ∈ st.ops, mt pat o.method o.path = .ok false) → applyDefaults mt (before ++ (pat, ov) :: later) st = applyDefaults mt (before ++ later) st
  | [], later, st, h => by
    rw [List.nil_append, List.nil_append, applyDefaults, matching_idle h]
    rfl
  | (p, v) :: t, later, st, h => by
    rw [List.cons_append, List.cons_append, applyDefaults, applyDefaults]
    cases matching mt p 0 st.ops with
    | err e => rfl
    | panic => rfl
    | ok is =>
      dsimp only
      cases ha : applyAll v is st with
      | err e => rfl
      | panic => rfl
      | ok st' =>
        dsimp only
        refine applyDefaults_idle fun o ho => ?_
        have hn := applyAll_names ha
        have : (o.path, o.method) ∈ st'.ops.map fun o => (o.path, o.method) := List.mem_map_of_mem ho
        rw [hn, List.mem_map] at this
        obtain ⟨o', h1, h2⟩ := this
        have := h o' h1
        rw [Prod.mk.injEq] at h2
        rwa [h2.1, h2.2] at this

theorem runDefaults_idle {mt : Str → Str → Str → Res Bool} {c : Json} {ops : List Op} {pat : Str} {ov : Json} {before later : List (Str × Json)}
    (h : ∀ o ∈ ops, mt pat o.method o.path = .ok false) : runDefaults mt c ops (before ++ (pat, ov) :: later) = runDefaults mt c ops (before ++ later) := by
  unfold runDefaults
  rw [applyDefaults_idle h]

end Oapi.OAPI

namespace Oapi.OAPI
open Spec Container

theorem pathsOf_opIn {c : Json} {ops : List Op} (h : paths c = .ok ops) : ∀ o ∈ ops, OpIn c o.path o.method := by
  intro o ho
  cases c with
  | obj m =>
    rw [paths_eq] at h
    cases hc : childrenMap (data (Obj.lookup b!"paths" m)) with
    | err e => rw [hc] at h; cases h
    | panic => rw [hc] at h; cases h
    | ok ps =>
      rw [hc] at h
      simp only at h
      obtain ⟨it, h1, h2, _⟩ := (pathsGo_mem h o).1 ho
      rcases childrenMap_ok hc with e | ⟨_, rfl⟩
      · cases hl : Obj.lookup b!"paths" m with
        | none => rw [hl] at e; cases e
        | some x =>
          rw [hl] at e
          simp only [data, Option.getD_some] at e
          subst e
          exact ⟨m, ps, it, _, rfl, hl, h1, h2⟩
      · cases h1
  | arr xs =>
    exfalso
    have : path (.arr xs) b!"paths" = none := by
      have e : Gabs.dotPathToSlice b!"paths" = [b!"paths"] := by decide +kernel
      have e2 : Gabs.arrIndex b!"paths" xs.length = none := by
        have : Str.atoi b!"paths" = none := by decide +kernel
        simp only [Gabs.arrIndex, this]
      rw [path, e, Gabs.search, if_neg (by decide), e2]
    unfold paths at h
    rw [this] at h
    cases h
    cases ho
  | _ => exfalso; cases h; cases ho

end Oapi.OAPI

namespace Oapi.Scan
open Spec Container Types

variable {F : Type} {inp : Input F} {o : Orders}

theorem lookup_other {d : Json} {x y : Str} (h : x ≠ y) : ∀ (before later : List (Str × Json)),
    (before ++ (y, d) :: later).lookup x = (before ++ later).lookup x
  | [], later => by
    rw [List.nil_append, List.nil_append, List.lookup_cons]
    have : (x == y) = false := by simpa using h
    rw [this]
  | (k, v) :: t, later => by
    rw [List.cons_append, List.cons_append, List.lookup_cons, List.lookup_cons, lookup_other h t later]

/-- What is met is registered, or written in the document or in an override. -/
theorem meets_text (hi : InputOK inp) (ho : OrdersOK inp o) (hs : SchemasOK inp) {pre : Prepared} (hp : prepare inp o = .ok pre) {y : Str}
    (hu : Unreferenced inp pre y) {p : Pointer} (h : Resolver.Meets (cfg inp o pre) pre.doc p) : p.toStr ≠ y := by
  by_cases hr : Registered pre.points p
  · exact hu.types p hr
  · obtain ⟨x, h1, h2⟩ := meets_dangling hi ho hs hp h hr
    exact hu.refs x p h1 h2

theorem scan_idle_override (hi : InputOK inp) (ho : OrdersOK inp o) (hd : DistinctPaths inp) (hs : SchemasOK inp) (hso : Sound inp)
    {before later : List (Str × Json)} (hov : inp.override = before ++ later) {y : Str} (d : Json) (hu : ∀ pre, prepare inp o = .ok pre → Unreferenced inp pre y) (fuel : Nat) :
    scan { inp with override := before ++ (y, d) :: later } o fuel = scan inp o fuel := by
  have hprep : prepare { inp with override := before ++ (y, d) :: later } o = prepare inp o := rfl
  unfold scan
  rw [hprep]
  cases hp : prepare inp o with
  | panic => rfl
  | err e => rfl
  | ok pre =>
    have hres : Resolver.resolve (cfg inp o pre) fuel pre.doc = Resolver.resolve (cfg { inp with override := before ++ (y, d) :: later } o pre) fuel pre.doc := by
      refine Resolver.resolve_met (a := cfg inp o pre) (b := cfg { inp with override := before ++ (y, d) :: later } o pre) rfl rfl ho.resolver (fun p d h => resolveFn_wf hi ho hs hso hp h) (prepared_wf hi ho hd hso hp) (fun p hm => ?_) fuel
      have hne := meets_text hi ho hs hp (hu pre hp) hm
      show resolveFn inp o pre.points p = resolveFn { inp with override := before ++ (y, d) :: later } o pre.points p
      unfold resolveFn
      dsimp only
      rw [lookup_other hne, hov]
      rfl
    have : finish { inp with override := before ++ (y, d) :: later } o fuel pre = finish inp o fuel pre := by
      unfold finish
      rw [← hres]
    dsimp only
    rw [this]

/-- The orders, with another order of the default operations. -/
def reorder (o : Orders) (f : List (Str × Json) → List (Str × Json)) : Orders := { o with defops := f }

theorem ordersOK_reorder {l : List (Str × Json)} (ho : OrdersOK inp o) {f : List (Str × Json) → List (Str × Json)} (hf : ∀ l, (f l).Perm l) :
    OrdersOK { inp with defops := l } (reorder o f) where
  heap₁ := ho.heap₁
  heap₂ := ho.heap₂
  heap₃ := ho.heap₃
  exports := ho.exports
  commands := ho.commands
  refs := ho.refs
  sort := ho.sort
  pointers := ho.pointers
  types := ho.types
  pick := ho.pick
  resolver := ho.resolver
  ops := ho.ops
  defops := hf

/-- The scan up to the default operations. -/
theorem scan_defops (l : List (Str × Json)) (f : List (Str × Json) → List (Str × Json)) (fuel : Nat) :
    scan { inp with defops := l } (reorder o f) fuel = match prepare inp o with
      | .panic => .panic
      | .err e => .ret none (some e)
      | .ok pre => match Resolver.resolve (cfg inp o pre) fuel pre.doc with
        | .panic => .panic
        | .err e => .ret none (some e)
        | .ok c => match OAPI.paths c with
          | .panic => .panic
          | .err e => .ret none (some e)
          | .ok ops => match OAPI.runDefaults inp.matches_ c (o.ops ops) (f l) with
            | .panic => .panic
            | .err e => .ret none (some e)
            | .ok c => newOAPI c := by
  have e1 : prepare { inp with defops := l } (reorder o f) = prepare inp o := rfl
  unfold scan
  rw [e1]
  cases prepare inp o with
  | panic => rfl
  | err e => rfl
  | ok pre =>
    dsimp only
    have e2 : finish { inp with defops := l } (reorder o f) fuel pre = match Resolver.resolve (cfg inp o pre) fuel pre.doc with
        | .err e => .err e
        | .panic => .panic
        | .ok c => match OAPI.paths c with
          | .err e => .err e
          | .panic => .panic
          | .ok ops => OAPI.runDefaults inp.matches_ c (o.ops ops) (f l) := rfl
    rw [e2]
    cases Resolver.resolve (cfg inp o pre) fuel pre.doc with
    | panic => rfl
    | err e => rfl
    | ok c =>
      dsimp only
      cases OAPI.paths c with
      | panic => rfl
      | err e => rfl
      | ok ops => rfl

/-- One default operation more, that matches nothing, in any position of the order. -/
theorem scan_idle_default (ho : OrdersOK inp o) {fuel : Nat} {pat : Str} (hm : MatchesNothing inp fuel pat) (ov : Json)
    {l l' : List (Str × Json)} {f f' : List (Str × Json) → List (Str × Json)} {before later : List (Str × Json)}
    (hf : f l = before ++ (pat, ov) :: later) (hf' : f' l' = before ++ later) :
    scan { inp with defops := l } (reorder o f) fuel = scan { inp with defops := l' } (reorder o f') fuel := by
  have h0 := scan_defops (inp := inp) (o := o) [] id fuel
  have hm' : ∀ d e, scan { inp with defops := [] } (reorder o id) fuel = .ret (some d) e →
      ∀ path method, OpIn d path method → inp.matches_ pat method path = .ok false :=
    fun d e h => hm d e ⟨_, ordersOK_reorder ho fun _ => .refl _, h⟩
  rw [h0] at hm'
  rw [scan_defops, scan_defops, hf, hf']
  cases hp : prepare inp o with
  | panic => rfl
  | err e => rfl
  | ok pre =>
    simp only [hp] at hm' ⊢
    cases hr : Resolver.resolve (cfg inp o pre) fuel pre.doc with
    | panic => rfl
    | err e => rfl
    | ok c =>
      simp only [hr] at hm' ⊢
      cases hq : OAPI.paths c with
      | panic => rfl
      | err e => rfl
      | ok ops =>
        simp only [hq] at hm' ⊢
        rw [OAPI.runDefaults_idle fun x hx => hm' c _ rfl _ _ (OAPI.pathsOf_opIn hq x ((ho.ops ops).mem_iff.1 hx))]

end Oapi.Scan
