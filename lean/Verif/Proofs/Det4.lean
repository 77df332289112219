import Verif.Proofs.Det3

/-! Types are converted alike in every order. -/
namespace Oapi.Types
open Spec

variable {F : Type}

/-- The same points are picked. -/
def SamePick (cx cx' : Ctx F) : Prop :=
  ∀ i u, (∃ fs, u = .struct fs) ∨ OnCycle cx.env u → pick cx i u = pick cx' i u

theorem reference_congr {cx cx' : Ctx F} (hst : cx.std = cx'.std) {i : Nat} {u : GoType} (h : pick cx i u = pick cx' i u) :
    reference2schema cx i u = reference2schema cx' i u := by
  unfold reference2schema; rw [h, hst]

theorem structLoop_congr {cx cx' : Ctx F} (hz : cx.zero = cx'.zero) (he : cx.env = cx'.env) (hst : cx.std = cx'.std) (hp : SamePick cx cx')
    {c c' : Nat → GoType → TagP.Tag F → Res (Schema F)} (hc : ∀ i t tg, c i t tg = c' i t tg) :
    ∀ xs i props req, structLoop cx c i xs props req = structLoop cx' c' i xs props req := by
  intro xs
  induction xs with
  | nil => intro i props req; rfl
  | cons x t ih =>
    intro i props req
    have hf : fieldSchema cx c i x = fieldSchema cx' c' i x := by
      unfold fieldSchema
      rw [hz, he]
      split
      · rfl
      · split
        · exact reference_congr hst (hp i _ (.inl ⟨_, rfl⟩))
        · exact hc _ _ _
    simp only [structLoop, hf]
    split
    · rfl
    · rfl
    · split <;> exact ih _ _ _

theorem type2schema_congr {cx cx' : Ctx F} (he : cx.env = cx'.env) (ht : cx.tagOf = cx'.tagOf) (hst : cx.std = cx'.std) (hz : cx.zero = cx'.zero)
    (hp : SamePick cx cx') : ∀ n i t tp tg,
    (∀ v ∈ tp, (∃ fs, v = .struct fs) ∨ ∃ c, Child v c ∧ TReach cx.env (under cx.env c) (under cx.env t)) →
    type2schema cx n i t tp tg = type2schema cx' n i t tp tg := by
  intro n
  induction n with
  | zero => intro i t tp tg _; rfl
  | succ n ih =>
    intro i t tp tg htp
    simp only [type2schema, ← he]
    split
    · rename_i hm
      refine reference_congr hst (hp i _ ?_)
      rcases htp _ hm with h | ⟨c, h1, h2⟩
      · exact .inl h
      · exact .inr ⟨c, h1, h2⟩
    · rename_i hm
      have step : ∀ e, elemOf (under cx.env t) = some e → ∀ i tg, type2schema cx n i e (tp ++ [under cx.env t]) tg =
          type2schema cx' n i e (tp ++ [under cx.env t]) tg := by
        intro e hel i tg
        refine ih i e _ tg fun v hv => ?_
        rcases List.mem_append.1 hv with hv | hv
        · rcases htp v hv with h | ⟨c, h1, h2⟩
          · exact .inl h
          · exact .inr ⟨c, h1, h2.step (elem_child hel)⟩
        · rw [List.mem_singleton.1 hv]
          exact .inr ⟨e, elem_child hel, .refl⟩
      have el : ∀ u e k tg, under cx.env t = u → elemOf u = some e → element u e (fun e => type2schema cx n i e (tp ++ [under cx.env t]) tg) k =
          element u e (fun e => type2schema cx' n i e (tp ++ [under cx.env t]) tg) k := by
        intro u e k tg hu hel
        unfold element
        simp only
        rw [step e (by rw [hu]; exact hel)]
      split
      · rename_i fs hu
        split
        · unfold struct2schema
          rw [← he, ← ht]
          rename_i hlen
          have htp0 : tp = [] := by
            cases tp with
            | nil => rfl
            | cons a b => simp at hlen
          subst htp0
          have hin : ∀ i t' tg, type2schema cx n i t' ([] ++ [under cx.env t]) tg = type2schema cx' n i t' ([] ++ [under cx.env t]) tg := by
            intro i t' tg
            refine ih i t' _ tg fun v hv => .inl ⟨fs, ?_⟩
            rw [← hu]; simpa using hv
          simp only [structLoop_congr hz he hst hp hin]
        · exact reference_congr hst (hp i _ (.inl ⟨_, rfl⟩))
      · rename_i hu; exact el _ _ _ _ hu rfl
      · rw [hz]
      · rename_i hu; exact el _ _ _ _ hu rfl
      · rename_i hu; exact el _ _ _ _ hu rfl
      · rename_i hu; exact el _ _ _ _ hu rfl
      · rfl

/-- Points of a scan with the same text are the same. -/
theorem points_eq {pr : Prog} (hp : ProgOK pr) {runs : List (Str × List Pointer)} {m : PMap} (h : scanPkgs pr runs [] = .ok m) {u v : GoType}
    {p q : Pointer} (h1 : p ∈ m.at u) (h2 : q ∈ m.at v) (e : p.toStr = q.toStr) : p = q := by
  have A := scanPkgs_adds hp _ _ _ h
  have H : ∀ {u p}, p ∈ m.at u → EntOf pr (Requested pr runs) u p := by
    intro u p hq
    rcases A.sound u p hq with hx | hx
    · cases hx
    · exact hx
  obtain ⟨p1, f1, t1, g1, b1, _⟩ := (H h1).point hp
  obtain ⟨p2, f2, t2, g2, b2, _⟩ := (H h2).point hp
  rw [g1.text, g2.text] at e
  obtain ⟨rfl, rfl⟩ := goText_inj g1.pkgOK g2.pkgOK g1.toks g2.toks e
  exact b1.unique b2

end Oapi.Types

namespace Oapi.Scan
open Spec Types

variable {F : Type} {inp : Input F} {o o' : Orders}

/-- The registered points come from a scan. -/
theorem prepare_scanned (hi : InputOK inp) (ho : OrdersOK inp o) {pre : Prepared} (h : prepare inp o = .ok pre) :
    ∃ runs, scanPkgs inp.prog runs [] = .ok pre.points := by
  obtain ⟨roots, cmds, files, ps, c, h1, h2, h3, h4, h5, h6, h7⟩ := prepare_ok h
  have hg := hi.graph roots h1
  obtain ⟨_, h6a⟩ := (walk_iff hg ho.heap₃ _ _ _).1 h6
  exact ⟨_, (types_runs _).1 h6a⟩

theorem pick_same (ho : OrdersOK inp o) (ho' : OrdersOK inp o') {m m' : PMap} (hp : ProgOK inp.prog)
    {runs runs' : List (Str × List Pointer)} (hm : scanPkgs inp.prog runs [] = .ok m) (hm' : scanPkgs inp.prog runs' [] = .ok m')
    (hs : SamePoints m m') (h1 : OneShortest inp.prog.env m) (x : Str) : SamePick (ctx inp o m x) (ctx inp o' m' x) := by
  intro i u hu
  have I := scan_inv hp hm
  have I' := scan_inv hp hm'
  have e : (ctx inp o m x).m.at u = m.at u := at_perm I.nodup (ho.types x m) u
  have e' : (ctx inp o' m' x).m.at u = m'.at u := at_perm I'.nodup (ho'.types x m') u
  by_cases hne : m.at u = []
  · have hne' : m'.at u = [] := by
      cases hq : m'.at u with
      | nil => rfl
      | cons q l =>
        have := (hs u q).2 (by rw [hq]; simp)
        rw [hne] at this; cases this
    unfold pick
    rw [e, e', hne, hne']
    have z : (ctx inp o m x).srt i [] = [] := List.perm_nil.1 (ho.pick x i []).1
    have z' : (ctx inp o' m' x).srt i [] = [] := List.perm_nil.1 (ho'.pick x i []).1
    rw [z, z']
  · have hne' : m'.at u ≠ [] := by
      intro hq
      cases hq' : m.at u with
      | nil => exact hne hq'
      | cons q l =>
        have := (hs u q).1 (by rw [hq']; simp)
        rw [hq] at this; cases this
    obtain ⟨p, a1, a2, a3⟩ := pick_some (cx := ctx inp o m x) (ho.pick x) i (u := u) (by rw [e]; exact hne)
    obtain ⟨q, b1, b2, b3⟩ := pick_some (cx := ctx inp o' m' x) (ho'.pick x) i (u := u) (by rw [e']; exact hne')
    rw [e] at a2 a3
    rw [e'] at b2 b3
    have b2' := (hs u q).2 b2
    have hp1 : BestPoint m u p := ⟨a2, a3, (I.find p u).2 ⟨p, a2, rfl⟩⟩
    have hq1 : BestPoint m u q := ⟨b2', fun r hr => b3 r ((hs u r).1 hr), (I.find q u).2 ⟨q, b2', rfl⟩⟩
    rw [a1, b1, points_eq hp hm a2 b2' (h1 u p q hu hp1 hq1)]

/-- Pointers are resolved alike. -/
theorem resolveFn_same (ho : OrdersOK inp o) (ho' : OrdersOK inp o') {m m' : PMap} (hp : ProgOK inp.prog)
    {runs runs' : List (Str × List Pointer)} (hm : scanPkgs inp.prog runs [] = .ok m) (hm' : scanPkgs inp.prog runs' [] = .ok m')
    (hs : SamePoints m m') (h1 : OneShortest inp.prog.env m) : resolveFn inp o m = resolveFn inp o' m' := by
  funext p
  unfold resolveFn
  split
  · rfl
  · split
    · have I := scan_inv hp hm
      have I' := scan_inv hp hm'
      have hf : (ctx inp o m p.toStr).m.findType p = (ctx inp o' m' p.toStr).m.findType p := by
        rw [show (ctx inp o m p.toStr).m.findType p = m.findType p from I.find_perm (ho.types _ m) p,
          show (ctx inp o' m' p.toStr).m.findType p = m'.findType p from I'.find_perm (ho'.types _ m') p]
        apply Option.ext
        intro u
        rw [I.find, I'.find]
        simp only [hs u]
      have : Types.resolve (ctx inp o m p.toStr) p = Types.resolve (ctx inp o' m' p.toStr) p := by
        unfold Types.resolve
        rw [hf]
        split
        · rfl
        · exact type2schema_congr (cx := ctx inp o m p.toStr) (cx' := ctx inp o' m' p.toStr) rfl rfl rfl rfl (pick_same ho ho' hp hm hm' hs h1 p.toStr) _ _ _ _ _ (by simp)
      rw [this]
    · rfl

end Oapi.Scan
