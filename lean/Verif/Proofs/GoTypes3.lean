import Verif.Proofs.GoTypes2
import Verif.Proofs.Types4
import Verif.Proofs.GoHeap10
import Verif.Spec.TypeSchema

/-! Converting types in memory. -/
namespace Oapi.GoTypes
open Types Spec GoHeap

variable {F : Type}

/-- One entry of the map now and when it was collected. -/
def Ent (a b : GoType × List Pointer) : Prop := a.1 = b.1 ∧ a.2.Perm b.2

/-- Memory holds the points `m`, in any order for each type. -/
def Hist (m : PMap) (st : TSt) : Prop := st.OK ∧ Pairwise2 Ent m st.content

theorem ent_refl (m : PMap) : Pairwise2 Ent m m := by
  induction m with
  | nil => trivial
  | cons a t ih => exact ⟨⟨rfl, .refl _⟩, ih⟩

theorem ent_trans : ∀ {a b c : PMap}, Pairwise2 Ent a b → Pairwise2 Ent b c → Pairwise2 Ent a c
  | [], [], [], _, _ => trivial
  | _ :: _, _ :: _, _ :: _, h, h' => ⟨⟨h.1.1.trans h'.1.1, h.1.2.trans h'.1.2⟩, ent_trans h.2 h'.2⟩
  | [], _ :: _, _, h, _ => h.elim
  | _ :: _, [], _, h, _ => h.elim
  | [], [], _ :: _, _, h => h.elim
  | _ :: _, _ :: _, [], _, h => h.elim

theorem ent_at : ∀ {a b : PMap}, Pairwise2 Ent a b → ∀ t, (a.at t).Perm (b.at t)
  | [], [], _, _ => .refl _
  | (k, x) :: _, (k', y) :: _, h, t => by
    obtain ⟨⟨h1, h2⟩, h3⟩ := h
    simp only at h1 h2
    subst h1
    simp only [PMap.at]
    split
    · exact h2
    · exact ent_at h3 t
  | [], _ :: _, h, _ => h.elim
  | _ :: _, [], h, _ => h.elim

theorem any_perm {α : Type} {f : α → Bool} {l l' : List α} (h : l.Perm l') : l.any f = l'.any f := by
  induction h with
  | nil => rfl
  | cons a _ ih => simp [ih]
  | swap a b l => simp only [List.any_cons]; cases f a <;> cases f b <;> rfl
  | trans _ _ h1 h2 => exact h1.trans h2

theorem ent_find (ptr : Pointer) : ∀ {a b : PMap}, Pairwise2 Ent a b → a.findType ptr = b.findType ptr
  | [], [], _ => rfl
  | (k, x) :: ta, (k', y) :: tb, h => by
    obtain ⟨⟨h1, h2⟩, h3⟩ := h
    simp only at h1 h2
    subst h1
    have ih := ent_find ptr h3
    unfold PMap.findType at ih ⊢
    simp only [List.find?_cons, any_perm h2]
    cases y.any fun q => ptr.toStr == q.toStr with
    | true => rfl
    | false => exact ih
  | [], _ :: _, h => h.elim
  | _ :: _, [], h => h.elim

theorem ent_keys {a b : PMap} (h : Pairwise2 Ent a b) : a.map Prod.fst = b.map Prod.fst :=
  pairwise2_map (fun _ _ h => h.1) h

theorem content_at {points : Arrs Pointer} {m : HMap} {t : GoType} : PMap.at (contentOf points m) t = match m.at t with
    | none => []
    | some s => view points s := by
  induction m with
  | nil => rfl
  | cons e r ih =>
    obtain ⟨k, s⟩ := e
    simp only [contentOf, List.map_cons, PMap.at, HMap.at]
    split
    · rfl
    · exact ih

/-- Sorting one slice in place: the points of its type are in another order, all else is as it was. -/
theorem sort_keep {st : TSt} (ok : st.OK) {t : GoType} {s : Slice} (hs : st.map.at t = some s) {l : List Pointer}
    (hl : l.Perm (view st.points s)) (c : Nat) :
    TSt.OK { st with points := st.points.set s.arr (l ++ (st.points.getD s.arr []).drop s.len), clock := c } ∧
      Pairwise2 Ent st.content (TSt.content { st with points := st.points.set s.arr (l ++ (st.points.getD s.arr []).drop s.len), clock := c }) := by
  obtain ⟨l1, l2, hm, h1⟩ := at_split hs
  obtain ⟨hk, ha, hv⟩ := ok
  have hvs := hv (t, s) (by rw [hm]; simp)
  obtain ⟨x, hx, hle⟩ := hvs
  have hg : st.points.getD s.arr [] = x := by simp [List.getD, hx]
  have hlen : l.length = s.len := by
    rw [hl.length_eq, view_of hx]; simp only at hle; simp; omega
  have hlt : s.arr < st.points.length := (List.getElem?_eq_some_iff.1 hx).1
  rw [hg]
  have hself : (st.points.set s.arr (l ++ x.drop s.len))[s.arr]? = some (l ++ x.drop s.len) := by simp [hlt]
  have hoth : ∀ i, i ≠ s.arr → (st.points.set s.arr (l ++ x.drop s.len))[i]? = st.points[i]? := by
    intro i hi; rw [List.getElem?_set_ne (Ne.symm hi)]
  have hne : ∀ e ∈ l1 ++ l2, e.2.arr ≠ s.arr := by
    rw [hm] at ha
    simp only [List.map_append, List.map_cons] at ha
    have := (List.perm_middle.nodup_iff).1 ha
    rw [List.nodup_cons] at this
    intro e he h
    exact this.1 (by rw [← List.map_append]; exact List.mem_map.2 ⟨e, he, h⟩)
  constructor
  · refine ⟨hk, ha, ?_⟩
    intro e he
    by_cases hee : e.2.arr = s.arr
    · have : e = (t, s) := by
        have hmem : e ∈ l1 ++ (t, s) :: l2 := by rw [← hm]; exact he
        rcases List.mem_append.1 hmem with h | h
        · exact absurd hee (hne e (List.mem_append.2 (.inl h)))
        · rcases List.mem_cons.1 h with h | h
          · exact h
          · exact absurd hee (hne e (List.mem_append.2 (.inr h)))
      subst this
      exact ⟨_, hself, by simp [hlen]⟩
    · exact valid_keep (hoth _ hee) (hv e he)
  · show Pairwise2 Ent (contentOf st.points st.map) (contentOf (st.points.set s.arr (l ++ x.drop s.len)) st.map)
    rw [hm]
    have e1 : contentOf (st.points.set s.arr (l ++ x.drop s.len)) l1 = contentOf st.points l1 :=
      content_keep fun e he => hoth _ (hne e (List.mem_append.2 (.inl he)))
    have e2 : contentOf (st.points.set s.arr (l ++ x.drop s.len)) l2 = contentOf st.points l2 :=
      content_keep fun e he => hoth _ (hne e (List.mem_append.2 (.inr he)))
    simp only [contentOf, List.map_append, List.map_cons] at e1 e2 ⊢
    rw [e1, e2]
    refine pairwise2_append (ent_refl _) ⟨⟨rfl, ?_⟩, ent_refl _⟩
    show (view st.points s).Perm (view (st.points.set s.arr (l ++ x.drop s.len)) s)
    rw [view_of hself]
    have : (l ++ x.drop s.len).take s.len = l := by rw [← hlen]; simp
    rw [this]
    exact hl.symm

/-- What `pick` picks is the head of some sorted order of the points. -/
theorem pick_sim {srt : Nat → List Pointer → List Pointer} (hs : ∀ i, SortsPoints (srt i)) {m mm : PMap} (hmm : ∀ t, mm.at t = m.at t) (t : GoType) {st : TSt}
    (h : Hist m st) : Hist m (pick srt t st).1 ∧ (pick srt t st).1.paths = st.paths ∧ ∃ f, SortsPoints f ∧ (pick srt t st).2 = (f (mm.at t)).head? := by
  classical
  obtain ⟨ok, hh⟩ := h
  have hat := ent_at hh t
  have hc := content_at (points := st.points) (m := st.map) (t := t)
  change st.content.at t = _ at hc
  have empty : mm.at t = [] → ∃ f, SortsPoints f ∧ (none : Option Pointer) = (f (mm.at t)).head? := by
    intro he
    refine ⟨srt 0, hs 0, ?_⟩
    rw [he, List.perm_nil.1 (hs 0 []).1]; rfl
  unfold pick
  cases hx : st.map.at t with
  | none =>
    rw [hx] at hc
    simp only at hc ⊢
    refine ⟨⟨ok, hh⟩, trivial, empty ?_⟩
    rw [hc] at hat
    rw [hmm]; exact List.perm_nil.1 hat
  | some s =>
    rw [hx] at hc
    simp only at hc ⊢
    obtain ⟨l1, l2, hm, _⟩ := at_split hx
    have hvs := ok.valid (t, s) (by rw [hm]; simp)
    by_cases h0 : s.len = 0
    · simp only [if_pos h0]
      refine ⟨⟨ok, hh⟩, trivial, empty ?_⟩
      have : view st.points s = [] := by
        have := view_length hvs
        simp only at this
        exact List.length_eq_zero_iff.1 (this.trans h0)
      rw [hc, this] at hat
      rw [hmm]; exact List.perm_nil.1 hat
    · simp only [if_neg h0]
      obtain ⟨k1, k2⟩ := hs st.clock (view st.points s)
      obtain ⟨o1, o2⟩ := sort_keep ok hx k1 (st.clock + 1)
      refine ⟨⟨o1, ent_trans hh o2⟩, trivial, fun l => if l = mm.at t then srt st.clock (view st.points s) else srt 0 l, ?_, by simp⟩
      intro l
      by_cases hl : l = mm.at t
      · simp only [if_pos hl]
        refine ⟨k1.trans ?_, k2⟩
        rw [hl, hmm, ← hc]; exact hat.symm
      · simp only [if_neg hl]; exact hs 0 l

/-- The conversion on values, for the points `mm` and a way to sort for each field. -/
def cxOf (cf : Conf F) (mm : PMap) (srt : Nat → List Pointer → List Pointer) : Ctx F :=
  { env := cf.env, m := mm, tagOf := cf.tagOf, std := cf.std, zero := cf.zero, srt := srt }

/-- What is needed of memory: what is picked is the first of the points `mm` in some order that is allowed. -/
structure Picks (cf : Conf F) (mm : PMap) (I : TSt → Prop) (P : (List Pointer → List Pointer) → Prop) : Prop where
  paths : ∀ st a, I st → I { st with paths := a }
  picks : ∀ t st, I st → I (pick cf.srt t st).1 ∧ (pick cf.srt t st).1.paths = st.paths ∧ ∃ f, P f ∧ (pick cf.srt t st).2 = (f (mm.at t)).head?
  allowed : ∃ f, P f

theorem picks_hist {cf : Conf F} (hs : ∀ i, SortsPoints (cf.srt i)) {m mm : PMap} (hmm : ∀ t, mm.at t = m.at t) : Picks cf mm (Hist m) SortsPoints :=
  ⟨fun _ _ h => h, fun t _ h => pick_sim hs hmm t h, ⟨_, hs 0⟩⟩

/-- A conversion in memory ends as one on values, for some way to sort. -/
def CEnds (I : TSt → Prop) (P : (List Pointer → List Pointer) → Prop) (p : Slice) (a : Arrs GoType) (x : TSt × Res (Schema F))
    (v : (List Pointer → List Pointer) → Res (Schema F)) : Prop :=
  I x.1 ∧ AKeep p a x.1.paths ∧ ∃ f, P f ∧ x.2 = v f

theorem reference_sim {cf : Conf F} {mm : PMap} {I : TSt → Prop} {P : (List Pointer → List Pointer) → Prop} (hs : Picks cf mm I P) (t : GoType) (p : Slice) (i : Nat) {st : TSt}
    (h : I st) : CEnds I P p st.paths (reference2schema cf t st) (fun f => Types.reference2schema (cxOf cf mm fun _ => f) i t) := by
  obtain ⟨h1, h2, f, hf, h3⟩ := hs.picks t st h
  unfold reference2schema
  cases hx : pick cf.srt t st with
  | mk st1 x =>
  rw [hx] at h1 h2 h3
  simp only at h1 h2 h3
  cases x with
  | none =>
    refine ⟨h1, by rw [h2]; exact .refl _ _, f, hf, ?_⟩
    simp only [Types.reference2schema, Types.pick, cxOf, ← h3]
  | some q =>
    simp only
    cases hq : cf.std q.toStr with
    | none =>
      refine ⟨h1, by rw [h2]; exact .refl _ _, f, hf, ?_⟩
      simp only [Types.reference2schema, Types.pick, cxOf, ← h3, hq]
    | some sc =>
      refine ⟨h1, by rw [h2]; exact .refl _ _, f, hf, ?_⟩
      simp only [Types.reference2schema, Types.pick, cxOf, ← h3, hq]

/-! ### Fields -/

/-- Calls that collect fields. -/
def FCalls (p : Slice) (q : List GoType) (call : List (FieldInfo × GoType) → Arrs GoType → Arrs GoType × Res (List (StructField F)))
    (vcall : List (FieldInfo × GoType) → Res (List (StructField F))) : Prop :=
  ∀ fs a, Valid a p → view a p = q → AKeep p a (call fs a).1 ∧ (call fs a).2 = vcall fs

theorem collectLoop_sim {env : Env} {tagOf : Str → Res (TagP.Tag F)} {p : Slice} {q : List GoType}
    {call : List (FieldInfo × GoType) → Arrs GoType → Arrs GoType × Res (List (StructField F))} {vcall : List (FieldInfo × GoType) → Res (List (StructField F))}
    (hc : FCalls p q call vcall) : ∀ fs a, Valid a p → view a p = q →
    AKeep p a (collectLoop env tagOf call fs a).1 ∧ (collectLoop env tagOf call fs a).2 = Types.collectLoop env tagOf vcall fs
  | [], a, _, _ => ⟨.refl _ _, rfl⟩
  | (f, t) :: rest, a, hv, hq => by
    unfold collectLoop Types.collectLoop
    cases tagOf f.tag with
    | err e => exact ⟨.refl _ _, rfl⟩
    | panic => exact ⟨.refl _ _, rfl⟩
    | ok tx =>
      simp only
      by_cases hi : tx.ignore = true ∨ f.exported = false
      · simp only [if_pos hi]
        exact collectLoop_sim hc rest a hv hq
      · simp only [if_neg hi]
        have step : ∀ (y : Arrs GoType × Res (List (StructField F))) (v : Res (List (StructField F))), AKeep p a y.1 → y.2 = v →
            AKeep p a (match y with
              | (h, .err e) => (h, .err e)
              | (h, .panic) => (h, .panic)
              | (h, .ok z) => match collectLoop env tagOf call rest h with
                | (h, .ok l) => (h, .ok (z ++ l))
                | x => x : Arrs GoType × Res (List (StructField F))).1 ∧
            (match y with
              | (h, .err e) => (h, .err e)
              | (h, .panic) => (h, .panic)
              | (h, .ok z) => match collectLoop env tagOf call rest h with
                | (h, .ok l) => (h, .ok (z ++ l))
                | x => x : Arrs GoType × Res (List (StructField F))).2 =
            (match v with
              | .err e => .err e
              | .panic => .panic
              | .ok z => match Types.collectLoop env tagOf vcall rest with
                | .ok l => .ok (z ++ l)
                | .err e => .err e
                | .panic => .panic) := by
          rintro ⟨b, y⟩ v hk rfl
          simp only at hk
          cases y with
          | err e => exact ⟨hk, rfl⟩
          | panic => exact ⟨hk, rfl⟩
          | ok z =>
            obtain ⟨v1, w1⟩ := hk.view hv
            obtain ⟨i1, i2⟩ := collectLoop_sim (env := env) (tagOf := tagOf) hc rest b w1 (v1.trans hq)
            simp only
            cases hy : collectLoop env tagOf call rest b with
            | mk c r =>
            rw [hy] at i1 i2
            simp only at i1 i2
            rw [← i2]
            cases r with
            | ok l => exact ⟨hk.trans i1, rfl⟩
            | err e => exact ⟨hk.trans i1, rfl⟩
            | panic => exact ⟨hk.trans i1, rfl⟩
        cases castInlineStruct env f t tx with
        | none => exact step (a, .ok [⟨f, t, tx⟩]) _ (.refl _ _) rfl
        | some sf => exact step (call sf a) _ (hc sf a hv hq).1 (hc sf a hv hq).2

theorem collectFields_sim (cf : Conf F) : ∀ n fs p a, Valid a p →
    AKeep p a (collectFields cf n fs p a).1 ∧ (collectFields cf n fs p a).2 = Types.collectFields cf.env cf.tagOf n fs (view a p)
  | 0, _, _, _, _ => ⟨.refl _ _, rfl⟩
  | n + 1, fs, p, a, hv => by
    unfold collectFields Types.collectFields
    by_cases hm : GoType.struct fs ∈ view a p
    · simp only [if_pos hm]; exact ⟨.refl _ _, trivial⟩
    · simp only [if_neg hm]
      obtain ⟨k1, k2, _, _, _, k6⟩ := append1_spec cf.pathRoom hv (.struct fs)
      have := collectLoop_sim (env := cf.env) (tagOf := cf.tagOf) (p := (append1 cf.pathRoom a p (.struct fs)).2) (q := view a p ++ [.struct fs])
        (call := fun st h => collectFields cf n st (append1 cf.pathRoom a p (.struct fs)).2 h) (vcall := fun st => Types.collectFields cf.env cf.tagOf n st (view a p ++ [.struct fs]))
        (fun fs' a' hv' hq' => by have := collectFields_sim cf n fs' _ a' hv'; rw [hq'] at this; exact this) fs _ k1 k2
      exact ⟨k6 _ this.1, this.2⟩

end Oapi.GoTypes
