import Verif.Proofs.Types4
import Verif.Spec.TypeSchema

/-! Conversion of types to schemas: visible fields. -/
namespace Oapi.Types
open Spec

variable {F : Type}

/-! ### Inlining -/

theorem cast_some {env : Env} {f : FieldInfo} {t : GoType} {tx : TagP.Tag F} {st} :
    castInlineStruct env f t tx = some st ↔ WantsInline f tx ∧ IsStruct env t st := by
  have hw : WantsInline f tx ↔ tx.inline.getD f.embedded = true := by
    unfold WantsInline
    cases tx.inline with
    | none => simp
    | some b => simp
  rw [hw]
  unfold castInlineStruct IsStruct
  cases hu : under env t with
  | pointer e =>
    simp only
    cases he : under env e with
    | struct fs =>
      simp only
      split
      · rename_i h; simp [h, he]
      · rename_i h; simp [h]
    | _ => simp [he]
  | struct fs =>
    simp only
    split
    · rename_i h; simp [h]
    · rename_i h; simp [h]
  | _ => simp

/-- Depth of inlining. -/
inductive InlK (env : Env) (tagOf : Str → Res (TagP.Tag F)) (s : List (FieldInfo × GoType)) : Nat → List (FieldInfo × GoType) → Prop
  | zero : InlK env tagOf s 0 s
  | succ {k fs st} : InlinedInto env tagOf fs st → InlK env tagOf s k st → InlK env tagOf s (k + 1) fs

/-- Inlining that avoids the structs on a path. -/
inductive InlP (env : Env) (tagOf : Str → Res (TagP.Tag F)) (s : List (FieldInfo × GoType)) : List GoType → List (FieldInfo × GoType) → Prop
  | zero {p} : .struct s ∉ p → InlP env tagOf s p s
  | succ {p fs st} : .struct fs ∉ p → InlinedInto env tagOf fs st → InlP env tagOf s (p ++ [.struct fs]) st → InlP env tagOf s p fs

theorem InlK.snoc {env : Env} {tagOf : Str → Res (TagP.Tag F)} {a b c k} (h : InlK env tagOf b k a) (hc : InlinedInto env tagOf b c) :
    InlK env tagOf c (k + 1) a := by
  induction h with
  | zero => exact .succ hc .zero
  | succ h1 _ ih => exact .succ h1 ih

theorem InlineReach.toK {env : Env} {tagOf : Str → Res (TagP.Tag F)} {fs st} (h : InlineReach env tagOf fs st) : ∃ k, InlK env tagOf st k fs := by
  induction h with
  | refl => exact ⟨0, .zero⟩
  | step _ hc ih =>
    obtain ⟨k, hk⟩ := ih
    exact ⟨k + 1, hk.snoc hc⟩

theorem InlineReach.trans' {env : Env} {tagOf : Str → Res (TagP.Tag F)} {a b c} (h : InlineReach env tagOf a b) (h' : InlineReach env tagOf b c) :
    InlineReach env tagOf a c := by
  induction h' with
  | refl => exact h
  | step _ hc ih => exact .step ih hc

theorem InlK.toP {env : Env} {tagOf : Str → Res (TagP.Tag F)} {s fs k p} (h : InlK env tagOf s k fs) (hmin : ∀ k' < k, ¬ InlK env tagOf s k' fs)
    (hp : ∀ x, .struct x ∈ p → ∀ k' ≤ k, ¬ InlK env tagOf s k' x) : InlP env tagOf s p fs := by
  induction h generalizing p with
  | zero => exact .zero fun hm => hp s hm 0 (by omega) .zero
  | @succ k fs st h1 h2 ih =>
    refine .succ (fun hm => hp fs hm (k + 1) (by omega) (.succ h1 h2)) h1 (ih ?_ ?_)
    · intro k' hk' hx
      exact hmin (k' + 1) (by omega) (.succ h1 hx)
    · intro x hx k' hk' hK
      rcases List.mem_append.1 hx with hx | hx
      · exact hp x hx k' (by omega) hK
      · rw [List.mem_singleton] at hx; cases hx
        exact hmin k' (by omega) hK

theorem InlineReach.toP {env : Env} {tagOf : Str → Res (TagP.Tag F)} {fs st} (h : InlineReach env tagOf fs st) : InlP env tagOf st [] fs := by
  obtain ⟨k, hk⟩ := InlineReach.toK h
  have hex : ∃ k, InlK env tagOf st k fs ∧ ∀ k' < k, ¬ InlK env tagOf st k' fs := by
    induction k using Nat.strongRecOn with
    | ind k ih =>
      by_cases hm : ∃ k', k' < k ∧ InlK env tagOf st k' fs
      · obtain ⟨k', h1, h2⟩ := hm
        exact ih k' h1 h2
      · exact ⟨k, hk, fun k' h1 h2 => hm ⟨k', h1, h2⟩⟩
  obtain ⟨k, h1, h2⟩ := hex
  exact h1.toP h2 (by intro x hx; cases hx)

/-! ### `collectFields` -/

/-- The loop succeeds exactly if all tags parse and all recursive calls succeed; its elements. -/
theorem collectLoop_ok {env : Env} {tagOf : Str → Res (TagP.Tag F)} {call : List (FieldInfo × GoType) → Res (List (StructField F))} :
    ∀ {l : List (FieldInfo × GoType)} {arr}, collectLoop env tagOf call l = .ok arr →
    (∀ e ∈ l, ∃ tx, tagOf e.1.tag = .ok tx) ∧
    (∀ f t tx st, Shown tagOf l f t tx → castInlineStruct env f t tx = some st → ∃ z, call st = .ok z ∧ ∀ x ∈ z, x ∈ arr) ∧
    (∀ x, Shown tagOf l x.field x.typ x.tag → castInlineStruct env x.field x.typ x.tag = none → x ∈ arr) ∧
    ∀ x ∈ arr, (Shown tagOf l x.field x.typ x.tag ∧ castInlineStruct env x.field x.typ x.tag = none) ∨
      ∃ f t tx st z, Shown tagOf l f t tx ∧ castInlineStruct env f t tx = some st ∧ call st = .ok z ∧ x ∈ z := by
  intro l
  induction l with
  | nil =>
    intro arr h; cases h
    exact ⟨(by intro e he; cases he), (by rintro f t tx st ⟨h, _⟩; cases h), (by rintro x ⟨h, _⟩; cases h), (by intro x hx; cases hx)⟩
  | cons a l ih =>
    intro arr h
    obtain ⟨f, t⟩ := a
    simp only [collectLoop] at h
    cases htag : tagOf f.tag with
    | err e => rw [htag] at h; cases h
    | panic => rw [htag] at h; cases h
    | ok tx =>
      rw [htag] at h
      simp only at h
      have up : ∀ g s ty, Shown tagOf l g s ty → Shown tagOf ((f, t) :: l) g s ty := by
        rintro g s ty ⟨h1, h2⟩; exact ⟨by simp [h1], h2⟩
      by_cases hsk : tx.ignore = true ∨ f.exported = false
      · rw [if_pos hsk] at h
        have down : ∀ g s ty, Shown tagOf ((f, t) :: l) g s ty → Shown tagOf l g s ty := by
          rintro g s ty ⟨h1, h2, h3, h4⟩
          rcases List.mem_cons.1 h1 with e | h1
          · cases e
            rw [htag] at h3; cases h3
            rcases hsk with h | h
            · rw [h4] at h; cases h
            · rw [h2] at h; cases h
          · exact ⟨h1, h2, h3, h4⟩
        obtain ⟨i1, i2, i3, i4⟩ := ih h
        refine ⟨?_, fun g s ty st hs => i2 g s ty st (down _ _ _ hs), fun x hs => i3 x (down _ _ _ hs), ?_⟩
        · intro e he
          rcases List.mem_cons.1 he with rfl | he
          · exact ⟨tx, htag⟩
          · exact i1 e he
        · intro x hx
          rcases i4 x hx with ⟨h1, h2⟩ | ⟨g, s, ty, st, z, h1, h2⟩
          · exact .inl ⟨up _ _ _ h1, h2⟩
          · exact .inr ⟨g, s, ty, st, z, up _ _ _ h1, h2⟩
      · rw [if_neg hsk] at h
        have hig : tx.ignore = false := by
          cases hb : tx.ignore with
          | true => exact absurd (.inl hb) hsk
          | false => rfl
        have hex : f.exported = true := by
          cases hb : f.exported with
          | false => exact absurd (.inr hb) hsk
          | true => rfl
        have hsh : Shown tagOf ((f, t) :: l) f t tx := ⟨by simp, hex, htag, hig⟩
        have split : ∀ g s ty, Shown tagOf ((f, t) :: l) g s ty → (g = f ∧ s = t ∧ ty = tx) ∨ Shown tagOf l g s ty := by
          rintro g s ty ⟨h1, h2, h3, h4⟩
          rcases List.mem_cons.1 h1 with e | h1
          · cases e
            rw [htag] at h3; cases h3
            exact .inl ⟨rfl, rfl, rfl⟩
          · exact .inr ⟨h1, h2, h3, h4⟩
        cases hc : castInlineStruct env f t tx with
        | some st =>
          rw [hc] at h
          simp only at h
          cases hz : call st with
          | err e => rw [hz] at h; cases h
          | panic => rw [hz] at h; cases h
          | ok z =>
            rw [hz] at h
            simp only at h
            cases hl : collectLoop env tagOf call l with
            | err e => rw [hl] at h; cases h
            | panic => rw [hl] at h; cases h
            | ok arr' =>
              rw [hl] at h
              simp only at h
              cases h
              obtain ⟨i1, i2, i3, i4⟩ := ih hl
              refine ⟨?_, ?_, ?_, ?_⟩
              · intro e he
                rcases List.mem_cons.1 he with rfl | he
                · exact ⟨tx, htag⟩
                · exact i1 e he
              · intro g s ty st' hs hc'
                rcases split _ _ _ hs with ⟨rfl, rfl, rfl⟩ | hs
                · rw [hc] at hc'; cases hc'
                  exact ⟨z, hz, fun x hx => by simp [hx]⟩
                · obtain ⟨z', h1, h2⟩ := i2 _ _ _ _ hs hc'
                  exact ⟨z', h1, fun x hx => by simp [h2 x hx]⟩
              · intro x hs hn
                rcases split _ _ _ hs with ⟨e1, e2, e3⟩ | hs
                · rw [e1, e2, e3, hc] at hn; cases hn
                · simp [i3 x hs hn]
              · intro x hx
                rcases List.mem_append.1 hx with hx | hx
                · exact .inr ⟨f, t, tx, st, z, hsh, hc, hz, hx⟩
                · rcases i4 x hx with ⟨h1, h2⟩ | ⟨g, s, ty, st, z, h1, h2⟩
                  · exact .inl ⟨up _ _ _ h1, h2⟩
                  · exact .inr ⟨g, s, ty, st, z, up _ _ _ h1, h2⟩
        | none =>
          rw [hc] at h
          simp only at h
          cases hl : collectLoop env tagOf call l with
          | err e => rw [hl] at h; cases h
          | panic => rw [hl] at h; cases h
          | ok arr' =>
            rw [hl] at h
            simp only at h
            cases h
            obtain ⟨i1, i2, i3, i4⟩ := ih hl
            refine ⟨?_, ?_, ?_, ?_⟩
            · intro e he
              rcases List.mem_cons.1 he with rfl | he
              · exact ⟨tx, htag⟩
              · exact i1 e he
            · intro g s ty st' hs hc'
              rcases split _ _ _ hs with ⟨rfl, rfl, rfl⟩ | hs
              · rw [hc] at hc'; cases hc'
              · obtain ⟨z', h1, h2⟩ := i2 _ _ _ _ hs hc'
                exact ⟨z', h1, fun x hx => by simp [h2 x hx]⟩
            · intro x hs hn
              rcases split _ _ _ hs with ⟨e1, e2, e3⟩ | hs
              · obtain ⟨xf, xt, xg⟩ := x
                simp only at e1 e2 e3
                subst e1 e2 e3
                simp
              · simp [i3 x hs hn]
            · intro x hx
              rcases List.mem_append.1 hx with hx | hx
              · rw [List.mem_singleton] at hx
                subst hx
                exact .inl ⟨hsh, hc⟩
              · rcases i4 x hx with ⟨h1, h2⟩ | ⟨g, s, ty, st, z, h1, h2⟩
                · exact .inl ⟨up _ _ _ h1, h2⟩
                · exact .inr ⟨g, s, ty, st, z, up _ _ _ h1, h2⟩

/-- If the loop does not succeed, a tag does not parse or a recursive call does not succeed. -/
theorem collectLoop_fail {env : Env} {tagOf : Str → Res (TagP.Tag F)} {call : List (FieldInfo × GoType) → Res (List (StructField F))} :
    ∀ {l : List (FieldInfo × GoType)} {x}, collectLoop env tagOf call l = x → (∀ arr, x ≠ .ok arr) →
    (∃ e ∈ l, (∃ err, tagOf e.1.tag = .err err ∧ x = .err err) ∨ (tagOf e.1.tag = .panic ∧ x = .panic)) ∨
    ∃ f t tx st, Shown tagOf l f t tx ∧ castInlineStruct env f t tx = some st ∧ call st = x := by
  intro l
  induction l with
  | nil => intro x h hx; exact absurd h.symm (hx _)
  | cons a l ih =>
    intro x h hx
    obtain ⟨f, t⟩ := a
    have up : (∃ e ∈ l, (∃ err, tagOf e.1.tag = .err err ∧ x = .err err) ∨ (tagOf e.1.tag = .panic ∧ x = .panic)) ∨
        (∃ f t tx st, Shown tagOf l f t tx ∧ castInlineStruct env f t tx = some st ∧ call st = x) →
        (∃ e ∈ (f, t) :: l, (∃ err, tagOf e.1.tag = .err err ∧ x = .err err) ∨ (tagOf e.1.tag = .panic ∧ x = .panic)) ∨
        ∃ g s tx st, Shown tagOf ((f, t) :: l) g s tx ∧ castInlineStruct env g s tx = some st ∧ call st = x := by
      rintro (⟨e, he, h⟩ | ⟨g, s, tx, st, ⟨h1, h2⟩, h3⟩)
      · exact .inl ⟨e, by simp [he], h⟩
      · exact .inr ⟨g, s, tx, st, ⟨by simp [h1], h2⟩, h3⟩
    simp only [collectLoop] at h
    cases htag : tagOf f.tag with
    | err e =>
      rw [htag] at h
      exact .inl ⟨(f, t), by simp, .inl ⟨e, htag, h.symm⟩⟩
    | panic =>
      rw [htag] at h
      exact .inl ⟨(f, t), by simp, .inr ⟨htag, h.symm⟩⟩
    | ok tx =>
      rw [htag] at h
      simp only at h
      by_cases hsk : tx.ignore = true ∨ f.exported = false
      · rw [if_pos hsk] at h
        exact up (ih h hx)
      · rw [if_neg hsk] at h
        have hig : tx.ignore = false := by
          cases hb : tx.ignore with
          | true => exact absurd (.inl hb) hsk
          | false => rfl
        have hex : f.exported = true := by
          cases hb : f.exported with
          | false => exact absurd (.inr hb) hsk
          | true => rfl
        have hsh : Shown tagOf ((f, t) :: l) f t tx := ⟨by simp, hex, htag, hig⟩
        have tail : ∀ {z : List (StructField F)}, (match collectLoop env tagOf call l with
            | .ok l => .ok (z ++ l)
            | .err e => .err e
            | .panic => .panic) = x → collectLoop env tagOf call l = x := by
          intro z hz
          cases hl : collectLoop env tagOf call l with
          | ok l' => rw [hl] at hz; exact absurd hz.symm (hx _)
          | err e => rw [hl] at hz; exact hz
          | panic => rw [hl] at hz; exact hz
        cases hc : castInlineStruct env f t tx with
        | some st =>
          rw [hc] at h
          simp only at h
          cases hz : call st with
          | err e => rw [hz] at h; exact .inr ⟨f, t, tx, st, hsh, hc, by rw [hz]; exact h⟩
          | panic => rw [hz] at h; exact .inr ⟨f, t, tx, st, hsh, hc, by rw [hz]; exact h⟩
          | ok z =>
            rw [hz] at h
            exact up (ih (tail h) hx)
        | none =>
          rw [hc] at h
          exact up (ih (tail h) hx)

theorem inl_parts {env : Env} {W : List GoType} (hW : Closed env W) {tagOf : Str → Res (TagP.Tag F)} {fs st} (h : InlinedInto env tagOf fs st)
    (hm : .struct fs ∈ W) : .struct st ∈ W := by
  obtain ⟨f, t, tx, ⟨h1, _⟩, _, h3⟩ := h
  have ht : t ∈ W := hW.parts _ hm t (by
    simp only [parts, List.mem_cons]
    exact .inr (partsF_mem.2 ⟨_, h1, self_mem_parts _⟩))
  rcases h3 with h3 | ⟨e, h3, h4⟩
  · rw [← h3]; exact hW.under _ ht
  · rw [← h4]
    refine hW.under _ (hW.parts _ (hW.under _ ht) e ?_)
    rw [h3]; simp [parts, self_mem_parts]

/-- What `collectFields` does not do at sufficient depth: run out. -/
theorem collectFields_fuel {env : Env} {W : List GoType} (hW : Closed env W) {tagOf : Str → Res (TagP.Tag F)} (ht : ∀ s, tagOf s ≠ .err .fuel) :
    ∀ n fs p, .struct fs ∈ W → p.Nodup → (∀ x ∈ p, x ∈ W) → W.length + 1 ≤ n + p.length → collectFields env tagOf n fs p ≠ .err .fuel := by
  intro n
  induction n with
  | zero =>
    intro fs p _ hp hs h1
    have := pigeonT hp hs
    omega
  | succ n ih =>
    intro fs p hm hp hs h1 h
    simp only [collectFields] at h
    split at h
    · cases h
    · rename_i hni
      rcases collectLoop_fail h (by intro arr ha; cases ha) with ⟨e, he, ⟨er, h2, h3⟩ | ⟨_, h3⟩⟩ | ⟨f, t, tx, st, hsh, hc, hcall⟩
      · cases h3; exact ht _ h2
      · cases h3
      · obtain ⟨hw, his⟩ := cast_some.1 hc
        refine ih st (p ++ [.struct fs]) (inl_parts hW ⟨f, t, tx, hsh, hw, his⟩ hm) (nodup_snocT hp hni) ?_ ?_ hcall
        · intro x hx
          rcases List.mem_append.1 hx with hx | hx
          · exact hs x hx
          · rw [List.mem_singleton] at hx; subst hx; exact hm
        · simp only [List.length_append, List.length_cons, List.length_nil]; omega

/-- A result that is not an exhausted depth does not change with more depth. -/
theorem collectFields_ok {env : Env} {tagOf : Str → Res (TagP.Tag F)} :
    ∀ n fs p arr, collectFields env tagOf n fs p = .ok arr →
    (∀ st, InlP env tagOf st p fs → (∀ e ∈ st, ∃ tx, tagOf e.1.tag = .ok tx) ∧ ∀ x, OwnField env tagOf st x → x ∈ arr) ∧
    ∀ x ∈ arr, VisibleField env tagOf fs x := by
  intro n
  induction n with
  | zero => intro fs p arr h; cases h
  | succ n ih =>
    intro fs p arr h
    simp only [collectFields] at h
    by_cases hin : GoType.struct fs ∈ p
    · rw [if_pos hin] at h
      cases h
      refine ⟨?_, by intro x hx; cases hx⟩
      intro st hst
      cases hst with
      | zero hni => exact absurd hin hni
      | succ hni _ _ => exact absurd hin hni
    · rw [if_neg hin] at h
      obtain ⟨h1, h2, h3, h4⟩ := collectLoop_ok h
      refine ⟨?_, ?_⟩
      · intro st hst
        cases hst with
        | zero _ =>
          refine ⟨h1, ?_⟩
          intro x ⟨hsh, hno⟩
          refine h3 x hsh ?_
          cases hc : castInlineStruct env x.field x.typ x.tag with
          | none => rfl
          | some s => obtain ⟨hw, his⟩ := cast_some.1 hc; exact absurd ⟨hw, s, his⟩ hno
        | @succ _ _ s' _ hinl hrest =>
          obtain ⟨f, t, tx, hsh, hw, his⟩ := hinl
          obtain ⟨z, hz, hsub⟩ := h2 f t tx s' hsh (cast_some.2 ⟨hw, his⟩)
          obtain ⟨i1, _⟩ := ih _ _ _ hz
          obtain ⟨j1, j2⟩ := i1 st hrest
          exact ⟨j1, fun x hx => hsub x (j2 x hx)⟩
      · intro x hx
        rcases h4 x hx with ⟨hsh, hc⟩ | ⟨f, t, tx, s', z, hsh, hc, hz, hxz⟩
        · refine ⟨fs, .refl, hsh, ?_⟩
          rintro ⟨hw, s, his⟩
          rw [cast_some.2 ⟨hw, his⟩] at hc; cases hc
        · obtain ⟨hw, his⟩ := cast_some.1 hc
          obtain ⟨st, h5, h6⟩ := (ih _ _ _ hz).2 x hxz
          exact ⟨st, InlineReach.trans' (.step .refl ⟨f, t, tx, hsh, hw, his⟩) h5, h6⟩

theorem collectFields_bad {env : Env} {tagOf : Str → Res (TagP.Tag F)} (hnp : ∀ s, tagOf s ≠ .panic) :
    ∀ n fs p x, collectFields env tagOf n fs p = x → (∀ arr, x ≠ .ok arr) → (∃ e, x = .err e) ∧ (x = .err .fuel ∨ BadTag env tagOf fs) := by
  intro n
  induction n with
  | zero => intro fs p x h _; subst h; exact ⟨⟨.fuel, rfl⟩, .inl rfl⟩
  | succ n ih =>
    intro fs p x h hx
    simp only [collectFields] at h
    split at h
    · exact absurd h.symm (hx _)
    · rcases collectLoop_fail h hx with ⟨e, he, ⟨er, h2, h3⟩ | ⟨h2, _⟩⟩ | ⟨f, t, tx, st, hsh, hc, hcall⟩
      · exact ⟨⟨er, h3⟩, .inr ⟨fs, .refl, e, he, er, h2⟩⟩
      · exact absurd h2 (hnp _)
      · obtain ⟨hw, his⟩ := cast_some.1 hc
        obtain ⟨i1, i2⟩ := ih _ _ _ hcall hx
        refine ⟨i1, ?_⟩
        rcases i2 with i2 | ⟨s, h5, h6⟩
        · exact .inl i2
        · exact .inr ⟨s, InlineReach.trans' (.step .refl ⟨f, t, tx, hsh, hw, his⟩) h5, h6⟩

/-- What `collectFields` gives at a sufficient depth. -/
theorem collectFields_top {env : Env} {tagOf : Str → Res (TagP.Tag F)} (hnp : ∀ s, tagOf s ≠ .panic) (hnf : ∀ s, tagOf s ≠ .err .fuel)
    (fs : List (FieldInfo × GoType)) {n : Nat} (hn : depth env (.struct fs) ≤ n) :
    (∃ arr, collectFields env tagOf n fs [] = .ok arr ∧ ¬ BadTag env tagOf fs ∧ ∀ x, x ∈ arr ↔ VisibleField env tagOf fs x) ∨
    (∃ e, collectFields env tagOf n fs [] = .err e ∧ BadTag env tagOf fs ∧ e ≠ .fuel) := by
  have hfuel := collectFields_fuel (world_closed env (.struct fs)) hnf n fs [] (self_mem_world _ _) (by simp) (by simp)
    (by simpa [depth] using hn)
  cases h : collectFields env tagOf n fs [] with
  | ok arr =>
    obtain ⟨h1, h2⟩ := collectFields_ok n fs [] arr h
    refine .inl ⟨arr, rfl, ?_, ?_⟩
    · rintro ⟨st, hr, e, he, er, hbad⟩
      obtain ⟨tx, ht⟩ := (h1 st (InlineReach.toP hr)).1 e he
      rw [hbad] at ht; cases ht
    · intro x
      constructor
      · exact h2 x
      · rintro ⟨st, hr, ho⟩
        exact (h1 st (InlineReach.toP hr)).2 x ho
  | err e =>
    obtain ⟨_, h2⟩ := collectFields_bad hnp n fs [] _ h (by intro arr ha; cases ha)
    rw [h] at hfuel
    rcases h2 with h2 | h2
    · exact absurd h2 hfuel
    · exact .inr ⟨e, rfl, h2, by rintro rfl; exact hfuel rfl⟩
  | panic =>
    obtain ⟨⟨e, he⟩, _⟩ := collectFields_bad hnp n fs [] _ h (by intro arr ha; cases ha)
    cases he

end Oapi.Types
