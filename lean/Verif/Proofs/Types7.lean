import Verif.Proofs.Types6

/-! Conversion of types to schemas: structs. -/
namespace Oapi.Types
open Spec

variable {F : Type}

/-! ### Properties as a map -/

theorem putProp_lookup (k : Str) (v : Schema F) (l : List (Str × Schema F)) (k' : Str) :
    (putProp k v l).lookup k' = if k' = k then some v else l.lookup k' := by
  induction l with
  | nil =>
    simp only [putProp, List.lookup]
    by_cases h : k' = k
    · subst h; simp
    · rw [if_neg h]
      have : (k' == k) = false := by simpa using h
      simp [this]
  | cons a l ih =>
    obtain ⟨a, b⟩ := a
    simp only [putProp]
    by_cases h : k = a
    · subst h
      rw [if_pos rfl]
      by_cases h2 : k' = k
      · subst h2; simp [List.lookup]
      · rw [if_neg h2]
        have : (k' == k) = false := by simpa using h2
        simp [List.lookup, this]
    · rw [if_neg h]
      by_cases h2 : k' = a
      · subst h2
        rw [if_neg (fun e => h e.symm)]
        simp [List.lookup]
      · have : (k' == a) = false := by simpa using h2
        simp only [List.lookup, this]
        exact ih

theorem putProp_keys (k : Str) (v : Schema F) (l : List (Str × Schema F)) : ∀ x, x ∈ (putProp k v l).map Prod.fst ↔ x = k ∨ x ∈ l.map Prod.fst := by
  induction l with
  | nil => intro x; simp [putProp]
  | cons a l ih =>
    intro x
    obtain ⟨a, b⟩ := a
    simp only [putProp]
    by_cases h : k = a
    · subst h
      rw [if_pos rfl]
      simp only [List.map_cons, List.mem_cons]
      constructor
      · exact fun h => .inr h
      · rintro (h | h)
        · exact .inl h
        · exact h
    · rw [if_neg h]
      simp only [List.map_cons, List.mem_cons, ih x]
      constructor
      · rintro (h | h | h)
        · exact .inr (.inl h)
        · exact .inl h
        · exact .inr (.inr h)
      · rintro (h | h | h)
        · exact .inr (.inl h)
        · exact .inl h
        · exact .inr (.inr h)

theorem putProp_nodup (k : Str) (v : Schema F) (l : List (Str × Schema F)) (h : (l.map Prod.fst).Nodup) : ((putProp k v l).map Prod.fst).Nodup := by
  induction l with
  | nil => simp [putProp]
  | cons a l ih =>
    obtain ⟨a, b⟩ := a
    simp only [putProp]
    rw [List.map_cons, List.nodup_cons] at h
    by_cases e : k = a
    · rw [if_pos e, List.map_cons, List.nodup_cons]
      subst e
      exact h
    · rw [if_neg e, List.map_cons, List.nodup_cons]
      refine ⟨?_, ih h.2⟩
      rw [putProp_keys]
      rintro (h' | h')
      · exact e h'.symm
      · exact h.1 h'

theorem key_eq (x : StructField F) : x.key = propName x := by
  unfold StructField.key propName
  by_cases h : x.tag.name = []
  · rw [if_pos h, if_neg (by simp [h])]
  · rw [if_neg h, if_pos h]

/-- The properties after the fields `ss`. -/
def putAll (ss : List (StructField F × Schema F)) (props : List (Str × Schema F)) : List (Str × Schema F) :=
  ss.foldl (fun pr e => putProp (propName e.1) (withFlags e.1 e.2) pr) props

theorem putAll_lookup (k : Str) : ∀ (ss : List (StructField F × Schema F)) (props : List (Str × Schema F)),
    (putAll ss props).lookup k = ((ss.reverse.find? fun e => decide (propName e.1 = k)).map fun e => withFlags e.1 e.2).or (props.lookup k) := by
  intro ss
  induction ss with
  | nil => intro props; rfl
  | cons a ss ih =>
    intro props
    have : putAll (a :: ss) props = putAll ss (putProp (propName a.1) (withFlags a.1 a.2) props) := rfl
    rw [this, ih, List.reverse_cons, List.find?_append, putProp_lookup]
    cases hf : ss.reverse.find? fun e => decide (propName e.1 = k) with
    | some e => simp
    | none =>
      by_cases h : propName a.1 = k
      · simp [List.find?, h]
      · rw [if_neg (fun e => h e.symm)]
        simp [List.find?, h]

theorem putAll_nodup : ∀ (ss : List (StructField F × Schema F)) (props : List (Str × Schema F)), (props.map Prod.fst).Nodup →
    ((putAll ss props).map Prod.fst).Nodup := by
  intro ss
  induction ss with
  | nil => intro props h; exact h
  | cons a ss ih => intro props h; exact ih _ (putProp_nodup _ _ _ h)

theorem withFlags_ref {x : StructField F} {s : Schema F} (h : s.ref.isSome = true) : withFlags x s = s := by
  unfold withFlags
  rw [if_neg (by intro e; rw [e] at h; cases h)]

theorem withFlags_flat {x : StructField F} {s : Schema F} (h : ¬ s.ref.isSome = true) : withFlags x s = s.withAttrs (dress x.tag) := by
  unfold withFlags
  rw [if_pos (by simpa using h)]
  rfl

/-- The loop over the fields. -/
theorem structLoop_res {cx : Ctx F} {call : Nat → GoType → TagP.Tag F → Res (Schema F)} {B : StructField F → Prop}
    {D : StructField F → Schema F → Prop} : ∀ (xs : List (StructField F)) (i : Nat) (props : List (Str × Schema F)) (req : List Str),
    (∀ x ∈ xs, ∀ i, (B x ∧ fieldSchema cx call i x = .err .unsupported) ∨ (¬ B x ∧ ∃ s, fieldSchema cx call i x = .ok s ∧ D x s)) →
    ((∃ x ∈ xs, B x) ∧ structLoop cx call i xs props req = .err .unsupported) ∨
    ((∀ x ∈ xs, ¬ B x) ∧ ∃ ss : List (StructField F × Schema F), ss.map Prod.fst = xs ∧ (∀ e ∈ ss, D e.1 e.2) ∧
      structLoop cx call i xs props req = .ok (putAll ss props,
        req ++ (ss.filter fun e => e.1.tag.required && decide (e.2.ref = none)).map fun e => propName e.1)) := by
  intro xs
  induction xs with
  | nil =>
    intro i props req _
    exact .inr ⟨(by intro x hx; cases hx), [], rfl, (by intro e he; cases he), (by simp [structLoop, putAll])⟩
  | cons x xs ih =>
    intro i props req h
    have hrest := fun y (hy : y ∈ xs) => h y (List.mem_cons_of_mem _ hy)
    simp only [structLoop]
    rcases h x (by simp) i with ⟨hb, hf⟩ | ⟨hb, s, hf, hD⟩
    · rw [hf]
      exact .inl ⟨⟨x, by simp, hb⟩, rfl⟩
    · rw [hf]
      simp only [key_eq]
      by_cases hr : s.ref.isSome = true
      · rw [if_pos hr]
        rcases ih (i + 1) (putProp (propName x) s props) req hrest with ⟨⟨y, hy, hB⟩, he⟩ | ⟨hB, ss, h1, h2, h3⟩
        · exact .inl ⟨⟨y, by simp [hy], hB⟩, he⟩
        · refine .inr ⟨?_, (x, s) :: ss, by simp [h1], ?_, ?_⟩
          · intro y hy
            rcases List.mem_cons.1 hy with rfl | hy
            · exact hb
            · exact hB y hy
          · intro e he
            rcases List.mem_cons.1 he with rfl | he
            · exact hD
            · exact h2 e he
          · rw [h3]
            have hn : decide (s.ref = none) = false := by
              cases hs : s.ref with
              | none => rw [hs] at hr; cases hr
              | some p => simp
            have : putAll ((x, s) :: ss) props = putAll ss (putProp (propName x) (withFlags x s) props) := rfl
            rw [this, withFlags_ref hr]
            simp [hn]
      · rw [if_neg hr]
        have hn : s.ref = none := by simpa using hr
        rcases ih (i + 1) (putProp (propName x) (s.withAttrs (dress x.tag)) props) (if x.tag.required = true then req ++ [propName x] else req) hrest
          with ⟨⟨y, hy, hB⟩, he⟩ | ⟨hB, ss, h1, h2, h3⟩
        · exact .inl ⟨⟨y, by simp [hy], hB⟩, he⟩
        · refine .inr ⟨?_, (x, s) :: ss, by simp [h1], ?_, ?_⟩
          · intro y hy
            rcases List.mem_cons.1 hy with rfl | hy
            · exact hb
            · exact hB y hy
          · intro e he
            rcases List.mem_cons.1 he with rfl | he
            · exact hD
            · exact h2 e he
          · rw [h3]
            have : putAll ((x, s) :: ss) props = putAll ss (putProp (propName x) (withFlags x s) props) := rfl
            rw [this, withFlags_flat hr]
            congr 2
            by_cases hq : x.tag.required = true
            · rw [if_pos hq]
              simp [hq, hn]
            · rw [if_neg hq]
              simp [hq]

/-! ### Fields of a struct -/

theorem TypeDescribes.same {env : Env} {m : PMap} {std : Str → Option (Schema F)} {zero : F} {tg : TagP.Tag F} {seen : List GoType}
    {t t' : GoType} {s : Schema F} (h : TypeDescribes env m std zero tg seen t s) (e : under env t = under env t') :
    TypeDescribes env m std zero tg seen t' s := by
  cases h with
  | ref h1 h2 h3 => exact .ref (e ▸ h1) (e ▸ h2) h3
  | std h1 h2 h3 => exact .std (e ▸ h1) (e ▸ h2) h3
  | basic h0 h1 h2 => exact .basic (e ▸ h0) (e ▸ h1) h2
  | slice h0 h1 h2 => exact .slice (e ▸ h0) (e ▸ h1) h2
  | array h0 h1 h2 => exact .array (e ▸ h0) (e ▸ h1) h2
  | map h0 h1 h2 => exact .map (e ▸ h0) (e ▸ h1) h2
  | pointer h0 h1 h2 h3 => exact .pointer (e ▸ h0) (e ▸ h1) h2 h3
  | pointerRef h0 h1 h2 h3 h4 => exact .pointerRef (e ▸ h0) (e ▸ h1) h2 h3 h4
  | pointerOne h0 h1 h2 h3 h4 => exact .pointerOne (e ▸ h0) (e ▸ h1) h2 h3 h4

theorem Unsupported.same {env : Env} {t t' : GoType} (h : Unsupported env t) (e : under env t = under env t') : Unsupported env t' := by
  obtain ⟨k, hk⟩ := Unsupported.toK h
  exact (hk.same e).to

theorem field_child {fs : List (FieldInfo × GoType)} (h : StructOK fs) {f : FieldInfo} {t : GoType} (hm : (f, t) ∈ fs) (hx : f.exported = true) :
    Child (.struct fs) t := ⟨f.name, by simp only [stepInto, find_unique h hm hx, Option.map_some]⟩

theorem TypeOK.reach {pr : Prog} (hp : ProgOK pr) {u v : GoType} (h : TReach pr.env u v) (hu : TypeOK pr.env u) : TypeOK pr.env v := by
  induction h with
  | refl => exact hu
  | step _ hc ih =>
    obtain ⟨tok, hs⟩ := hc
    exact TypeOK.under hp (TypeOK.part ih (stepInto_parts hs))

theorem inline_reach {pr : Prog} (hp : ProgOK pr) {tagOf : Str → Res (TagP.Tag F)} {fs st : List (FieldInfo × GoType)}
    (h : InlineReach pr.env tagOf fs st) (hok : TypeOK pr.env (.struct fs)) : TReach pr.env (.struct fs) (.struct st) := by
  induction h with
  | refl => exact .refl
  | step _ hc ih =>
    rename_i s st' _
    obtain ⟨f, t, tx, ⟨h1, h2, _⟩, _, h3⟩ := hc
    have hs : StructOK s := (TypeOK.reach hp ih hok).1 s (self_mem_parts _)
    have hch := field_child hs h1 h2
    rcases h3 with h3 | ⟨e, h3, h4⟩
    · rw [← h3]; exact .step ih hch
    · rw [← h4]
      refine .step (.step ih hch) ?_
      rw [h3]
      exact ⟨b!"*", rfl⟩

theorem visible_reach {pr : Prog} (hp : ProgOK pr) {tagOf : Str → Res (TagP.Tag F)} {fs : List (FieldInfo × GoType)} {x : StructField F}
    (h : VisibleField pr.env tagOf fs x) (hok : TypeOK pr.env (.struct fs)) : TReach pr.env (.struct fs) (under pr.env x.typ) := by
  obtain ⟨st, h1, ⟨h2, h3, _⟩, _⟩ := h
  have hr := inline_reach hp h1 hok
  have hs : StructOK st := (TypeOK.reach hp hr hok).1 st (self_mem_parts _)
  exact .step hr (field_child hs h2 h3)

theorem closed_reach {env : Env} {W : List GoType} (hW : Closed env W) {u v : GoType} (h : TReach env u v) (hu : u ∈ W) : v ∈ W := by
  induction h with
  | refl => exact hu
  | step _ hc ih =>
    obtain ⟨tok, hs⟩ := hc
    exact hW.under _ (hW.parts _ ih _ (stepInto_parts hs))

/-- A field that cannot be converted. -/
def FieldFails (env : Env) (x : StructField F) : Prop := BadTypeWord x ∨ (x.tag.type = [] ∧ Unsupported env x.typ)

theorem fieldSchema_struct {cx : Ctx F} {call : Nat → GoType → TagP.Tag F → Res (Schema F)} {i : Nat} {x : StructField F} (hty : x.tag.type = [])
    {st : List (FieldInfo × GoType)} (hu : under cx.env x.typ = .struct st) : fieldSchema cx call i x = reference2schema cx i (.struct st) := by
  unfold fieldSchema
  rw [if_neg (by simp [hty]), hu]

theorem fieldSchema_other {cx : Ctx F} {call : Nat → GoType → TagP.Tag F → Res (Schema F)} {i : Nat} {x : StructField F} (hty : x.tag.type = [])
    (hu : ∀ st, under cx.env x.typ ≠ .struct st) : fieldSchema cx call i x = call i (under cx.env x.typ) x.tag := by
  unfold fieldSchema
  rw [if_neg (by simp [hty])]
  split
  · exact absurd ‹_› (hu _)
  · rfl

theorem field_res {pr : Prog} (hp : ProgOK pr) {cx : Ctx F} (hc : CtxOK pr cx) {fs : List (FieldInfo × GoType)} {n : Nat} {W : List GoType}
    (hW : Closed pr.env W) (hm : .struct fs ∈ W) (hn : W.length ≤ n) (hok : TypeOK pr.env (.struct fs))
    (hreg : ∀ v, TReach pr.env (.struct fs) v → cx.m.at v ≠ []) {x : StructField F} (hx : VisibleField pr.env cx.tagOf fs x) (i : Nat) :
    (FieldFails pr.env x ∧ fieldSchema cx (fun i t tg => type2schema cx n i t [.struct fs] tg) i x = .err .unsupported) ∨
    (¬ FieldFails pr.env x ∧ ∃ s, fieldSchema cx (fun i t tg => type2schema cx n i t [.struct fs] tg) i x = .ok s ∧
      FieldDescribes pr.env cx.m cx.std cx.zero x s) := by
  have hreach := visible_reach hp hx hok
  unfold FieldDescribes FieldFails
  by_cases hty : x.tag.type = []
  · simp only [hty, true_and, if_true]
    have hbw : ¬ BadTypeWord x := fun h => h.1 hty
    have hstruct : ∀ st, under pr.env x.typ = .struct st → ¬ Unsupported pr.env x.typ := by
      intro st hu hU
      obtain ⟨k, hk⟩ := Unsupported.toK hU
      cases hk with
      | leaf h => rw [hu] at h; rcases h with ⟨_, h, _⟩ | ⟨_, _, h⟩ | ⟨_, h⟩ <;> cases h
      | step h _ => rw [hu] at h; cases h
    by_cases hst : ∃ st, under pr.env x.typ = .struct st
    · obtain ⟨st, hu⟩ := hst
      rw [fieldSchema_struct hty (by rw [hc.env]; exact hu)]
      refine .inr ⟨?_, ?_⟩
      · rintro (h | h)
        · exact hbw h
        · exact hstruct st hu h
      · have hself : cx.m.at (.struct st) ≠ [] := hu ▸ hreg _ hreach
        obtain ⟨p, hf, ⟨h2, h3⟩ | ⟨s, h2, h3⟩⟩ := reference_res hc.sorts hc.inv i hself
        · exact ⟨_, h3, .ref (.inl ⟨st, hu⟩) (hu ▸ hf) h2⟩
        · exact ⟨_, h3, .std (.inl ⟨st, hu⟩) (hu ▸ hf) h2⟩
    · rw [fieldSchema_other hty (by rw [hc.env]; exact fun st h => hst ⟨st, h⟩), hc.env]
      have hU := under_under hp x.typ
      have key := chain_res hp hc hW n i (under pr.env x.typ) [.struct fs] [] x.tag (closed_reach hW hreach hm) (by simp)
        (by intro y hy; rw [List.mem_singleton] at hy; subst hy; exact hm) (by simp; omega)
        (by intro v hv; rw [hU] at hv; exact hreg v (TReach.trans' hreach hv)) (.inl (by simp))
        (by
          intro y hy k hk
          rw [List.mem_singleton] at hy; subst hy
          cases hk with
          | leaf h => rcases h with ⟨_, h, _⟩ | ⟨_, _, h⟩ | ⟨_, h⟩ <;> cases h
          | step h _ => cases h)
        (by intro y hy; cases hy) (by intro y hy; rw [List.mem_singleton] at hy; exact .inl ⟨fs, hy⟩)
      rcases key with ⟨h1, h2⟩ | ⟨h1, s, h2, h3⟩
      · exact .inl ⟨.inr (Unsupported.same h1 hU), h2⟩
      · refine .inr ⟨?_, s, h2, TypeDescribes.same h3 hU⟩
        rintro (h | h)
        · exact hbw h
        · exact h1 (Unsupported.same h hU.symm)
  · rw [fieldSchema, if_pos hty]
    simp only [hty, false_and, or_false, if_false]
    rcases word_fails (zero := cx.zero) hty with ⟨h1, h2⟩ | ⟨h1, s, h2, h3⟩
    · exact .inl ⟨h1, h2⟩
    · exact .inr ⟨h1, s, h2, h3⟩

/-- Structs. -/
theorem struct_res {pr : Prog} (hp : ProgOK pr) {cx : Ctx F} (hc : CtxOK pr cx) {fs : List (FieldInfo × GoType)} {n : Nat} {W : List GoType}
    (hW : Closed pr.env W) (hm : .struct fs ∈ W) (hn : W.length ≤ n) (hok : TypeOK pr.env (.struct fs))
    (hreg : ∀ v, TReach pr.env (.struct fs) v → cx.m.at v ≠ []) :
    (StructFails pr.env cx.tagOf fs ∧ ∃ e, struct2schema cx (fun i t tg => type2schema cx n i t [.struct fs] tg) fs = .err e ∧ e ≠ .fuel) ∨
    (¬ StructFails pr.env cx.tagOf fs ∧ ∃ s fields, struct2schema cx (fun i t tg => type2schema cx n i t [.struct fs] tg) fs = .ok s ∧
      StructDescribes pr.env cx.tagOf cx.m cx.std cx.zero fs fields s) := by
  unfold struct2schema
  rw [hc.env]
  rcases collectFields_top (env := pr.env) hc.noPanic hc.noFuel fs (Nat.le_refl _) with ⟨arr, h1, h2, h3⟩ | ⟨e, h1, h2, h3⟩
  · rw [h1]
    simp only
    have hf := fun x (hx : x ∈ arr) i => field_res hp hc hW hm hn hok hreg ((h3 x).1 hx) i
    rcases structLoop_res (B := FieldFails pr.env) (D := FieldDescribes pr.env cx.m cx.std cx.zero) arr 0 [] [] hf with
      ⟨⟨x, hx, hB⟩, he⟩ | ⟨hB, ss, g1, g2, g3⟩
    · rw [he]
      exact .inl ⟨.inr ⟨x, (h3 x).1 hx, hB⟩, .unsupported, rfl, by decide⟩
    · rw [g3]
      refine .inr ⟨?_, _, ss, rfl, ?_, g2, rfl, rfl, rfl, rfl, ?_, ?_, ?_⟩
      · rintro (h | ⟨x, hx, h⟩)
        · exact h2 h
        · exact hB x ((h3 x).2 hx) h
      · intro x
        rw [← h3 x, ← g1, List.mem_map]
        constructor
        · rintro ⟨⟨x', sc⟩, h, rfl⟩; exact ⟨sc, h⟩
        · rintro ⟨sc, h⟩; exact ⟨_, h, rfl⟩
      · simp [Schema.attrs]
      · exact putAll_nodup ss [] (by simp)
      · intro k
        show (putAll ss []).lookup k = _
        rw [putAll_lookup]
        simp
  · rw [h1]
    exact .inl ⟨.inl h2, e, rfl, h3⟩

/-- The conversion of a registered type. -/
theorem type_res {pr : Prog} (hp : ProgOK pr) {cx : Ctx F} (hc : CtxOK pr cx) {t : GoType} {n : Nat} (hn : depth pr.env t ≤ n)
    (hok : TypeOK pr.env t) (hreg : ReachRegistered pr.env cx.m t) (i : Nat) :
    (TypeFails pr.env cx.tagOf t ∧ ∃ e, type2schema cx n i t [] {} = .err e ∧ e ≠ .fuel) ∨
    (¬ TypeFails pr.env cx.tagOf t ∧ ∃ s, type2schema cx n i t [] {} = .ok s ∧
      ((∃ fs fields, under pr.env t = .struct fs ∧ StructDescribes pr.env cx.tagOf cx.m cx.std cx.zero fs fields s) ∨
       ((∀ fs, under pr.env t ≠ .struct fs) ∧ TypeDescribes pr.env cx.m cx.std cx.zero {} [] t s))) := by
  have hW := world_closed pr.env t
  by_cases hst : ∃ fs, under pr.env t = .struct fs
  · obtain ⟨fs, hu⟩ := hst
    cases n with
    | zero => simp [depth] at hn
    | succ n =>
      have hun : ¬ Unsupported pr.env t := by
        intro hU
        obtain ⟨k, hk⟩ := Unsupported.toK hU
        cases hk with
        | leaf h => rw [hu] at h; rcases h with ⟨_, h, _⟩ | ⟨_, _, h⟩ | ⟨_, h⟩ <;> cases h
        | step h _ => rw [hu] at h; cases h
      have heq : type2schema cx (n + 1) i t [] {} = struct2schema cx (fun i t tg => type2schema cx n i t [.struct fs] tg) fs := by
        rw [type2schema]
        simp only [hc.env, hu, List.not_mem_nil, if_false, List.nil_append, List.length_cons, List.length_nil, if_true]
      rw [heq]
      have hmem : GoType.struct fs ∈ world pr.env t := hu ▸ hW.under _ (self_mem_world _ _)
      have hok' : TypeOK pr.env (.struct fs) := hu ▸ TypeOK.under hp hok
      have hlen : (world pr.env t).length ≤ n := by
        unfold depth at hn; omega
      rcases struct_res hp hc hW hmem hlen hok' (by unfold ReachRegistered at hreg; rwa [hu] at hreg) with
        ⟨h1, h2⟩ | ⟨h1, s, fields, h2, h3⟩
      · exact .inl ⟨.inr ⟨fs, hu, h1⟩, h2⟩
      · refine .inr ⟨?_, s, h2, .inl ⟨fs, fields, hu, h3⟩⟩
        rintro (h | ⟨fs', h, h'⟩)
        · exact hun h
        · rw [hu] at h; cases h; exact h1 h'
  · have hno : ∀ fs, under pr.env t ≠ .struct fs := fun fs h => hst ⟨fs, h⟩
    rcases chain_res hp hc hW n i t [] [] {} (self_mem_world _ _) (by simp) (by simp) (by simpa [depth] using hn) hreg (.inr hno)
      (by intro x hx; cases hx) (by intro x hx; cases hx) (by intro x hx; cases hx) with ⟨h1, h2⟩ | ⟨h1, s, h2, h3⟩
    · exact .inl ⟨.inl h1, .unsupported, h2, by decide⟩
    · refine .inr ⟨?_, s, h2, .inr ⟨hno, h3⟩⟩
      rintro (h | ⟨fs', h, _⟩)
      · exact h1 h
      · exact hno _ h

end Oapi.Types
