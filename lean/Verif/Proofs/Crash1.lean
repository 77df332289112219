import Verif.Proofs.Det11
import Verif.Proofs.Prep4

/-! When the resolution of references and the default operations panic (C99). -/
namespace Oapi.Resolver
open Spec

variable {cfg : Cfg}

/-- Pointer `p` can be met when the references of document `j` are resolved. -/
inductive Meets (cfg : Cfg) : Json → Pointer → Prop where
  | here {j x p} : RefLike j x → ExtRef x p → Meets cfg j p
  | later {j x q d p} : RefLike j x → ExtRef x q → cfg.res q = .ok d → Meets cfg d p → Meets cfg j p

theorem setCur_np (cx : Cur) (st : St) (key : Str) (v : Json) : setCur cx st key v ≠ .panic := by
  intro h
  unfold setCur at h
  split at h
  · cases h
  · rename_i hp; exact Props.C13_setP_no_panic _ _ _ hp
  · split at h <;> cases h

theorem replacePtr_np (cx : Cur) (st : St) (key : Str) (v : Json) : replacePtr cx st key v ≠ .panic := by
  intro h
  unfold replacePtr at h
  split at h
  · cases h
  · exact setCur_np _ _ _ _ h

theorem updateLocal_np (cx : Cur) (st : St) (key : Str) (f : Fragment) : updateLocal cx st key f ≠ .panic := by
  intro h
  unfold updateLocal at h
  split at h
  · cases h
  · exact setCur_np _ _ _ _ h

theorem set_np (cx : Cur) (st : St) (p : Pointer) (key : Str) (v : Json) : set cfg cx st p key v ≠ .panic := by
  intro h
  unfold set at h
  split at h
  · exact replacePtr_np _ _ _ _ h
  · split at h
    · cases h
    · rename_i hp; exact Props.C13_setP_no_panic _ _ _ hp
    · exact updateLocal_np _ _ _ _ h

theorem setRecursive_np (cx : Cur) (st : St) (p : Pointer) (key : Str) : setRecursive cfg cx st p key ≠ .panic := by
  intro h
  unfold setRecursive at h
  split at h
  · split at h
    · exact updateLocal_np _ _ _ _ h
    · exact replacePtr_np _ _ _ _ h
  · exact replacePtr_np _ _ _ _ h

theorem fragment_np (s : Str) : Fragment.new s ≠ .panic := by
  intro h
  unfold Fragment.new Fragment.parseFragment at h
  repeat' split at h
  all_goals cases h

theorem parse_np (s : Str) : Pointer.parse s ≠ .panic := by
  intro h
  unfold Pointer.parse at h
  repeat' split at h
  all_goals first | cases h | skip
  rename_i hf
  exact fragment_np _ hf

theorem extract_np (j : Json) (k : Str) : Container.extractKey j k ≠ .panic := by
  unfold Container.extractKey Gabs.flatten
  cases j <;> simp

theorem visit_panics {call : List Str → Json → St → Res (Cur × St)} {pp : List Str} {cx : Cur} {st : St} {key : Str} {v : Json}
    (h : visit cfg call pp cx st key v = .panic) :
    ∃ x p, v = .str x ∧ ExtRef x p ∧ (cfg.res p = .panic ∨ ∃ d, cfg.res p = .ok d ∧ ∃ pp' st', call pp' d st' = .panic) := by
  unfold visit at h
  split at h
  · rename_i s
    split at h
    · cases h
    · rename_i hp; exact absurd hp (parse_np _)
    · rename_i p hp
      split at h
      · cases h
      · rename_i hext
        have hx : ExtRef s p := ⟨hp, by simpa [Pointer.isExternal] using hext⟩
        split at h
        · exact absurd h (setRecursive_np _ _ _ _)
        · split at h
          · cases h
          · rename_i hr; exact ⟨s, p, rfl, hx, .inl hr⟩
          · rename_i nc hr
            split at h
            · cases h
            · rename_i hc; exact ⟨s, p, rfl, hx, .inr ⟨nc, hr, _, _, hc⟩⟩
            · exact absurd h (set_np _ _ _ _ _)
  · cases h

theorem loop_panic {call : List Str → Json → St → Res (Cur × St)} {pp : List Str} : ∀ {l : List (Str × Json)} {cx : Cur} {st : St},
    loop cfg call pp l cx st = .panic → ∃ k x p, (k, Json.str x) ∈ l ∧ ExtRef x p ∧
      (cfg.res p = .panic ∨ ∃ d, cfg.res p = .ok d ∧ ∃ pp' st', call pp' d st' = .panic)
  | [], _, _, h => by cases h
  | (key, v) :: t, cx, st, h => by
    unfold loop at h
    split at h
    · cases h
    · rename_i hv
      obtain ⟨x, p, rfl, h1, h2⟩ := visit_panics hv
      exact ⟨key, x, p, by simp, h1, h2⟩
    · obtain ⟨k, x, p, h1, h2, h3⟩ := loop_panic h
      exact ⟨k, x, p, by simp [h1], h2, h3⟩

theorem iter_panics (hord : ∀ n l, Container.MapOrder l (cfg.ord n l)) (hwf : ∀ p d, cfg.res p = .ok d → Json.WF d) : ∀ (n : Nat) {pp : List Str} {cx : Cur} {st : St},
    Json.WF (readCur cx st) → iter cfg n pp cx st = .panic → ∃ p, Meets cfg (readCur cx st) p ∧ cfg.res p = .panic
  | 0, _, _, _, _, h => by cases h
  | n + 1, pp, cx, st, hw, h => by
    unfold iter at h
    split at h
    · cases h
    · rename_i hp; exact absurd hp (extract_np _ _)
    · rename_i refs hr
      obtain ⟨k, x, p, h1, h2, h3⟩ := loop_panic h
      have hl := extract_refLike hw hr ((hord _ _).2.1 _ h1)
      rcases h3 with h3 | ⟨d, h3, pp', st', h4⟩
      · exact ⟨p, .here hl h2, h3⟩
      · obtain ⟨q, h5, h6⟩ := iter_panics hord hwf n (cx := some d) (hwf p d h3) h4
        exact ⟨q, .later hl h2 h3 h5, h6⟩

theorem resolve_panic (hord : ∀ n l, Container.MapOrder l (cfg.ord n l)) (hwf : ∀ p d, cfg.res p = .ok d → Json.WF d) {n : Nat} {c : Json} (hw : Json.WF c)
    (h : resolve cfg n c = .panic) : ∃ p, Meets cfg c p ∧ cfg.res p = .panic := by
  unfold resolve at h
  split at h
  · cases h
  · rename_i hi; exact iter_panics hord hwf n (cx := none) (st := ⟨c, 0⟩) hw hi
  · cases h

end Oapi.Resolver

namespace Oapi.Scan
open Spec Types

variable {F : Type} {inp : Input F} {o : Orders}

/-- Schemas whose references are in `P`, whatever else they have. -/
inductive RefsIn (P : Pointer → Prop) : Schema F → Prop where
  | mk {r a items additional oneOf properties} : (∀ p, r = some p → P p) → (∀ s, items = some s → RefsIn P s) →
      (∀ s, additional = some s → RefsIn P s) → (∀ s ∈ oneOf, RefsIn P s) → (∀ k s, (k, s) ∈ properties → RefsIn P s) →
      RefsIn P (.mk r a items additional oneOf properties)

theorem Fit.refsIn {P : Pointer → Prop} {fin : F → Bool} {s : Schema F} (h : Fit P fin s) : RefsIn P s := by
  induction h with
  | ref hp => exact .mk (by intro p e; cases e; exact hp) (by simp) (by simp) (by simp) (by simp)
  | node _ _ _ _ _ _ h1 h2 h3 h4 => exact .mk (by simp) h1 h2 h3 h4

theorem not_refKey {k : Str} (h : (k = refKey ∨ ∃ a, k = a ++ 46 :: refKey)) (h1 : k ≠ refKey) (h2 : ¬ (46 :: refKey) <:+ k) : False := by
  rcases h with h | ⟨a, h⟩
  · exact h1 h
  · exact h2 ⟨a, h.symm⟩

theorem texts_refs {l : List Str} {v : Json} (h : texts l = some v) {L : Loc} {x k : Str} : getAt v (L ++ [.key k]) ≠ some (.str x) := by
  unfold texts at h
  split at h
  · cases h
  · cases h
    intro hx
    cases L with
    | nil => simp [getAt, child] at hx
    | cons s L =>
      cases s with
      | key k => simp [getAt, child] at hx
      | idx n =>
        simp only [List.cons_append, getAt, child] at hx
        split at hx
        · rename_i c hc
          rw [List.getElem?_map] at hc
          cases hn : l[n]? with
          | none => rw [hn] at hc; cases hc
          | some y =>
            rw [hn] at hc; cases hc
            rw [getAt_scalar (by rfl) (by simp)] at hx
            cases hx
        · cases hx

/-- What looks like a reference in a written schema is a reference of the schema. -/
theorem RefsIn.doc {enc : Enc F} (he : EncNum enc) {P : Pointer → Prop} {s : Schema F} (h : RefsIn P s) :
    ∀ {x}, RefLike (schemaJson enc s) x → ∃ p, P p ∧ x = p.toStr := by
  induction h with
  | mk h0 _ _ _ _ h1 h2 h3 h4 =>
    rename_i r a items additional oneOf properties _ _ _ _
    rintro x ⟨L, k, hx, hk⟩
    rw [schemaJson_mk] at hx
    cases L with
    | nil =>
      simp only [List.nil_append, getAt, child] at hx
      split at hx
      · rename_i c hc
        cases hx
        have hm := present_mem (Obj.lookup_mem hc)
        simp only [schemaFields, List.mem_cons, List.not_mem_nil, or_false, Prod.mk.injEq] at hm
        rcases hm with ⟨rfl, e⟩ | ⟨rfl, e⟩ | ⟨rfl, e⟩ | ⟨rfl, e⟩ | ⟨rfl, e⟩ | ⟨rfl, e⟩ | ⟨rfl, e⟩ | ⟨rfl, e⟩ | ⟨rfl, e⟩ | ⟨rfl, e⟩ | ⟨rfl, e⟩ | ⟨rfl, e⟩ |
          ⟨rfl, e⟩ | ⟨rfl, e⟩ | ⟨rfl, e⟩ | ⟨rfl, e⟩ | ⟨rfl, e⟩ | ⟨rfl, e⟩ | ⟨rfl, e⟩ | ⟨rfl, e⟩ | ⟨rfl, e⟩ | ⟨rfl, e⟩ | ⟨rfl, e⟩ | ⟨rfl, e⟩ | ⟨rfl, e⟩
        · obtain ⟨p, rfl, e⟩ := Option.map_eq_some_iff.1 e.symm
          cases e
          exact ⟨p, h0 p rfl, rfl⟩
        all_goals exact (not_refKey hk (by decide) (by decide)).elim
      · cases hx
    | cons st L =>
      cases st with
      | idx n => simp [getAt, child] at hx
      | key k0 =>
        simp only [List.cons_append, getAt, child] at hx
        split at hx
        · rename_i c hc
          have hm := present_mem (Obj.lookup_mem hc)
          have hsc : scalar c = false := by
            cases hs : scalar c with
            | false => rfl
            | true => rw [getAt_scalar hs (by simp)] at hx; cases hx
          have hfl : ∀ b, some c ≠ flag b := by
            intro b hb; unfold flag at hb; split at hb <;> cases hb; cases hsc
          have htx : ∀ b, some c ≠ text b := by
            intro b hb; unfold text at hb; split at hb <;> cases hb; cases hsc
          have hin : ∀ b : Option Int, some c ≠ b.map enc.int := by
            intro b hb
            obtain ⟨i, _, e⟩ := Option.map_eq_some_iff.1 hb.symm
            obtain ⟨n, hn⟩ := he.2 i
            rw [hn] at e; rw [← e] at hsc; cases hsc
          have hnu : ∀ b : Option F, some c ≠ b.map enc.num := by
            intro b hb
            obtain ⟨i, _, e⟩ := Option.map_eq_some_iff.1 hb.symm
            obtain ⟨n, hn⟩ := he.1 i
            rw [hn] at e; rw [← e] at hsc; cases hsc
          have hts : ∀ b, some c ≠ texts b := fun b hb => texts_refs hb.symm hx
          have hre : some c ≠ r.map fun p => .str p.toStr := by
            intro hb
            obtain ⟨i, _, e⟩ := Option.map_eq_some_iff.1 hb.symm
            rw [← e] at hsc; cases hsc
          have hopt : ∀ (i : Option (Schema F)), (∀ s, i = some s → ∀ {x}, RefLike (schemaJson enc s) x → ∃ p, P p ∧ x = p.toStr) →
              some c = schemaOpt enc i → ∃ p, P p ∧ x = p.toStr := by
            intro i hi hb
            cases i with
            | none => cases hb
            | some s => cases hb; exact hi s rfl ⟨L, k, hx, hk⟩
          simp only [schemaFields, List.mem_cons, List.not_mem_nil, or_false, Prod.mk.injEq] at hm
          rcases hm with ⟨rfl, e⟩ | ⟨rfl, e⟩ | ⟨rfl, e⟩ | ⟨rfl, e⟩ | ⟨rfl, e⟩ | ⟨rfl, e⟩ | ⟨rfl, e⟩ | ⟨rfl, e⟩ | ⟨rfl, e⟩ | ⟨rfl, e⟩ | ⟨rfl, e⟩ | ⟨rfl, e⟩ |
            ⟨rfl, e⟩ | ⟨rfl, e⟩ | ⟨rfl, e⟩ | ⟨rfl, e⟩ | ⟨rfl, e⟩ | ⟨rfl, e⟩ | ⟨rfl, e⟩ | ⟨rfl, e⟩ | ⟨rfl, e⟩ | ⟨rfl, e⟩ | ⟨rfl, e⟩ | ⟨rfl, e⟩ | ⟨rfl, e⟩
          all_goals first
            | exact (hfl _ e).elim
            | exact (htx _ e).elim
            | exact (hin _ e).elim
            | exact (hnu _ e).elim
            | exact (hts _ e).elim
            | exact (hre e).elim
            | exact hopt _ h1 e
            | exact hopt _ h2 e
            | skip
          · cases oneOf with
            | nil => cases e
            | cons s l =>
              cases e
              cases L with
              | nil => simp [getAt, child] at hx
              | cons st L =>
                cases st with
                | key k => simp [getAt, child] at hx
                | idx n =>
                  simp only [List.cons_append, getAt, child] at hx
                  split at hx
                  · rename_i c hc
                    obtain ⟨s', hs', rfl⟩ := schemaList_mem (List.mem_of_getElem? hc)
                    exact h3 s' hs' ⟨L, k, hx, hk⟩
                  · cases hx
          · cases properties with
            | nil => cases e
            | cons s l =>
              cases e
              cases L with
              | nil =>
                simp only [List.nil_append, getAt, child] at hx
                split at hx
                · rename_i c hc
                  cases hx
                  obtain ⟨s', hs', e⟩ := schemaProps_mem (Obj.lookup_mem hc)
                  obtain ⟨m, hm⟩ := schemaJson_obj enc s'
                  rw [hm] at e; cases e
                · cases hx
              | cons st L =>
                cases st with
                | idx n => simp [getAt, child] at hx
                | key k1 =>
                  simp only [List.cons_append, getAt, child] at hx
                  split at hx
                  · rename_i c hc
                    obtain ⟨s', hs', rfl⟩ := schemaProps_mem (Obj.lookup_mem hc)
                    exact h4 k1 s' hs' ⟨L, k, hx, hk⟩
                  · cases hx
        · cases hx

/-- The references of the schema of a type are registered. -/
theorem schemaOf_refs (hs : SchemasOK inp) {m : PMap} {u : GoType} {s : Schema F} (h : SchemaOf inp m u s) :
    RefsIn (fun p => ∃ v, BestPoint m v p) s := by
  have hstd : ∀ x s, inp.std x = some s → ∃ a, s = .plain a ∧ ∀ f ∈ attrFloats a, (fun _ : F => true) f = true := by
    intro x s hx
    obtain ⟨a, h1, _⟩ := hs.std x s hx
    exact ⟨a, h1, by simp⟩
  have hft : ∀ tg : TagP.Tag F, FiniteTag (fun _ : F => true) tg := fun tg f _ => rfl
  rcases h with ⟨fs, fields, rfl, h⟩ | ⟨_, h⟩
  · obtain ⟨h1, h2, h3, h4, h5, h6, h7, h8, h9⟩ := h
    obtain ⟨r, a, i, d, oo, ps⟩ := s
    simp only [Schema.ref, Schema.items, Schema.additional, Schema.oneOf, Schema.attrs, Schema.properties] at h3 h4 h5 h6 h7 h8 h9
    subst h3 h4 h5 h6 h7
    refine .mk (by simp) (by simp) (by simp) (by simp) ?_
    intro k s hk
    have hl := h9 k
    rw [lookup_of_mem_nodup h8 hk] at hl
    have hl := hl.symm
    rw [Option.map_eq_some_iff] at hl
    obtain ⟨e, he, rfl⟩ := hl
    have hm := List.mem_reverse.1 (List.mem_of_find?_eq_some he)
    exact (withFlags_fit (field_fit (fin := fun _ => true) hstd rfl (hft _) (h2 e hm))).refsIn
  · exact (describes_fit (fin := fun _ => true) hstd rfl (hft _) h).1.refsIn

theorem bestPoint_registered {m : PMap} {v : GoType} {p : Pointer} (h : BestPoint m v p) : ∃ u, p ∈ m.at u := ⟨v, h.1⟩

end Oapi.Scan
