import Verif.Proofs.Settled
import Verif.Props.Whole
import Verif.Props.Crash

/-! The document of a scan has nothing left to do. -/
namespace Oapi.Scan
open Spec Container OAPI

variable {F : Type} {inp : Input F} {o : Orders}

/-- An object, null or missing. -/
def SecOK (v : Option Json) : Prop := Missing v ∨ ∃ s, v = some (.obj s)

theorem expansion_obj {cfg : Resolver.Cfg} {m : Obj} {D : Json} (hb : NotBare (.obj m)) (h : Expansion cfg (.obj m) D) :
    ∃ m', D = .obj m' := by
  cases h with
  | mk σ d v h1 h2 h3 h4 =>
    refine ⟨substO σ m, ?_⟩
    simp only [subst, h1 [] hb, Option.getD_none]

theorem lookup_substO (σ : Loc → Option Json) (k : Str) : ∀ (m : List (Str × Json)),
    Obj.lookup k (substO σ m) = (Obj.lookup k m).map (subst fun l => σ (.key k :: l))
  | [] => rfl
  | (k', v) :: t => by
    simp only [substO, Obj.lookup]
    by_cases e : k = k'
    · rw [if_pos e, if_pos e, e]; rfl
    · rw [if_neg e, if_neg e, lookup_substO σ k t]

/-- Sections that are objects stay objects. -/
theorem expansion_section {cfg : Resolver.Cfg} {m : Obj} {D : Json} (hset : Setting cfg (.obj m)) (h : Expansion cfg (.obj m) D) {k : Str}
    (hs : SecOK (section_ (.obj m) k)) : SecOK (section_ D k) := by
  cases h with
  | mk σ d v h1 h2 h3 h4 =>
    simp only [subst, h1 [] hset.bare, Option.getD_none]
    rw [getAt_member] at hs ⊢
    rw [lookup_substO]
    rcases hs with (hs | hs) | ⟨s, hs⟩
    · rw [hs]; exact .inl (.inl rfl)
    · rw [hs]
      by_cases hr : ∃ x p, RefAt (.obj m) [.key k] x p
      · obtain ⟨x, p, hx, _⟩ := hr
        rw [getAt_append, show getAt (.obj m) [.key k] = Obj.lookup k m by simp only [getAt, child]; cases Obj.lookup k m <;> rfl, hs] at hx
        simp [getAt, child] at hx
      · refine .inl (.inr ?_)
        simp only [Option.map_some, subst]
        rw [h1 [.key k] fun x p hx => hr ⟨x, p, hx⟩]
        rfl
    · rw [hs]
      by_cases hr : ∃ x p, RefAt (.obj m) [.key k] x p
      · obtain ⟨x, p, hx⟩ := hr
        cases he : Resolver.get cfg.exp p with
        | some e =>
          refine .inr ⟨[(refKey, .str (localText e))], ?_⟩
          simp only [Option.map_some, subst]
          rw [h2 _ x p e hx he]
          rfl
        | none =>
          obtain ⟨g1, g2⟩ := h3 _ x p hx he
          obtain ⟨m', hm'⟩ := (hset.good.docs p _ (.doc hx) g1).isObj
          have hbare := hset.bares p _ (.doc hx) g1
          have hexp := h4 _ x p hx he
          rw [hm'] at hexp hbare
          obtain ⟨m'', hm''⟩ := expansion_obj hbare hexp
          refine .inr ⟨m'', ?_⟩
          simp only [Option.map_some, subst]
          rw [g2, hm'']
          rfl
      · refine .inr ⟨substO (fun l => σ (.key k :: l)) s, ?_⟩
        simp only [Option.map_some, subst]
        rw [h1 [.key k] fun x p hx => hr ⟨x, p, hx⟩]
        rfl

theorem putKeys_obj {v : Json} {k : Str} {p : List Str} (m : Obj) : ∃ m', putKeys v (k :: p) (.obj m) = .obj m' := ⟨_, by rw [putKeys]⟩

theorem put_section {v : Json} {k a b c : Str} {m : Obj} (hs : SecOK (section_ (.obj m) k)) :
    SecOK (section_ (putKeys v [a, b, c] (.obj m)) k) := by
  rw [putKeys]
  rw [getAt_member] at hs ⊢
  by_cases e : k = a
  · subst e
    rw [Obj.lookup_insert_self]
    rcases hs with (hs | hs) | ⟨s, hs⟩
    · rw [hs]; exact .inr (by obtain ⟨m', h⟩ := putKeys_obj (v := v) (k := b) (p := [c]) []; exact ⟨m', by rw [h]⟩)
    · rw [hs]; exact .inr (by obtain ⟨m', h⟩ := putKeys_obj (v := v) (k := b) (p := [c]) []; exact ⟨m', by rw [h]⟩)
    · rw [hs]; exact .inr (by obtain ⟨m', h⟩ := putKeys_obj (v := v) (k := b) (p := [c]) s; exact ⟨m', by rw [h]⟩)
  · rw [Obj.lookup_insert, if_neg e]; exact hs

theorem add_section {k : Str} : ∀ (T : List (Resolver.Export × Json)) (m : Obj), SecOK (section_ (.obj m) k) →
    ∃ m', addComponents T (.obj m) = .obj m' ∧ SecOK (section_ (.obj m') k)
  | [], m, h => ⟨m, rfl, h⟩
  | t :: T, m, h => by
    obtain ⟨m', hm'⟩ := putKeys_obj (v := t.2) (k := b!"components") (p := [t.1.kind.key, t.1.name]) m
    have h' := put_section (v := t.2) (a := b!"components") (b := t.1.kind.key) (c := t.1.name) h
    rw [hm'] at h'
    obtain ⟨m'', h1, h2⟩ := add_section T m' h'
    refine ⟨m'', ?_, h2⟩
    rw [← h1]
    simp only [addComponents, List.foldl_cons, hm']

/-- A document that the root document can be merged into has no scalar sections. -/
theorem merged_composite {m : Obj} {root : Obj} {out : Json} (hw : Json.WF (.obj m)) (hrw : Json.WF (.obj root))
    (hz : ∀ k R, (k, R) ∈ ruleOf → Composite (section_ (.obj root) k)) (h : OAPI.mergeWithRoot (.obj root) (.obj m) = .ok out) :
    ∀ k R, (k, R) ∈ ruleOf → Composite (section_ (.obj m) k) := by
  intro k R hk
  cases hv : section_ (.obj m) k with
  | none => exact .inl rfl
  | some v =>
    by_cases hsc : scalar v = true
    · by_cases hnull : v = .null
      · exact .inr ⟨v, rfl, .inl hnull⟩
      · rcases Props.C21_scalar_section_crashes hw hrw hz hk hv hsc hnull with e | e <;> · rw [h] at e; cases e
    · exact .inr ⟨v, rfl, .inr (by simpa using hsc)⟩

/-- The sections after the merge with the root document. -/
theorem merge_sections {c : Json} {root : Obj} {out : Json} (hc : Merged inp c) (hroot : inp.root = .obj root) (hrw : Json.WF (.obj root))
    (hz : ∀ k R, (k, R) ∈ ruleOf → Composite (section_ (.obj root) k)) (h : OAPI.mergeWithRoot inp.root c = .ok out) {k : Str} {R : Rule}
    (hk : (k, R) ∈ ruleOf) : SecOK (section_ out k) := by
  obtain ⟨m, rfl⟩ := hc.object
  rw [hroot] at h
  have hcz := merged_composite hc.wf hrw hz h
  rcases Props.C21_sections_follow_rules hc.wf hrw (fun k R hk => ⟨hcz k R hk, hz k R hk⟩) with ⟨out', e1, e2, e3, e4⟩ | ⟨e1, _⟩
  · rw [h] at e1; cases e1
    by_cases hmiss : Missing (section_ (.obj m) k) ∧ Missing (section_ (.obj root) k)
    · rw [(e4 k R hk).1 hmiss]; exact .inl hmiss.1
    · obtain ⟨s, g1, _⟩ := (e4 k R hk).2 hmiss
      exact .inr ⟨s, g1⟩
  · rw [h] at e1; cases e1

end Oapi.Scan
namespace Oapi.Scan
open Spec Container OAPI

variable {F : Type} {inp : Input F} {o : Orders}

theorem shadowed_mono {a b : Json} (h : ∀ p n, nodeAt a p = some n → nodeAt b p = some n) {p : List Str} (hs : Shadowed a p) : Shadowed b p := by
  obtain ⟨q, j, h1, h2⟩ := hs
  exact ⟨q, j, h1, h _ _ h2⟩

theorem fills_again {a d b : Json} (h : Fills a d b) : Fills b d b := by
  have hk : ∀ p n, nodeAt a p = some n → nodeAt b p = some n := fun p n => (h p).1 n
  refine fun p => ⟨fun n h => h, fun h _ => h, fun hn hs => ?_⟩
  have ha : nodeAt a p = none := by
    cases e : nodeAt a p with
    | none => rfl
    | some n => rw [hk p n e] at hn; cases hn
  exact (h p).2.2 ha fun hs' => hs (shadowed_mono hk hs')

theorem fills_keeps {b d c : Json} (h : Fills b d b) (hk : ∀ p n, nodeAt b p = some n → nodeAt c p = some n) : Fills c d c := by
  refine fun p => ⟨fun n h => h, fun h _ => h, fun hn hs => ?_⟩
  have hb : nodeAt b p = none := by
    cases e : nodeAt b p with
    | none => rfl
    | some n => rw [hk p n e] at hn; cases hn
  rw [hn, ← (h p).2.2 hb fun hs' => hs (shadowed_mono hk hs'), hb]

theorem fillsAll_filled {a b : Json} {ds : List Json} (h : FillsAll a ds b) :
    (∀ p n, nodeAt a p = some n → nodeAt b p = some n) ∧ ∀ e ∈ ds, Fills b e b := by
  induction h with
  | nil => exact ⟨fun _ _ h => h, fun _ h => by cases h⟩
  | @cons a d b r ds h1 h2 _ ih =>
    refine ⟨fun p n h => ih.1 p n ((h1 p).1 n h), fun e he => ?_⟩
    rcases List.mem_cons.1 he with rfl | he
    · exact fills_keeps (fills_again h1) ih.1
    · exact ih.2 e he

/-- An operation after the default operations has no gaps. -/
theorem outcome_filled {a b : Json} {ds : List Json} (h : OpOutcome ds a b) :
    (∀ e ∈ ds, e = .obj []) ∨ ((∃ m, b = .obj m) ∧ ∀ e ∈ ds, Fills b e b) := by
  rcases h with ⟨h, _⟩ | ⟨_, ha, h⟩
  · exact .inl h
  · obtain ⟨h1, h2⟩ := fillsAll_filled h
    refine .inr ⟨?_, h2⟩
    have : nodeAt b [] = some .obj := by
      refine h1 [] _ ?_
      rcases ha with rfl | ⟨m, rfl⟩ <;> rfl
    cases b with
    | obj m => exact ⟨m, rfl⟩
    | _ => simp [nodeAt] at this

/-- The operations afterwards are those before. -/
theorem opsRelated_back {R : Str → Str → Json → Json → Prop} {c out : Json} (h : OpsRelated R c out) {P M : Str} {b : Json} (hb : opAt out P M = some b)
    (hitems : PathItemsOk c) : ∃ a, opAt c P M = some a ∧ R P M a b := by
  have h2 := h.2
  have hsec : ∀ d P M, opAt d P M = (section_ d b!"paths").bind fun v => getAt v [.key P, .key M] := by
    intro d P M
    simp only [opAt, section_]
    rw [getAt]
    cases child d (.key b!"paths") <;> rfl
  rw [hsec] at hb
  rcases hitems with (hm | hm) | ⟨ps, hps, hit⟩
  · rw [hm] at h2
    cases h3 : section_ out b!"paths" with
    | none => rw [h3] at hb; cases hb
    | some v => rw [h3] at h2; cases v <;> simp [PathsRel] at h2
  · rw [hm] at h2
    cases h3 : section_ out b!"paths" with
    | none => rw [h3] at hb; cases hb
    | some v =>
      rw [h3] at h2 hb
      cases v <;> simp [PathsRel] at h2
      simp [getAt, child] at hb
  · rw [hps] at h2
    cases h3 : section_ out b!"paths" with
    | none => rw [h3] at hb; cases hb
    | some v =>
      rw [h3] at h2 hb
      cases v with
      | obj ps' =>
        have hP : ItemRel (R P) (Obj.lookup P ps) (Obj.lookup P ps') := h2 P
        simp only [Option.bind_some, getAt, child] at hb
        cases g2 : Obj.lookup P ps' with
        | none => rw [g2] at hb; cases hb
        | some w =>
          rw [g2] at hb hP
          cases g1 : Obj.lookup P ps with
          | none => rw [g1] at hP; cases w <;> simp [ItemRel] at hP
          | some u =>
            rw [g1] at hP
            rcases hit P u g1 with rfl | ⟨it, rfl⟩
            · cases w <;> simp [ItemRel] at hP
              simp [child] at hb
            · cases w with
              | obj it' =>
                have hM : MemberRel (R P M) (Obj.lookup M it) (Obj.lookup M it') := hP M
                simp only [child] at hb
                cases i2 : Obj.lookup M it' with
                | none => rw [i2] at hb; cases hb
                | some y =>
                  rw [i2] at hb hM
                  cases hb
                  cases i1 : Obj.lookup M it with
                  | none => rw [i1] at hM; simp [MemberRel] at hM
                  | some x =>
                    rw [i1] at hM
                    refine ⟨x, ?_, hM⟩
                    rw [hsec, hps]
                    simp only [Option.bind_some, getAt, child, g1, i1]
              | _ => simp [ItemRel] at hP
      | _ => simp [PathsRel] at h2

/-- The path items afterwards. -/
theorem opsRelated_items {R : Str → Str → Json → Json → Prop} {c out : Json} (h : OpsRelated R c out) (hitems : PathItemsOk c) : PathItemsOk out := by
  have h2 := h.2
  rcases hitems with (hm | hm) | ⟨ps, hps, hit⟩
  · rw [hm] at h2
    cases h3 : section_ out b!"paths" with
    | none => exact .inl (.inl h3)
    | some v => rw [h3] at h2; cases v <;> simp [PathsRel] at h2
  · rw [hm] at h2
    cases h3 : section_ out b!"paths" with
    | none => exact .inl (.inl h3)
    | some v =>
      rw [h3] at h2
      cases v with
      | null => exact .inl (.inr h3)
      | _ => simp [PathsRel] at h2
  · rw [hps] at h2
    cases h3 : section_ out b!"paths" with
    | none => exact .inl (.inl h3)
    | some v =>
      rw [h3] at h2
      cases v with
      | obj ps' =>
        refine .inr ⟨ps', h3, fun P w hw => ?_⟩
        have hP : ItemRel (R P) (Obj.lookup P ps) (Obj.lookup P ps') := h2 P
        rw [hw] at hP
        cases g1 : Obj.lookup P ps with
        | none => rw [g1] at hP; cases w <;> simp [ItemRel] at hP
        | some u =>
          rw [g1] at hP
          rcases hit P u g1 with rfl | ⟨it, rfl⟩
          · cases w <;> simp [ItemRel] at hP
            exact .inl rfl
          · cases w with
            | obj it' => exact .inr ⟨it', rfl⟩
            | _ => simp [ItemRel] at hP
      | _ => simp [PathsRel] at h2

end Oapi.Scan
