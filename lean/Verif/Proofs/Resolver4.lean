import Verif.Proofs.Resolver3
import Verif.Proofs.Pointer

/-! Consequences: where the references of a result come from. -/
namespace Oapi.Resolver
open Spec
open Container (keyLoc)

theorem hash_no_scheme {s : Str} {p : Pointer} (h : Pointer.parse (35 :: s) = .ok p) : p.url.scheme = [] := by
  rcases Pointer.parse_inv h with ⟨_, rfl⟩ | ⟨_, _, h1, _⟩
  · rfl
  · unfold Url.Parse at h1
    have hc : Str.cut 35 (35 :: s) = ([], some s) := by simp [Str.cut]
    rw [hc] at h1
    have he : Url.parse [] = some {} := by decide
    simp only [he] at h1
    cases s with
    | nil => injection h1 with h1; rw [← h1]
    | cons a t =>
      simp only [Url.setFragment] at h1
      split at h1
      · cases h1
      · injection h1 with h1; rw [← h1]

theorem localText_not_ext (e : Export) (p : Pointer) : ¬ ExtRef (localText e) p := by
  intro h
  have : localText e = 35 :: (b!"/components/" ++ e.kind.key ++ 47 :: e.name) := by
    unfold localText
    rw [show b!"#/components/" = 35 :: b!"/components/" by decide]
    rfl
  rw [this] at h
  exact h.2 (hash_no_scheme h.1)

/-- Reading from a simultaneous replacement. -/
theorem getAt_subst_cases {σ : Loc → Option Json} {j : Json} {L : Loc} {v : Json} (h : getAt (subst σ j) L = some v) :
    (∃ A B w, L = A ++ B ∧ σ A = some w ∧ getAt w B = some v) ∨
    ((∀ A, A <+: L → σ A = none) ∧ ∃ v0, getAt j L = some v0 ∧ v = subst (fun l => σ (L ++ l)) v0) := by
  by_cases hn : ∀ A, A <+: L → σ A = none
  · refine Or.inr ⟨hn, ?_⟩
    rw [getAt_subst j (fun p hp _ => hn p hp)] at h
    cases hg : getAt j L with
    | none => rw [hg] at h; cases h
    | some v0 => rw [hg] at h; cases h; exact ⟨v0, rfl, rfl⟩
  · -- the shortest replaced beginning
    left
    suffices H : ∀ (n : Nat) (L : Loc) (σ : Loc → Option Json) (j : Json), L.length = n → ¬ (∀ A, A <+: L → σ A = none) →
        getAt (subst σ j) L = some v → ∃ A B w, L = A ++ B ∧ σ A = some w ∧ getAt w B = some v from H _ L σ j rfl hn h
    intro n
    induction n with
    | zero =>
      intro L σ j hl hn h
      have : L = [] := List.length_eq_zero_iff.1 hl
      subst this
      cases h0 : σ [] with
      | none => exact absurd (fun A hA => by rw [List.prefix_nil.1 hA]; exact h0) hn
      | some w => rw [subst_some h0] at h; exact ⟨[], [], w, rfl, h0, h⟩
    | succ n ih =>
      intro L σ j hl hn h
      cases h0 : σ [] with
      | some w => rw [subst_some h0] at h; exact ⟨[], L, w, rfl, h0, h⟩
      | none =>
        cases L with
        | nil => simp at hl
        | cons s L =>
          have hn' : ¬ (∀ A, A <+: L → σ (s :: A) = none) := by
            intro hA
            apply hn
            intro A hA'
            cases A with
            | nil => exact h0
            | cons s' A =>
              obtain ⟨rfl, hA2⟩ := List.cons_prefix_cons.1 hA'
              exact hA A hA2
          have hc : ∃ c, getAt (subst (fun l => σ (s :: l)) c) L = some v := by
            cases s with
            | key k =>
              cases j with
              | obj m =>
                rw [subst_obj h0, getAt_obj_key, lookup_substO] at h
                cases hl : Obj.lookup k m with
                | none => rw [hl] at h; cases h
                | some c => rw [hl] at h; exact ⟨c, h⟩
              | arr xs => rw [subst_arr h0] at h; cases h
              | _ => rw [subst_scalar h0 rfl] at h; cases h
            | idx i =>
              cases j with
              | arr xs =>
                rw [subst_arr h0, getAt_arr_idx, getElem_substA, Nat.zero_add] at h
                cases hl : xs[i]? with
                | none => rw [hl] at h; cases h
                | some c => rw [hl] at h; exact ⟨c, h⟩
              | obj m => rw [subst_obj h0] at h; cases h
              | _ => rw [subst_scalar h0 rfl] at h; cases h
          obtain ⟨c, hc⟩ := hc
          obtain ⟨A, B, w, h1, h2, h3⟩ := ih L _ c (by simpa using hl) hn' hc
          exact ⟨s :: A, B, w, by rw [h1]; rfl, h2, h3⟩

theorem subst_str {σ : Loc → Option Json} {j : Json} {x : Str} (h0 : σ [] = none) (h : Json.str x = subst σ j) : j = .str x := by
  cases j with
  | obj m => rw [subst_obj h0] at h; cases h
  | arr m => rw [subst_arr h0] at h; cases h
  | _ => rw [subst_scalar h0 rfl] at h; exact h.symm

theorem snoc_cases {α : Type} {A B L : List α} {a : α} (h : L ++ [a] = A ++ B) :
    B = [] ∨ ∃ B', B = B' ++ [a] ∧ L = A ++ B' := by
  cases hB : B.reverse with
  | nil => exact Or.inl (List.reverse_eq_nil_iff.1 hB)
  | cons b t =>
    right
    have e : B = t.reverse ++ [b] := by rw [← List.reverse_reverse B, hB]; simp
    subst e
    rw [← List.append_assoc] at h
    obtain ⟨h1, h2⟩ := List.append_inj' h rfl
    cases h2
    exact ⟨t.reverse, rfl, h1⟩

theorem getAt_refObj {t : Str} {B : Loc} {x : Str} (h : getAt (refObj t) (B ++ [.key refKey]) = some (.str x)) : x = t := by
  cases B with
  | nil =>
    simp only [refObj, List.nil_append, getAt_obj_key, Obj.lookup_cons, if_true, getAt] at h
    cases h; rfl
  | cons s B =>
    exfalso
    simp only [refObj, List.cons_append] at h
    cases s with
    | idx n => simp [getAt, child] at h
    | key k =>
      rw [getAt_obj_key, Obj.lookup_cons] at h
      by_cases e : k = refKey
      · rw [if_pos e] at h
        cases B with
        | nil => simp [getAt, child] at h
        | cons s t => cases s <;> simp [getAt, child] at h
      · rw [if_neg e] at h
        simp [Obj.lookup] at h

theorem getAt_empty {B : Loc} {s : Step} : getAt (.obj []) (B ++ [s]) = none := by
  cases B with
  | nil => cases s <;> rfl
  | cons a B => cases a <;> rfl

/-- References in `obj [("", v), ("$ref", x)]`. -/
theorem getAt_mkRepl {L : Loc} {y x : Str} {v : Json} {B : Loc} (h : getAt (mkRepl L y v) (B ++ [.key refKey]) = some (.str x)) :
    (L = [] ∧ x = y) ∨ ∃ B', getAt v (B' ++ [.key refKey]) = some (.str x) := by
  unfold mkRepl at h
  split at h
  · rename_i hL
    cases B with
    | nil =>
      simp only [List.nil_append, getAt_obj_key, Obj.lookup_cons] at h
      rw [if_neg (by decide), if_pos trivial] at h
      cases h; exact Or.inl ⟨hL, rfl⟩
    | cons s B =>
      simp only [List.cons_append] at h
      cases s with
      | idx n => simp [getAt, child] at h
      | key k =>
        rw [getAt_obj_key, Obj.lookup_cons, Obj.lookup_cons] at h
        by_cases e : k = []
        · rw [if_pos e] at h; exact Or.inr ⟨B, h⟩
        · rw [if_neg e] at h
          by_cases e : k = refKey
          · rw [if_pos e] at h
            exfalso
            cases B with
            | nil => simp [getAt, child] at h
            | cons s t => cases s <;> simp [getAt, child] at h
          · rw [if_neg e] at h
            simp [Obj.lookup] at h
  · exact Or.inr ⟨B, h⟩

theorem getAt_nil_eq {j v : Json} (h : getAt j [] = some v) : j = v := by cases h; rfl

/-- The expansion of an object is an object. -/
theorem ExpPP.isObj {cfg : Cfg} {pp : List Str} {j j' : Json} (h : ExpPP cfg pp j j') (hj : ∃ m, j = .obj m) : ∃ m, j' = .obj m := by
  obtain ⟨m, rfl⟩ := hj
  cases h with
  | mk σ d v hother hexp hcyc hres hrec =>
    cases h0 : σ [] with
    | none => exact ⟨_, subst_obj h0 m⟩
    | some w =>
      rw [subst_some h0]
      by_cases hr : ∃ x p, RefAt (.obj m) [] x p
      · obtain ⟨x, p, hr⟩ := hr
        cases hg : get cfg.exp p with
        | some e =>
          by_cases hk : p.toStr ∈ pp → e.kind = .schema
          · rw [hexp [] x p e hr hg hk] at h0; cases h0; exact ⟨_, rfl⟩
          · rw [Classical.not_imp] at hk
            rw [hcyc [] x p hr hk.1 (by rw [hg]; intro e' he'; cases he'; exact hk.2)] at h0
            cases h0
            exact ⟨_, rfl⟩
        | none =>
          by_cases hp : p.toStr ∈ pp
          · rw [hcyc [] x p hr hp (by rw [hg]; intro e' he'; cases he')] at h0
            cases h0
            exact ⟨_, rfl⟩
          · rw [(hres [] x p hr hp hg).2] at h0
            cases h0
            exact ⟨_, rfl⟩
      · rw [hother [] (fun x p h => hr ⟨x, p, h⟩)] at h0; cases h0


/-- Where the references of an expansion come from. -/
theorem ExpPP.refs {cfg : Cfg} {pp : List Str} {j j' : Json} (h : ExpPP cfg pp j j')
    (K : Str → Prop) (N : Export → Prop)
    (hK : ∀ x, HasRef j x → K x)
    (hsub : ∀ p d x, Reach cfg j p → cfg.res p = .ok d → HasRef d x → K x)
    (hobj : ∀ p d, Reach cfg j p → cfg.res p = .ok d → ∃ m, d = .obj m)
    (hN : ∀ e, Need cfg pp j e ∨ (∃ p, p.toStr ∈ pp ∧ get cfg.exp p = some e) → N e) :
    ∀ x, HasRef j' x → K x ∨ ∃ e, N e ∧ x = localText e := by
  induction h generalizing K N with
  | @mk pp j σ d v hother hexp hcyc hres hrec ih =>
    rintro x ⟨L, hx⟩
    rcases getAt_subst_cases hx with ⟨A, B, w, hL, hσ, hw⟩ | ⟨hn, v0, h1, h2⟩
    · have hr : ∃ y p, RefAt j A y p := Classical.byContradiction fun hno => by
        rw [hother A (fun y p h => hno ⟨y, p, h⟩)] at hσ; cases hσ
      obtain ⟨y, p, hr⟩ := hr
      rcases snoc_cases hL with rfl | ⟨B', rfl, hLA⟩
      · -- a replaced value is never a string
        exfalso
        have := getAt_nil_eq hw
        subst this
        cases hg : get cfg.exp p with
        | some e =>
          by_cases hk : p.toStr ∈ pp → e.kind = .schema
          · rw [hexp A y p e hr hg hk] at hσ; cases hσ
          · rw [Classical.not_imp] at hk
            rw [hcyc A y p hr hk.1 (by rw [hg]; intro e' he'; cases he'; exact hk.2)] at hσ
            unfold mkRepl at hσ; split at hσ <;> cases hσ
        | none =>
          by_cases hp : p.toStr ∈ pp
          · rw [hcyc A y p hr hp (by rw [hg]; intro e' he'; cases he')] at hσ
            unfold mkRepl at hσ; split at hσ <;> cases hσ
          · obtain ⟨h1, h2⟩ := hres A y p hr hp hg
            obtain ⟨m, hm⟩ := (hrec A y p hr hp hg).isObj (hobj p _ (.doc hr) h1)
            rw [h2, hm] at hσ
            unfold mkRepl at hσ; split at hσ <;> cases hσ
      · cases hg : get cfg.exp p with
        | some e =>
          by_cases hk : p.toStr ∈ pp → e.kind = .schema
          · rw [hexp A y p e hr hg hk] at hσ
            cases hσ
            refine Or.inr ⟨e, hN e ?_, getAt_refObj hw⟩
            by_cases hp : p.toStr ∈ pp
            · exact Or.inr ⟨p, hp, hg⟩
            · exact Or.inl (.here hr hp hg)
          · rw [Classical.not_imp] at hk
            rw [hcyc A y p hr hk.1 (by rw [hg]; intro e' he'; cases he'; exact hk.2)] at hσ
            cases hσ
            rcases getAt_mkRepl hw with ⟨rfl, rfl⟩ | ⟨B'', h⟩
            · exact Or.inl (hK _ ⟨[], hr.1⟩)
            · rw [getAt_empty] at h; cases h
        | none =>
          by_cases hp : p.toStr ∈ pp
          · rw [hcyc A y p hr hp (by rw [hg]; intro e' he'; cases he')] at hσ
            cases hσ
            rcases getAt_mkRepl hw with ⟨rfl, rfl⟩ | ⟨B'', h⟩
            · exact Or.inl (hK _ ⟨[], hr.1⟩)
            · rw [getAt_empty] at h; cases h
          · obtain ⟨h1, h2⟩ := hres A y p hr hp hg
            rw [h2] at hσ
            cases hσ
            rcases getAt_mkRepl hw with ⟨rfl, rfl⟩ | ⟨B'', h⟩
            · exact Or.inl (hK _ ⟨[], hr.1⟩)
            · have hreach : ∀ q, Reach cfg (d A) q → Reach cfg j q := by
                intro q hq
                induction hq with
                | doc hd => exact .step (.doc hr) ⟨_, _, _, h1, hd⟩
                | step _ hs ih => exact .step ih hs
              refine ih A y p hr hp hg K N (fun x hx => hsub p _ x (.doc hr) h1 hx)
                (fun q d' x hq hd hx => hsub q d' x (hreach q hq) hd hx)
                (fun q d' hq hd => hobj q d' (hreach q hq) hd) ?_ x ⟨B'', h⟩
              intro e he
              apply hN
              rcases he with he | ⟨q, hq, hge⟩
              · exact Or.inl (.deep hr hp h1 he)
              · rcases List.mem_append.1 hq with hq | hq
                · exact Or.inr ⟨q, hq, hge⟩
                · rw [List.mem_singleton] at hq
                  have : get cfg.exp q = get cfg.exp p := by unfold get; rw [hq]
                  rw [this, hg] at hge; cases hge
    · have h0 : (fun l => σ (L ++ [.key refKey] ++ l)) [] = none := by
        simp only [List.append_nil]; exact hn _ (List.prefix_refl _)
      have := subst_str h0 h2
      subst this
      exact Or.inl (hK x ⟨L, h1⟩)

/-- In an expansion of documents that are not bare references, only references to what is not external stay. -/
theorem ExpPP.noExt {cfg : Cfg} {pp : List Str} {j j' : Json} (h : ExpPP cfg pp j j')
    (hbare : NotBare j) (hb : ∀ p d, Reach cfg j p → cfg.res p = .ok d → NotBare d)
    (hobj : ∀ p d, Reach cfg j p → cfg.res p = .ok d → ∃ m, d = .obj m) :
    ∀ L x p, ¬ RefAt j' L x p := by
  induction h with
  | @mk pp j σ d v hother hexp hcyc hres hrec ih =>
    rintro L x q ⟨hx, hq⟩
    rcases getAt_subst_cases hx with ⟨A, B, w, hL, hσ, hw⟩ | ⟨hn, v0, h1, h2⟩
    · have hr : ∃ y p, RefAt j A y p := Classical.byContradiction fun hno => by
        rw [hother A (fun y p h => hno ⟨y, p, h⟩)] at hσ; cases hσ
      obtain ⟨y, p, hr⟩ := hr
      have hA : A ≠ [] := by rintro rfl; exact hbare y p hr
      have hmk : ∀ v, mkRepl A y v = v := fun v => by unfold mkRepl; rw [if_neg hA]
      cases hg : get cfg.exp p with
      | some e =>
        by_cases hk : p.toStr ∈ pp → e.kind = .schema
        · rw [hexp A y p e hr hg hk] at hσ
          cases hσ
          rcases snoc_cases hL with rfl | ⟨B', rfl, hLA⟩
          · cases hw
          · rw [getAt_refObj hw] at hq
            exact localText_not_ext e q hq
        · rw [Classical.not_imp] at hk
          rw [hcyc A y p hr hk.1 (by rw [hg]; intro e' he'; cases he'; exact hk.2), hmk] at hσ
          cases hσ
          rcases snoc_cases hL with rfl | ⟨B', rfl, hLA⟩
          · cases hw
          · rw [getAt_empty] at hw; cases hw
      | none =>
        by_cases hp : p.toStr ∈ pp
        · rw [hcyc A y p hr hp (by rw [hg]; intro e' he'; cases he'), hmk] at hσ
          cases hσ
          rcases snoc_cases hL with rfl | ⟨B', rfl, hLA⟩
          · cases hw
          · rw [getAt_empty] at hw; cases hw
        · obtain ⟨h1, h2⟩ := hres A y p hr hp hg
          rw [h2, hmk] at hσ
          cases hσ
          have hreach : ∀ q, Reach cfg (d A) q → Reach cfg j q := by
            intro q hq
            induction hq with
            | doc hd => exact .step (.doc hr) ⟨_, _, _, h1, hd⟩
            | step _ hs ih => exact .step ih hs
          rcases snoc_cases hL with rfl | ⟨B', rfl, hLA⟩
          · obtain ⟨m, hm⟩ := (hrec A y p hr hp hg).isObj (hobj p _ (.doc hr) h1)
            rw [hm] at hw; cases hw
          · exact ih A y p hr hp hg (hb p _ (.doc hr) h1) (fun p d hp hd => hb p d (hreach p hp) hd)
              (fun p d hp hd => hobj p d (hreach p hp) hd) B' x q ⟨hw, hq⟩
    · have h0 : (fun l => σ (L ++ [.key refKey] ++ l)) [] = none := by
        simp only [List.append_nil]; exact hn _ (List.prefix_refl _)
      have := subst_str h0 h2
      subst this
      have hr : RefAt j L x q := ⟨h1, hq⟩
      have hs := hn L ⟨_, rfl⟩
      have hL : L ≠ [] := by rintro rfl; exact hbare x q hr
      cases hg : get cfg.exp q with
      | some e =>
        by_cases hk : q.toStr ∈ pp → e.kind = .schema
        · rw [hexp L x q e hr hg hk] at hs; cases hs
        · rw [Classical.not_imp] at hk
          rw [hcyc L x q hr hk.1 (by rw [hg]; intro e' he'; cases he'; exact hk.2)] at hs; cases hs
      | none =>
        by_cases hp : q.toStr ∈ pp
        · rw [hcyc L x q hr hp (by rw [hg]; intro e' he'; cases he')] at hs; cases hs
        · rw [(hres L x q hr hp hg).2] at hs; cases hs

/-! ### References in the document with its components -/

theorem putKeys_refs {v j : Json} {ks : List Str} (ho : Open ks j) (hv : ∃ m, v = .obj m) {x : Str} (h : HasRef (putKeys v ks j) x) :
    HasRef j x ∨ HasRef v x := by
  obtain ⟨L, hL⟩ := h
  by_cases h1 : keyLoc ks <+: L ++ [.key refKey]
  · obtain ⟨B, hB⟩ := h1
    rw [← hB, getAt_putKeys_below _ ho] at hL
    rcases snoc_cases hB.symm with rfl | ⟨B', rfl, _⟩
    · obtain ⟨m, rfl⟩ := hv; cases hL
    · exact Or.inr ⟨B', hL⟩
  · by_cases h2 : L ++ [.key refKey] <+: keyLoc ks
    · exfalso
      obtain ⟨t, ht⟩ := h2
      have : ∃ p, p <+: ks ∧ p ≠ ks ∧ keyLoc p = L ++ [.key refKey] := by
        refine ⟨ks.take (L ++ [Step.key refKey]).length, List.take_prefix _ _, ?_, ?_⟩
        · intro e
          apply h1
          have hlen := congrArg List.length e
          rw [List.length_take] at hlen
          have hlen2 := congrArg List.length ht
          simp [keyLoc] at hlen hlen2
          have : t = [] := List.length_eq_zero_iff.1 (by omega)
          subst this
          rw [List.append_nil] at ht
          rw [ht]
          exact List.prefix_refl _
        · have := congrArg (List.take (L ++ [Step.key refKey]).length) ht
          rw [List.take_left] at this
          rw [this]; simp [keyLoc, List.map_take]
      obtain ⟨p, hp, hne, he⟩ := this
      obtain ⟨m, hm⟩ := getAt_putKeys_above (v := v) hp hne ho
      rw [he, hL] at hm
      cases hm
    · rw [getAt_putKeys_apart ⟨h2, h1⟩ ho] at hL
      exact Or.inl ⟨L, hL⟩

theorem addComponents_refs {cfg : Cfg} {l : List (Export × Json)} (hl : Entries cfg l) (hv : ∀ t ∈ l, ∃ m, t.2 = .obj m) {x : Str} :
    ∀ {con : Json}, Store cfg con → HasRef (addComponents l con) x → HasRef con x ∨ ∃ t ∈ l, HasRef t.2 x := by
  induction l with
  | nil => intro con _ h; exact Or.inl h
  | cons t l ih =>
    intro con hs h
    have ht := hl t (by simp)
    rw [addComponents_cons] at h
    rcases ih hl.tail (fun t ht => hv t (by simp [ht])) (hs.put ht.1 ht.2) h with h | ⟨t', ht', h⟩
    · rcases putKeys_refs (hs.2 _ ht.1) (hv t (by simp)) h with h | h
      · exact Or.inl h
      · exact Or.inr ⟨t, by simp, h⟩
    · exact Or.inr ⟨t', by simp [ht'], h⟩

/-- Where a written component comes from. -/
theorem CompPP.origin {cfg : Cfg} {pp : List Str} {j : Json} {e : Export} {v : Json} (h : CompPP cfg pp j e v) :
    ∃ pp' p d, Reach cfg j p ∧ get cfg.exp p = some e ∧ cfg.res p = .ok d ∧ ExpPP cfg (pp' ++ [p.toStr]) d v ∧
      (∀ e', Need cfg (pp' ++ [p.toStr]) d e' → Need cfg pp j e') ∧
      (∀ q, q.toStr ∈ pp' ++ [p.toStr] → ∀ e', get cfg.exp q = some e' → Need cfg pp j e' ∨ q.toStr ∈ pp) := by
  induction h with
  | @here pp j L x p e d v hr hp hg hres hexp =>
    refine ⟨pp, p, d, .doc hr, hg, hres, hexp, fun e' he => .deep hr hp hres he, ?_⟩
    intro q hq e' he'
    rcases List.mem_append.1 hq with hq | hq
    · exact Or.inr hq
    · rw [List.mem_singleton] at hq
      have : get cfg.exp q = get cfg.exp p := by unfold get; rw [hq]
      rw [this, hg] at he'
      cases he'
      exact Or.inl (.here hr hp hg)
  | @deep pp j L x p d e v hr hp hres _ ih =>
    obtain ⟨pp', p', d', h1, h2, h3, h4, h5, h6⟩ := ih
    have hreach : ∀ q, Reach cfg d q → Reach cfg j q := by
      intro q hq
      induction hq with
      | doc hd => exact .step (.doc hr) ⟨_, _, _, hres, hd⟩
      | step _ hs ih => exact .step ih hs
    refine ⟨pp', p', d', hreach _ h1, h2, h3, h4, fun e' he => .deep hr hp hres (h5 e' he), ?_⟩
    intro q hq e' he'
    rcases h6 q hq e' he' with h | h
    · exact Or.inl (.deep hr hp hres h)
    · rcases List.mem_append.1 h with h | h
      · exact Or.inr h
      · rw [List.mem_singleton] at h
        have : get cfg.exp q = get cfg.exp p := by unfold get; rw [h]
        rw [this] at he'
        exact Or.inl (.here hr hp he')

theorem _root_.Oapi.Spec.Reach.sub {cfg : Cfg} {c d : Json} {p : Pointer} (hp : Reach cfg c p) (hd : cfg.res p = .ok d) {q : Pointer} (h : Reach cfg d q) :
    Reach cfg c q := by
  induction h with
  | doc hr => exact .step hp ⟨_, _, _, hd, hr⟩
  | step _ hs ih => exact .step ih hs

/-- Every reference of the result: an Authored one, or a local reference to a component that was written. -/
theorem result_refs {cfg : Cfg} {c D : Json} {log : List (Export × Json)} (hg : GoodCfg cfg c) (hexp : ExpPP cfg [] c D)
    (hlog : Log cfg [] c log) (hs : Store cfg D) {x : Str} (h : HasRef (addComponents log D) x) :
    Authored cfg c x ∨ ∃ e, Need cfg [] c e ∧ x = localText e := by
  have hobj : ∀ p d, Reach cfg c p → cfg.res p = .ok d → ∃ m, d = .obj m := fun p d hp hd => (hg.docs p d hp hd).isObj
  have hlobj : ∀ t ∈ log, ∃ m, t.2 = .obj m := by
    intro t ht
    obtain ⟨pp', p, d, h1, h2, h3, h4, _⟩ := (hlog.1 t ht).1.origin
    exact h4.isObj (hobj p d h1 h3)
  rcases addComponents_refs hlog.entries hlobj hs h with h | ⟨t, ht, h⟩
  · refine hexp.refs (Authored cfg c) (Need cfg [] c) (fun x hx => Or.inl hx) (fun p d x hp hd hx => Or.inr ⟨p, d, hp, hd, hx⟩)
      hobj ?_ x h
    rintro e (he | ⟨p, hp, _⟩)
    · exact he
    · cases hp
  · obtain ⟨pp', p, d, h1, h2, h3, h4, h5, h6⟩ := (hlog.1 t ht).1.origin
    refine h4.refs (Authored cfg c) (Need cfg [] c) (fun x hx => Or.inr ⟨p, d, h1, h3, hx⟩)
      (fun q d' x hq hd hx => Or.inr ⟨q, d', h1.sub h3 hq, hd, hx⟩) (fun q d' hq hd => hobj q d' (h1.sub h3 hq) hd) ?_ x h
    rintro e (he | ⟨q, hq, hge⟩)
    · exact h5 e he
    · rcases h6 q hq e hge with h | h
      · exact h
      · cases h

/-- No external reference in the result. -/
theorem result_noExt {cfg : Cfg} {c D : Json} {log : List (Export × Json)} (hg : GoodCfg cfg c) (hb : NotBare c)
    (hbs : ∀ p d, Reach cfg c p → cfg.res p = .ok d → NotBare d) (hexp : ExpPP cfg [] c D)
    (hlog : Log cfg [] c log) (hs : Store cfg D) : ∀ L x p, ¬ RefAt (addComponents log D) L x p := by
  rintro L x p ⟨hx, hext⟩
  have hobj : ∀ p d, Reach cfg c p → cfg.res p = .ok d → ∃ m, d = .obj m := fun p d hp hd => (hg.docs p d hp hd).isObj
  have hlobj : ∀ t ∈ log, ∃ m, t.2 = .obj m := by
    intro t ht
    obtain ⟨pp', p, d, h1, h2, h3, h4, _⟩ := (hlog.1 t ht).1.origin
    exact h4.isObj (hobj p d h1 h3)
  rcases addComponents_refs hlog.entries hlobj hs ⟨L, hx⟩ with ⟨L', h⟩ | ⟨t, ht, L', h⟩
  · exact hexp.noExt hb hbs hobj L' x p ⟨h, hext⟩
  · obtain ⟨pp', q, d, h1, h2, h3, h4, h5, h6⟩ := (hlog.1 t ht).1.origin
    exact h4.noExt (hbs q d h1 h3) (fun p d hp hd => hbs p d (h1.sub h3 hp) hd) (fun p d hp hd => hobj p d (h1.sub h3 hp) hd)
      L' x p ⟨h, hext⟩

/-- A written component is in the result. -/
theorem component_present {cfg : Cfg} {l : List (Export × Json)} (hl : Entries cfg l) {e : Export} {v : Json} (h : (e, v) ∈ l) :
    ∀ {con : Json}, Store cfg con → ∃ v', getAt (addComponents l con) (compLoc e) = some v' ∧ ∃ e', (e', v') ∈ l ∧ compLoc e' = compLoc e := by
  have keep : ∀ (l : List (Export × Json)), Entries cfg l → ∀ {con : Json} {v}, Store cfg con → getAt con (compLoc e) = some v →
      ∃ v', getAt (addComponents l con) (compLoc e) = some v' ∧ (v' = v ∨ ∃ e', (e', v') ∈ l ∧ compLoc e' = compLoc e) := by
    intro l
    induction l with
    | nil => intro _ con v _ hv; exact ⟨v, hv, Or.inl rfl⟩
    | cons t l ih =>
      intro hl con v hs hv
      have ht := hl t (by simp)
      rw [addComponents_cons]
      by_cases he : compLoc t.1 = compLoc e
      · obtain ⟨v', h1, h2⟩ := ih hl.tail (hs.put ht.1 ht.2) (v := t.2) (by
          rw [← he, compLoc_eq]
          have := getAt_putKeys_below (v := t.2) [] (hs.2 _ ht.1)
          rw [List.append_nil] at this
          exact this)
        refine ⟨v', h1, Or.inr ?_⟩
        rcases h2 with rfl | ⟨e', h2, h3⟩
        · exact ⟨t.1, by simp, he⟩
        · exact ⟨e', by simp [h2], h3⟩
      · obtain ⟨v', h1, h2⟩ := ih hl.tail (hs.put ht.1 ht.2) (v := v) (by
          rw [getAt_putKeys_apart ?_ (hs.2 _ ht.1)]
          · exact hv
          · constructor
            · intro hp; exact he (hp.eq_of_length (by simp [compLoc, keyLoc, compKeys])).symm
            · intro hp; exact he (hp.eq_of_length (by simp [compLoc, keyLoc, compKeys])))
        refine ⟨v', h1, ?_⟩
        rcases h2 with rfl | ⟨e', h2, h3⟩
        · exact Or.inl rfl
        · exact Or.inr ⟨e', by simp [h2], h3⟩
  induction l with
  | nil => cases h
  | cons t l ih =>
    intro con hs
    have ht := hl t (by simp)
    rw [addComponents_cons]
    rcases List.mem_cons.1 h with rfl | h
    · obtain ⟨v', h1, h2⟩ := keep l hl.tail (hs.put ht.1 ht.2) (v := v) (by
        rw [compLoc_eq]
        have := getAt_putKeys_below (v := v) [] (hs.2 _ ht.1)
        rw [List.append_nil] at this
        exact this)
      refine ⟨v', h1, ?_⟩
      rcases h2 with rfl | ⟨e', h2, h3⟩
      · exact ⟨e, by simp, rfl⟩
      · exact ⟨e', by simp [h2], h3⟩
    · obtain ⟨v', h1, e', h2, h3⟩ := ih hl.tail h (hs.put ht.1 ht.2)
      exact ⟨v', h1, e', by simp [h2], h3⟩

end Oapi.Resolver
