import Verif.Proofs.Resolver1

/-! What the resolver computes, following its path of pointers. -/
namespace Oapi.Resolver
open Spec
open Container (keyLoc)

/-- Expansion below a path of pointers. -/
inductive ExpPP (cfg : Cfg) : List Str → Json → Json → Prop where
  | mk {pp : List Str} {j : Json} (σ : Loc → Option Json) (d v : Loc → Json)
    (hother : ∀ L, (∀ x p, ¬ RefAt j L x p) → σ L = none)
    (hexp : ∀ L x p e, RefAt j L x p → get cfg.exp p = some e → (p.toStr ∈ pp → e.kind = .schema) →
      σ L = some (refObj (localText e)))
    (hcyc : ∀ L x p, RefAt j L x p → p.toStr ∈ pp → (∀ e, get cfg.exp p = some e → e.kind ≠ .schema) →
      σ L = some (mkRepl L x (.obj [])))
    (hres : ∀ L x p, RefAt j L x p → p.toStr ∉ pp → get cfg.exp p = none →
      cfg.res p = .ok (d L) ∧ σ L = some (mkRepl L x (v L)))
    (hrec : ∀ L x p, RefAt j L x p → p.toStr ∉ pp → get cfg.exp p = none → ExpPP cfg (pp ++ [p.toStr]) (d L) (v L)) :
    ExpPP cfg pp j (subst σ j)

/-- The components written while expanding below a path. -/
inductive CompPP (cfg : Cfg) : List Str → Json → Export → Json → Prop where
  | here {pp j L x p e d v} : RefAt j L x p → p.toStr ∉ pp → get cfg.exp p = some e → cfg.res p = .ok d →
      ExpPP cfg (pp ++ [p.toStr]) d v → CompPP cfg pp j e v
  | deep {pp j L x p d e v} : RefAt j L x p → p.toStr ∉ pp → cfg.res p = .ok d →
      CompPP cfg (pp ++ [p.toStr]) d e v → CompPP cfg pp j e v

/-- The components that have to be written while expanding below a path. -/
inductive Need (cfg : Cfg) : List Str → Json → Export → Prop where
  | here {pp j L x p e} : RefAt j L x p → p.toStr ∉ pp → get cfg.exp p = some e → Need cfg pp j e
  | deep {pp j L x p d e} : RefAt j L x p → p.toStr ∉ pp → cfg.res p = .ok d → Need cfg (pp ++ [p.toStr]) d e → Need cfg pp j e

/-- The written components are right and complete. -/
def Log (cfg : Cfg) (pp : List Str) (j : Json) (log : List (Export × Json)) : Prop :=
  (∀ t ∈ log, CompPP cfg pp j t.1 t.2 ∧ Json.WF t.2) ∧ ∀ e, Need cfg pp j e → ∃ v, (e, v) ∈ log

/-- The document the components go into. -/
def Store (cfg : Cfg) (con : Json) : Prop := Json.WF con ∧ ∀ e ∈ cfg.exp, Open (compKeys e) con

theorem get_mem {exp : List Export} {p : Pointer} {e : Export} (h : get exp p = some e) : e ∈ exp ∧ e.ptr.toStr = p.toStr := by
  unfold get at h
  exact ⟨List.mem_of_find?_eq_some h, by simpa using List.find?_some h⟩

theorem CompPP.mem {cfg : Cfg} {pp j e v} (h : CompPP cfg pp j e v) : e ∈ cfg.exp := by
  induction h with
  | here _ _ h => exact (get_mem h).1
  | deep _ _ _ _ ih => exact ih

theorem ExtRef.inj {x : Str} {p q : Pointer} (h : ExtRef x p) (h' : ExtRef x q) : p = q := by
  have := h.1.symm.trans h'.1
  cases this; rfl

theorem RefAt.inj {j : Json} {L : Loc} {x y : Str} {p q : Pointer} (h : RefAt j L x p) (h' : RefAt j L y q) : x = y ∧ p = q := by
  have := h.1.symm.trans h'.1
  cases this
  exact ⟨rfl, ExtRef.inj h.2 h'.2⟩

/-! ### Components -/

theorem compKeys_len {e e' : Export} {p : List Str} (hp : p <+: compKeys e') (hne : p ≠ compKeys e') : ¬ compKeys e <+: p := by
  intro h
  have h1 := h.length_le
  have h2 := hp.length_le
  exact hne (hp.eq_of_length (by simp [compKeys] at *; omega))

theorem Store.put {cfg : Cfg} {con : Json} (h : Store cfg con) {e : Export} (he : e ∈ cfg.exp) {v : Json} (hv : Json.WF v) :
    Store cfg (putKeys v (compKeys e) con) :=
  ⟨putKeys_WF hv h.1, fun e' he' => (h.2 e he).putKeys (h.2 e' he') fun _ hp hne => compKeys_len hp hne⟩

theorem addComponents_cons (t : Export × Json) (l : List (Export × Json)) (c : Json) :
    addComponents (t :: l) c = addComponents l (putKeys t.2 (compKeys t.1) c) := rfl

theorem addComponents_append (a b : List (Export × Json)) (c : Json) : addComponents (a ++ b) c = addComponents b (addComponents a c) := by
  simp [addComponents]

/-- Entries that can be added. -/
def Entries (cfg : Cfg) (l : List (Export × Json)) : Prop := ∀ t ∈ l, t.1 ∈ cfg.exp ∧ Json.WF t.2

theorem Entries.tail {cfg : Cfg} {t l} (h : Entries cfg (t :: l)) : Entries cfg l := fun x hx => h x (by simp [hx])

theorem Log.entries {cfg : Cfg} {pp j log} (h : Log cfg pp j log) : Entries cfg log :=
  fun t ht => ⟨(h.1 t ht).1.mem, (h.1 t ht).2⟩

theorem Store.add {cfg : Cfg} {l : List (Export × Json)} (hl : Entries cfg l) : ∀ {con : Json}, Store cfg con →
    Store cfg (addComponents l con) := by
  induction l with
  | nil => intro con h; exact h
  | cons t l ih =>
    intro con h
    rw [addComponents_cons]
    exact ih hl.tail (h.put (hl t (by simp)).1 (hl t (by simp)).2)

theorem Store.putAt {cfg : Cfg} {con : Json} (h : Store cfg con) {L : Loc} {w : Json} (hw : Json.WF w)
    (ha : ∀ e ∈ cfg.exp, Apart L (compLoc e)) : Store cfg (putAt w L con) :=
  ⟨Container.putAt_WF h.1 hw, fun e he => (h.2 e he).putAt (ha e he)⟩

theorem getAt_addComponents {cfg : Cfg} {l : List (Export × Json)} (hl : Entries cfg l) {L : Loc}
    (ha : ∀ e ∈ cfg.exp, Apart L (compLoc e)) : ∀ {con : Json}, Store cfg con → getAt (addComponents l con) L = getAt con L := by
  induction l with
  | nil => intro con _; rfl
  | cons t l ih =>
    intro con h
    have ht := hl t (by simp)
    rw [addComponents_cons, ih hl.tail (h.put ht.1 ht.2), getAt_putKeys_apart (ha _ ht.1) (h.2 _ ht.1)]

theorem putAt_addComponents {cfg : Cfg} {l : List (Export × Json)} (hl : Entries cfg l) {L : Loc} {w : Json}
    (ha : ∀ e ∈ cfg.exp, Apart L (compLoc e)) : ∀ {con old : Json}, Store cfg con → getAt con L = some old →
    putAt w L (addComponents l con) = addComponents l (putAt w L con) := by
  induction l with
  | nil => intro con old _ _; rfl
  | cons t l ih =>
    intro con old h hg
    have ht := hl t (by simp)
    rw [addComponents_cons, addComponents_cons, ih hl.tail (h.put ht.1 ht.2) (old := old)
      (by rw [getAt_putKeys_apart (ha _ ht.1) (h.2 _ ht.1)]; exact hg), putAt_putKeys (ks := compKeys t.1) h.1 hg (ha _ ht.1) (h.2 _ ht.1)]

theorem putAll_addComponents {cfg : Cfg} {l : List (Export × Json)} (hl : Entries cfg l) {rs : List (Loc × Json)}
    : ∀ {con : Json}, Store cfg con → (∀ r ∈ rs, Json.WF r.2 ∧ (∀ e ∈ cfg.exp, Apart r.1 (compLoc e)) ∧ ∃ old, getAt con r.1 = some old) →
    rs.Pairwise (fun a b => Apart a.1 b.1) →
    putAll (addComponents l con) rs = addComponents l (putAll con rs) := by
  induction rs with
  | nil => intro con _ _ _; rfl
  | cons r rs ih =>
    intro con h hr hp
    obtain ⟨hw, ha, old, ho⟩ := hr r (by simp)
    show putAll (putAt r.2 r.1 (addComponents l con)) rs = addComponents l (putAll (putAt r.2 r.1 con) rs)
    rw [putAt_addComponents hl ha h ho]
    obtain ⟨hp1, hp2⟩ := List.pairwise_cons.1 hp
    refine ih (h.putAt hw ha) ?_ hp2
    intro r' hr'
    obtain ⟨hw', ha', old', ho'⟩ := hr r' (by simp [hr'])
    exact ⟨hw', ha', old', by rw [getAt_putAt_apart (hp1 r' hr')]; exact ho'⟩

/-! ### One reference -/

/-- What visiting one reference does: the value put in its place and the components written. -/
inductive RefStep (cfg : Cfg) (pp : List Str) (L : Loc) (x : Str) (p : Pointer) : Json → List (Export × Json) → Prop where
  | cycLocal {e} : p.toStr ∈ pp → get cfg.exp p = some e → e.kind = .schema → RefStep cfg pp L x p (refObj (localText e)) []
  | cycEmpty : p.toStr ∈ pp → (∀ e, get cfg.exp p = some e → e.kind ≠ .schema) → RefStep cfg pp L x p (mkRepl L x (.obj [])) []
  | exported {e d v log} : p.toStr ∉ pp → get cfg.exp p = some e → cfg.res p = .ok d → ExpPP cfg (pp ++ [p.toStr]) d v →
      Json.WF v → Log cfg (pp ++ [p.toStr]) d log → RefStep cfg pp L x p (refObj (localText e)) (log ++ [(e, v)])
  | inlined {d v log} : p.toStr ∉ pp → get cfg.exp p = none → cfg.res p = .ok d → ExpPP cfg (pp ++ [p.toStr]) d v →
      Json.WF v → Log cfg (pp ++ [p.toStr]) d log → RefStep cfg pp L x p (mkRepl L x v) log

theorem refObj_WF (x : Str) : Json.WF (refObj x) := (Json.WF_obj _).2 ⟨by simp [Obj.Sorted], by simp [Json.WFO, Json.WF]⟩
theorem empty_WF : Json.WF (.obj []) := (Json.WF_obj []).2 ⟨True.intro, by simp [Json.WFO]⟩
theorem mkRepl_WF {L : Loc} {x : Str} {v : Json} (h : Json.WF v) : Json.WF (mkRepl L x v) := by
  unfold mkRepl
  split
  · refine (Json.WF_obj _).2 ⟨?_, ?_⟩
    · simp [Obj.Sorted]; decide
    · simp [Json.WFO, Json.WF, h]
  · exact h

theorem RefStep.WF {cfg pp L x p w l} (h : RefStep cfg pp L x p w l) : Json.WF w := by
  cases h with
  | cycLocal => exact refObj_WF _
  | cycEmpty => exact mkRepl_WF empty_WF
  | exported => exact refObj_WF _
  | inlined _ _ _ _ hw => exact mkRepl_WF hw

theorem RefStep.entries {cfg pp L x p w l} (h : RefStep cfg pp L x p w l) : Entries cfg l := by
  cases h with
  | cycLocal => intro t ht; cases ht
  | cycEmpty => intro t ht; cases ht
  | exported _ hg _ _ hw hl =>
    intro t ht
    rcases List.mem_append.1 ht with ht | ht
    · exact hl.entries t ht
    · rw [List.mem_singleton] at ht; subst ht; exact ⟨(get_mem hg).1, hw⟩
  | inlined _ _ _ _ _ hl => exact hl.entries

/-- The recursive call does what it should on tidy documents. -/
def CallOK (cfg : Cfg) (c : Json) (call : List Str → Json → St → Res (Cur × St)) : Prop :=
  ∀ pp d st r, Tidy d → (∀ L x p, RefAt d L x p → Reach cfg c p) → Store cfg st.con → call pp d st = .ok r →
    ∃ d' log, r.1 = some d' ∧ r.2.con = addComponents log st.con ∧ ExpPP cfg pp d d' ∧ Json.WF d' ∧ Log cfg pp d log

/-- The container in use and the document after adding components and writing. -/
def after (cx : Cur) (con : Json) (log : List (Export × Json)) (L : Loc) (w : Json) : Cur × Json :=
  match cx with
  | none => (none, putAt w L (addComponents log con))
  | some j => (some (putAt w L j), addComponents log con)

theorem wr_after (cx : Cur) (st : St) (con : Json) (log : List (Export × Json)) (L : Loc) (w : Json)
    (h : st.con = addComponents log con) : ((wr cx st L w).1, (wr cx st L w).2.con) = after cx con log L w := by
  cases cx <;> simp [wr, after, h]

theorem visit_ok {cfg : Cfg} {c : Json} {call} (hc : CallOK cfg c call) (hg : GoodCfg cfg c) {pp : List Str} {cx : Cur} {st : St}
    {L : Loc} {x : Str} {p : Pointer} {r : Cur × St} (hgl : GoodLoc L) (hx : ExtRef x p) (hr : Reach cfg c p) (hs : Store cfg st.con)
    (hat : getAt (readCur cx st) L = some (refObj x)) (htop : cx = none → ∀ e ∈ cfg.exp, Apart L (compLoc e))
    (h : visit cfg call pp cx st (dot (L ++ [.key refKey])) (.str x) = .ok r) :
    ∃ w log, RefStep cfg pp L x p w log ∧ (r.1, r.2.con) = after cx st.con log L w := by
  unfold visit at h
  simp only [hx.1] at h
  have hext : p.isExternal = true := by simp [Pointer.isExternal, hx.2]
  rw [if_neg (by rw [hext]; simp)] at h
  -- reading the current container after components were added
  have hread : ∀ (st' : St) log, Entries cfg log → st'.con = addComponents log st.con → getAt (readCur cx st') L = some (refObj x) := by
    intro st' log hl he
    cases cx with
    | some j => exact hat
    | none =>
      show getAt st'.con L = _
      rw [he, getAt_addComponents hl (htop rfl) hs]
      exact hat
  by_cases hpp : p.toStr ∈ pp
  · rw [if_pos hpp] at h
    unfold setRecursive at h
    cases hge : get cfg.exp p with
    | none =>
      rw [hge] at h
      simp only at h
      rw [replacePtr_wr _ hgl hat] at h
      cases h
      exact ⟨_, [], .cycEmpty hpp (by rw [hge]; intro e he; cases he), wr_after cx st st.con [] L _ rfl⟩
    | some e =>
      rw [hge] at h
      simp only at h
      by_cases hk : e.kind = .schema
      · rw [if_pos (by simp [Export.isScheme, hk]), updateLocal_wr _ hgl hat, local_text (hg.names e (get_mem hge).1)] at h
        cases h
        exact ⟨_, [], .cycLocal hpp hge hk, wr_after cx st st.con [] L _ rfl⟩
      · rw [if_neg (by simp [Export.isScheme, hk]), replacePtr_wr _ hgl hat] at h
        cases h
        exact ⟨_, [], .cycEmpty hpp (by rw [hge]; intro e' he'; cases he'; exact hk), wr_after cx st st.con [] L _ rfl⟩
  · rw [if_neg hpp] at h
    cases hres : cfg.res p with
    | err => rw [hres] at h; cases h
    | panic => rw [hres] at h; cases h
    | ok d =>
      rw [hres] at h
      simp only at h
      cases hcall : call (pp ++ [p.toStr]) d st with
      | err => rw [hcall] at h; cases h
      | panic => rw [hcall] at h; cases h
      | ok r' =>
        obtain ⟨nc', st'⟩ := r'
        rw [hcall] at h
        simp only at h
        obtain ⟨d', log, h1, h2, h3, h4, h5⟩ := hc _ _ _ _ (hg.docs p d hr hres)
          (fun L' x' q hq => .step hr ⟨d, L', x', hres, hq⟩) hs hcall
        simp only at h1 h2
        subst h1
        unfold set at h
        have hs' : Store cfg st'.con := by rw [h2]; exact hs.add h5.entries
        cases hge : get cfg.exp p with
        | none =>
          rw [hge] at h
          simp only at h
          rw [replacePtr_wr _ hgl (hread st' log h5.entries h2)] at h
          cases h
          exact ⟨_, log, .inlined hpp hge hres h3 h4 h5, wr_after cx st' st.con log L _ h2⟩
        | some e =>
          rw [hge] at h
          simp only at h
          have hm := (get_mem hge).1
          rw [setP_comp (hg.names e hm) _ (hs'.2 e hm)] at h
          simp only [readCur, Option.getD_some] at h
          have hent : Entries cfg (log ++ [(e, d')]) := by
            intro t ht
            rcases List.mem_append.1 ht with ht | ht
            · exact h5.entries t ht
            · rw [List.mem_singleton] at ht; subst ht; exact ⟨hm, h4⟩
          have h2' : putKeys d' (compKeys e) st'.con = addComponents (log ++ [(e, d')]) st.con := by
            rw [addComponents_append, h2]; rfl
          rw [updateLocal_wr _ hgl (hread ⟨putKeys d' (compKeys e) st'.con, st'.clock⟩ _ hent h2'), local_text (hg.names e hm)] at h
          cases h
          exact ⟨_, log ++ [(e, d')], .exported hpp hge hres h3 h4 h5, wr_after cx ⟨putKeys d' (compKeys e) st'.con, st'.clock⟩ st.con _ L _ h2'⟩

/-! ### The loop -/

theorem apart_refObj {j : Json} {L L' : Loc} {x x' : Str} (h : getAt j L = some (refObj x)) (h' : getAt j L' = some (refObj x'))
    (hne : L ≠ L') : Apart L L' := by
  have aux : ∀ {L L' : Loc} {x x' : Str}, getAt j L = some (refObj x) → getAt j L' = some (refObj x') → L <+: L' → L = L' := by
    rintro L L' x x' h h' ⟨t, rfl⟩
    rw [Oapi.getAt_append, h] at h'
    cases t with
    | nil => simp
    | cons s t =>
      exfalso
      simp only [Option.bind_some, refObj] at h'
      cases s with
      | idx n => simp [getAt, child] at h'
      | key k =>
        rw [getAt_obj_key, Obj.lookup_cons] at h'
        by_cases e : k = refKey
        · rw [if_pos e] at h'
          cases t with
          | nil => simp [getAt] at h'
          | cons s t => cases s <;> simp [getAt, child] at h'
        · rw [if_neg e] at h'
          simp [Obj.lookup] at h'
  exact ⟨fun hp => hne (aux h h' hp), fun hp => hne (aux h' h hp).symm⟩

/-- The state of the container in use and of the document after a loop. -/
def afterAll (cx : Cur) (con : Json) (log : List (Export × Json)) (rs : List (Loc × Json)) : Cur × Json :=
  match cx with
  | none => (none, addComponents log (putAll con rs))
  | some j => (some (putAll j rs), addComponents log con)

/-- The reference entry is one for the loop to handle. -/
def Todo (cfg : Cfg) (c : Json) (cx : Cur) (cur : Json) (w : Loc × Json) : Prop :=
  ∀ x p, w.2 = .str x → ExtRef x p → ∃ L, w.1 = L ++ [.key refKey] ∧ GoodLoc (L ++ [.key refKey]) ∧ getAt cur L = some (refObj x) ∧ Reach cfg c p ∧
    (cx = none → ∀ e ∈ cfg.exp, Apart L (compLoc e))

theorem loop_ok {cfg : Cfg} {c : Json} {call} (hc : CallOK cfg c call) (hg : GoodCfg cfg c) {pp : List Str} (ws : List (Loc × Json)) :
    ∀ {cx : Cur} {st : St} {r : Cur × St}, Store cfg st.con → (∀ w ∈ ws, Todo cfg c cx (readCur cx st) w) →
    ws.Pairwise (fun a b => Apart a.1 b.1) → loop cfg call pp (ws.map dotEntry) cx st = .ok r →
    ∃ rs log, (r.1, r.2.con) = afterAll cx st.con log rs ∧ rs.Pairwise (fun a b => Apart a.1 b.1) ∧
      (∀ y ∈ rs, ∃ x p l, (y.1 ++ [.key refKey], .str x) ∈ ws ∧ ExtRef x p ∧ RefStep cfg pp y.1 x p y.2 l) ∧
      (∀ L x p, (L ++ [.key refKey], .str x) ∈ ws → ExtRef x p → ∃ w l, (L, w) ∈ rs ∧ RefStep cfg pp L x p w l ∧ ∀ t ∈ l, t ∈ log) ∧
      (∀ t ∈ log, ∃ L x p w l, (L ++ [.key refKey], .str x) ∈ ws ∧ ExtRef x p ∧ RefStep cfg pp L x p w l ∧ t ∈ l) := by
  induction ws with
  | nil =>
    intro cx st r _ _ _ h
    cases h
    refine ⟨[], [], ?_, .nil, by simp, by simp, by simp⟩
    cases cx <;> rfl
  | cons w ws ih =>
    intro cx st r hs htodo hpw h
    obtain ⟨hp1, hp2⟩ := List.pairwise_cons.1 hpw
    simp only [List.map_cons, dotEntry, loop] at h
    cases hv : visit cfg call pp cx st (dotted w.1) w.2 with
    | err => rw [hv] at h; cases h
    | panic => rw [hv] at h; cases h
    | ok r1 =>
      obtain ⟨cx1, st1⟩ := r1
      rw [hv] at h
      simp only at h
      by_cases hext : ∃ x p, w.2 = .str x ∧ ExtRef x p
      · obtain ⟨x, p, hx, hp⟩ := hext
        obtain ⟨L, hL, hgl', hat, hreach, htop⟩ := htodo w (by simp) x p hx hp
        rw [hx, hL, dotted_good hgl'] at hv
        have hgl : GoodLoc L := fun s hs => hgl' s (by simp [hs])
        obtain ⟨w', l, hstep, haft⟩ := visit_ok hc hg hgl hp hreach hs hat htop hv
        -- other references to handle are elsewhere
        have hother : ∀ y ∈ ws, ∀ L' x' p', y.1 = L' ++ [.key refKey] → y.2 = .str x' → ExtRef x' p' →
            getAt (readCur cx st) L' = some (refObj x') ∧ (cx = none → ∀ e ∈ cfg.exp, Apart L' (compLoc e)) ∧ Apart L L' := by
          intro y hy L' x' p' hL' hx' hp'
          obtain ⟨L2, hL2, _, h1, _, h3⟩ := htodo y (by simp [hy]) x' p' hx' hp'
          have : L' = L2 := by
            have := hL'.symm.trans hL2
            exact (List.append_inj' this rfl).1
          subst this
          refine ⟨h1, h3, apart_refObj hat h1 ?_⟩
          rintro rfl
          exact (hp1 y hy).1 (by rw [hL, hL']; exact List.prefix_refl _)
        have hent := hstep.entries
        have hs1 : Store cfg st1.con := by
          cases cx with
          | some j =>
            simp only [after, Prod.mk.injEq] at haft
            rw [haft.2]; exact hs.add hent
          | none =>
            simp only [after, Prod.mk.injEq] at haft
            rw [haft.2]
            exact (hs.add hent).putAt hstep.WF (htop rfl)
        have hcx1 : (cx1 = none ↔ cx = none) := by
          cases cx <;> simp only [after, Prod.mk.injEq] at haft <;> simp [haft.1]
        have htodo1 : ∀ y ∈ ws, Todo cfg c cx1 (readCur cx1 st1) y := by
          intro y hy x' p' hx' hp'
          obtain ⟨L', hL', hg', h1, h2, h3⟩ := htodo y (by simp [hy]) x' p' hx' hp'
          obtain ⟨_, _, hap⟩ := hother y hy L' x' p' hL' hx' hp'
          refine ⟨L', hL', hg', ?_, h2, fun hn => h3 (hcx1.1 hn)⟩
          cases cx with
          | some j =>
            simp only [after, Prod.mk.injEq] at haft
            rw [haft.1]
            simp only [readCur, Option.getD_some] at h1 ⊢
            rw [getAt_putAt_apart hap]; exact h1
          | none =>
            simp only [after, Prod.mk.injEq] at haft
            rw [haft.1]
            simp only [readCur, Option.getD_none] at h1 ⊢
            rw [haft.2, getAt_putAt_apart hap, getAt_addComponents hent (h3 rfl) hs]; exact h1
        obtain ⟨rs, log, k1, k2, k3, k4, k5⟩ := ih hs1 htodo1 hp2 h
        refine ⟨(L, w') :: rs, l ++ log, ?_, ?_, ?_, ?_, ?_⟩
        · rw [k1]
          cases cx with
          | some j =>
            simp only [after, Prod.mk.injEq] at haft
            rw [haft.1, haft.2]
            simp only [afterAll, addComponents_append]
            rfl
          | none =>
            simp only [after, Prod.mk.injEq] at haft
            rw [haft.1, haft.2]
            simp only [afterAll, addComponents_append]
            rw [putAt_addComponents hent (htop rfl) hs hat]
            congr 2
            refine putAll_addComponents hent (hs.putAt hstep.WF (htop rfl)) ?_ k2
            intro y hy
            obtain ⟨x', p', l', m1, m2, m3⟩ := k3 y hy
            obtain ⟨n1, n2, n3⟩ := hother _ m1 y.1 x' p' rfl rfl m2
            exact ⟨m3.WF, n2 rfl, _, by rw [getAt_putAt_apart n3]; exact n1⟩
        · refine List.pairwise_cons.2 ⟨?_, k2⟩
          intro y hy
          obtain ⟨x', p', l', m1, m2, m3⟩ := k3 y hy
          exact (hother _ m1 y.1 x' p' rfl rfl m2).2.2
        · intro y hy
          rcases List.mem_cons.1 hy with rfl | hy
          · exact ⟨x, p, l, by simp only [← hL, ← hx]; simp, hp, hstep⟩
          · obtain ⟨x', p', l', m1, m2, m3⟩ := k3 y hy
            exact ⟨x', p', l', List.mem_cons_of_mem _ m1, m2, m3⟩
        · intro L' x' p' hm hp'
          rcases List.mem_cons.1 hm with hm | hm
          · rw [← hm] at hL hx
            have e1 : L' = L := (List.append_inj' hL rfl).1
            have e2 : x' = x := by simpa using hx
            subst e1; subst e2
            have := ExtRef.inj hp hp'
            subst this
            exact ⟨w', l, by simp, hstep, fun t ht => by simp [ht]⟩
          · obtain ⟨w2, l2, m1, m2, m3⟩ := k4 L' x' p' hm hp'
            exact ⟨w2, l2, by simp [m1], m2, fun t ht => by simp [m3 t ht]⟩
        · intro t ht
          rcases List.mem_append.1 ht with ht | ht
          · exact ⟨L, x, p, w', l, by simp only [← hL, ← hx]; simp, hp, hstep, ht⟩
          · obtain ⟨L', x', p', w2, l2, m1, m2, m3, m4⟩ := k5 t ht
            exact ⟨L', x', p', w2, l2, List.mem_cons_of_mem _ m1, m2, m3, m4⟩
      · -- not an external reference: nothing happens
        have hsame : cx1 = cx ∧ st1 = st := by
          unfold visit at hv
          cases hw2 : w.2 with
          | str x =>
            rw [hw2] at hv
            simp only at hv
            cases hpar : Pointer.parse x with
            | err => rw [hpar] at hv; cases hv
            | panic => rw [hpar] at hv; cases hv
            | ok p =>
              rw [hpar] at hv
              simp only at hv
              have : p.isExternal = false := by
                cases he : p.isExternal with
                | false => rfl
                | true => exact absurd ⟨x, p, hw2, hpar, by simpa [Pointer.isExternal] using he⟩ hext
              rw [if_pos this] at hv
              cases hv; exact ⟨rfl, rfl⟩
          | _ => rw [hw2] at hv; cases hv; exact ⟨rfl, rfl⟩
        obtain ⟨rfl, rfl⟩ := hsame
        obtain ⟨rs, log, k1, k2, k3, k4, k5⟩ := ih hs (fun y hy => htodo y (by simp [hy])) hp2 h
        refine ⟨rs, log, k1, k2, ?_, ?_, ?_⟩
        · intro y hy
          obtain ⟨x', p', l', m1, m2, m3⟩ := k3 y hy
          exact ⟨x', p', l', List.mem_cons_of_mem _ m1, m2, m3⟩
        · intro L' x' p' hm hp'
          rcases List.mem_cons.1 hm with hm | hm
          · exact absurd ⟨x', p', by rw [← hm], hp'⟩ hext
          · exact k4 L' x' p' hm hp'
        · intro t ht
          obtain ⟨L', x', p', w2, l2, m1, m2, m3, m4⟩ := k5 t ht
          exact ⟨L', x', p', w2, l2, List.mem_cons_of_mem _ m1, m2, m3, m4⟩

end Oapi.Resolver
