import Verif.Proofs.Defaults2

namespace Oapi.OAPI
open Oapi Spec Container Json

/-! ### matching -/

theorem matching_ok {mt : Str → Str → Str → Res Bool} {p : Str} {k : Nat} {ops : List Op} {is : List Nat}
    (h : matching mt p k ops = .ok is) :
    is.Nodup ∧ (∀ j, j ∈ is ↔ k ≤ j ∧ ∃ o, ops[j - k]? = some o ∧ mt p o.method o.path = .ok true) ∧
      ∀ o ∈ ops, ∃ b, mt p o.method o.path = .ok b := by
  induction ops generalizing k is with
  | nil => simp [matching] at h; subst h; simp
  | cons o t ih =>
    simp only [matching] at h
    cases hm : mt p o.method o.path with
    | err e => rw [hm] at h; simp at h
    | panic => rw [hm] at h; simp at h
    | ok b =>
      rw [hm] at h
      cases ht : matching mt p (k + 1) t with
      | err e => rw [ht] at h; simp at h
      | panic => rw [ht] at h; simp at h
      | ok l =>
        rw [ht] at h; simp at h
        obtain ⟨g1, g2, g3⟩ := ih ht
        have hk : k ∉ l := by rw [g2]; omega
        refine ⟨?_, ?_, ?_⟩
        · subst h; split
          · exact List.nodup_cons.2 ⟨hk, g1⟩
          · exact g1
        · intro j
          have hj : j ∈ is ↔ (b = true ∧ j = k) ∨ j ∈ l := by
            subst h; split <;> simp_all
          rw [hj, g2]
          constructor
          · rintro (⟨rfl, rfl⟩ | ⟨h1, o', h2, h3⟩)
            · exact ⟨Nat.le_refl _, o, by simp, hm⟩
            · refine ⟨by omega, o', ?_, h3⟩
              rw [show j - k = (j - (k + 1)) + 1 by omega]; simpa using h2
          · rintro ⟨h1, o', h2, h3⟩
            by_cases hjk : j = k
            · subst hjk
              simp at h2; subst h2
              rw [hm] at h3; simp at h3
              exact Or.inl ⟨h3, rfl⟩
            · refine Or.inr ⟨by omega, o', ?_, h3⟩
              rw [show j - k = (j - (k + 1)) + 1 by omega] at h2; simpa using h2
        · intro o' ho'
          simp only [List.mem_cons] at ho'
          rcases ho' with rfl | ho'
          · exact ⟨b, hm⟩
          · exact g3 o' ho'

theorem matching_total {mt : Str → Str → Str → Res Bool} {p : Str} {ops : List Op}
    (h : ∀ o ∈ ops, ∃ b, mt p o.method o.path = .ok b) (k : Nat) : ∃ is, matching mt p k ops = .ok is := by
  induction ops generalizing k with
  | nil => exact ⟨[], rfl⟩
  | cons o t ih =>
    obtain ⟨b, hb⟩ := h o (by simp)
    obtain ⟨l, hl⟩ := ih (fun o ho => h o (by simp [ho])) (k + 1)
    simp only [matching, hb, hl]; exact ⟨_, rfl⟩

/-! ### all matched operations -/

def Clean (hit : Str × Str → Prop) (ids : List (Str × Str)) : Prop :=
  ids.Nodup ∧ ∀ x ∈ ids, hit x → (46 : UInt8) ∉ x.1 ∧ (46 : UInt8) ∉ x.2

theorem Inv.clean {hit : Str × Str → Prop} {ids : List (Str × Str)} {st : St} (hi : Inv ids st) (hc : Clean hit ids) {o : Op} (ho : o ∈ st.ops)
    (hh : hit (opId o)) : (46 : UInt8) ∉ o.path ∧ (46 : UInt8) ∉ o.method :=
  hc.2 (opId o) (by rw [← hi.ids]; exact List.mem_map.2 ⟨o, ho, rfl⟩) hh

theorem Inv.val_WF {ids : List (Str × Str)} {st : St} (hi : Inv ids st) {o : Op} (ho : o ∈ st.ops) : WF o.val :=
  getAt_WF hi.wf (hi.rep o ho)

theorem mergeOp_WF {a ov nc : Json} (ha : WF a) (hov : WF ov) (hk : NamedKeys ov) (h : merge a ov mergeDefault = .ok nc) : WF nc := by
  rcases merge_op ha hov hk with ⟨_, h1⟩ | ⟨_, _, b, h1, h2, _⟩ | ⟨_, _, e, h1⟩
  · rw [h1] at h; cases h; exact ha
  · rw [h1] at h; cases h; exact h2
  · rw [h1] at h; cases h

theorem applyAt_fail {st : St} {i : Nat} {o : Op} (ho : st.ops[i]? = some o) {ov : Json}
    (hm : ∀ x, merge o.val ov mergeDefault ≠ .ok x) (st' : St) : applyAt ov st i ≠ .ok st' := by
  unfold applyAt
  rw [ho]
  simp only
  cases h : merge o.val ov mergeDefault with
  | ok x => exact absurd h (hm x)
  | err e => simp
  | panic => simp

/-- The effect of one default on the operations with positions `is`. -/
theorem applyAll_clean {hit : Str × Str → Prop} {ids : List (Str × Str)} (hc : Clean hit ids) {ov : Json} (hov : WF ov) (hk : NamedKeys ov)
    (is : List Nat) (hn : is.Nodup) (st : St) (hi : Inv ids st) (hh : ∀ i ∈ is, ∀ o, st.ops[i]? = some o → hit (opId o)) :
    ((∀ i ∈ is, ∀ o, st.ops[i]? = some o → ∃ x, merge o.val ov mergeDefault = .ok x) →
      ∃ st', applyAll ov is st = .ok st' ∧ Inv ids st' ∧ OpsRelated (fun _ _ _ _ => True) st.cnt st'.cnt ∧
        ∀ j o, st.ops[j]? = some o → ∃ o', st'.ops[j]? = some o' ∧ opId o' = opId o ∧
          (if j ∈ is then merge o.val ov mergeDefault = .ok o'.val else o'.val = o.val)) ∧
    (∀ i ∈ is, ∀ o, st.ops[i]? = some o → (∀ x, merge o.val ov mergeDefault ≠ .ok x) →
      ∀ st', applyAll ov is st ≠ .ok st') := by
  induction is generalizing st with
  | nil =>
    refine ⟨fun _ => ⟨st, rfl, hi, OpsRelated_refl (fun _ _ _ => trivial) _, fun j o h => ⟨o, h, rfl, by simp⟩⟩, by simp⟩
  | cons i t ih =>
    rw [List.nodup_cons] at hn
    cases ho : st.ops[i]? with
    | none =>
      have happ : applyAt ov st i = .ok st := by unfold applyAt; rw [ho]
      obtain ⟨ih1, ih2⟩ := ih hn.2 st hi (fun i hi => hh i (by simp [hi]))
      refine ⟨fun h => ?_, ?_⟩
      · obtain ⟨st', g1, g2, g3, g4⟩ := ih1 (fun i hi o ho => h i (by simp [hi]) o ho)
        refine ⟨st', by simp only [applyAll, happ]; exact g1, g2, g3, fun j o hj => ?_⟩
        obtain ⟨o', q1, q2, q3⟩ := g4 j o hj
        refine ⟨o', q1, q2, ?_⟩
        have : j ≠ i := by rintro rfl; rw [hj] at ho; cases ho
        simp only [List.mem_cons, this, false_or]; exact q3
      · intro j hj o hoj hm st'
        simp only [List.mem_cons] at hj
        rcases hj with rfl | hj
        · rw [ho] at hoj; cases hoj
        · simp only [applyAll, happ]; exact ih2 j hj o hoj hm st'
    | some o0 =>
      have hmem : o0 ∈ st.ops := List.mem_of_getElem? ho
      have hcl := hi.clean hc hmem (hh i (by simp) o0 ho)
      cases hm0 : merge o0.val ov mergeDefault with
      | ok nc =>
        obtain ⟨st1, h1, h2, h3, h4⟩ := applyAt_clean hc.1 hi ho hcl.1 hcl.2 hm0 (mergeOp_WF (hi.val_WF hmem) hov hk hm0)
        have hh1 : ∀ i' ∈ t, ∀ o, st1.ops[i']? = some o → hit (opId o) := by
          intro i' hi' o' ho'
          have hlen : st1.ops.length = st.ops.length := by
            have a := congrArg List.length h2.ids; have b := congrArg List.length hi.ids
            simp at a b; omega
          have hlt : i' < st.ops.length := by rw [← hlen]; exact (List.getElem?_eq_some_iff.1 ho').1
          obtain ⟨o'', q1, q2, _⟩ := h4 i' st.ops[i'] (List.getElem?_eq_getElem hlt)
          rw [ho'] at q1; cases q1
          rw [q2]
          exact hh i' (by simp [hi']) _ (List.getElem?_eq_getElem hlt)
        obtain ⟨ih1, ih2⟩ := ih hn.2 st1 h2 hh1
        refine ⟨fun h => ?_, ?_⟩
        · have : ∀ i ∈ t, ∀ o, st1.ops[i]? = some o → ∃ x, merge o.val ov mergeDefault = .ok x := by
            intro i' hi' o' ho'
            have hne : i' ≠ i := fun e => hn.1 (e ▸ hi')
            have hlen : st1.ops.length = st.ops.length := by
              have a := congrArg List.length h2.ids; have b := congrArg List.length hi.ids
              simp at a b; omega
            have hlt : i' < st.ops.length := by rw [← hlen]; exact (List.getElem?_eq_some_iff.1 ho').1
            obtain ⟨o'', q1, _, q3⟩ := h4 i' st.ops[i'] (List.getElem?_eq_getElem hlt)
            rw [ho'] at q1; cases q1
            rw [q3, if_neg hne]
            exact h i' (by simp [hi']) _ (List.getElem?_eq_getElem hlt)
          obtain ⟨st', g1, g2, g3, g4⟩ := ih1 this
          refine ⟨st', by simp only [applyAll, h1]; exact g1, g2, OpsRelated_trans (fun _ _ _ _ _ _ _ => trivial) h3 g3, ?_⟩
          intro j o hj
          obtain ⟨o1, q1, q2, q3⟩ := h4 j o hj
          obtain ⟨o2, r1, r2, r3⟩ := g4 j o1 q1
          refine ⟨o2, r1, r2.trans q2, ?_⟩
          by_cases hji : j = i
          · subst hji
            rw [ho] at hj; cases hj
            rw [if_neg hn.1] at r3
            simp only [List.mem_cons, true_or, if_true]
            rw [r3, q3]; simpa using hm0
          · simp only [List.mem_cons, hji, false_or]
            rw [if_neg hji] at q3
            rw [q3] at r3; exact r3
        · intro j hj o hoj hm st'
          simp only [List.mem_cons] at hj
          rcases hj with rfl | hj
          · rw [ho] at hoj; cases hoj; exact absurd hm0 (hm _)
          · simp only [applyAll, h1]
            have hne : j ≠ i := fun e => hn.1 (e ▸ hj)
            obtain ⟨o1, q1, q2, q3⟩ := h4 j o hoj
            rw [if_neg hne] at q3
            exact ih2 j hj o1 q1 (by rw [q3]; exact hm) st'
      | err e =>
        refine ⟨fun h => ?_, ?_⟩
        · obtain ⟨x, hx⟩ := h i (by simp) o0 ho; rw [hm0] at hx; cases hx
        · intro j hj o hoj hm st' hst
          simp only [applyAll] at hst
          cases ha : applyAt ov st i with
          | ok st1 => exact applyAt_fail ho (by simp [hm0]) st1 ha
          | err _ => rw [ha] at hst; cases hst
          | panic => rw [ha] at hst; cases hst
      | panic =>
        refine ⟨fun h => ?_, ?_⟩
        · obtain ⟨x, hx⟩ := h i (by simp) o0 ho; rw [hm0] at hx; cases hx
        · intro j hj o hoj hm st' hst
          simp only [applyAll] at hst
          cases ha : applyAt ov st i with
          | ok st1 => exact applyAt_fail ho (by simp [hm0]) st1 ha
          | err _ => rw [ha] at hst; cases hst
          | panic => rw [ha] at hst; cases hst

/-! ### all defaults -/

/-- what a list of defaults makes of one operation -/
def Chain (mt : Str → Str → Str → Res Bool) (P M : Str) : List (Str × Json) → Json → Json → Prop
  | [], a, b => b = a
  | (p, ov) :: t, a, b => ∃ x, ((mt p M P = .ok true → merge a ov mergeDefault = .ok x) ∧ (mt p M P ≠ .ok true → x = a)) ∧
      Chain mt P M t x b

theorem chain_exists_head {mt : Str → Str → Str → Res Bool} {P M : Str} {p : Str} {ov : Json} {t : List (Str × Json)} {a b : Json}
    (h : Chain mt P M ((p, ov) :: t) a b) (hm : mt p M P = .ok true) : ∃ x, merge a ov mergeDefault = .ok x ∧ Chain mt P M t x b := by
  obtain ⟨x, ⟨h1, _⟩, h2⟩ := h
  exact ⟨x, h1 hm, h2⟩

theorem applyDefaults_ok {mt : Str → Str → Str → Res Bool} {hit : Str × Str → Prop} {ids : List (Str × Str)} (hc : Clean hit ids)
    (defops : List (Str × Json)) (hh : ∀ d ∈ defops, ∀ x, mt d.1 x.2 x.1 = .ok true → hit x)
    (hd : ∀ d ∈ defops, WF d.2 ∧ NamedKeys d.2) (st st' : St) (hi : Inv ids st)
    (h : applyDefaults mt defops st = .ok st') :
    Inv ids st' ∧ OpsRelated (fun _ _ _ _ => True) st.cnt st'.cnt ∧
      (∀ d ∈ defops, ∀ x ∈ ids, ∃ b, mt d.1 x.2 x.1 = .ok b) ∧
      ∀ (j : Nat) o, st.ops[j]? = some o → ∃ o', st'.ops[j]? = some o' ∧ opId o' = opId o ∧ Chain mt o.path o.method defops o.val o'.val := by
  induction defops generalizing st with
  | nil =>
    simp [applyDefaults] at h; subst h
    exact ⟨hi, OpsRelated_refl (fun _ _ _ => trivial) _, by simp, fun j o hj => ⟨o, hj, rfl, rfl⟩⟩
  | cons d t ih =>
    obtain ⟨p, ov⟩ := d
    simp only [applyDefaults] at h
    cases hm : matching mt p 0 st.ops with
    | err e => rw [hm] at h; cases h
    | panic => rw [hm] at h; cases h
    | ok is =>
      rw [hm] at h; simp only at h
      obtain ⟨m1, m2, m3⟩ := matching_ok hm
      have hdo : WF ov ∧ NamedKeys ov := hd (p, ov) (by simp)
      obtain ⟨a1, a2⟩ := applyAll_clean hc hdo.1 hdo.2 is m1 st hi (fun i hii o ho => by
        obtain ⟨_, o', h1, h2⟩ := (m2 i).1 hii
        simp only [Nat.sub_zero] at h1; rw [ho] at h1; cases h1
        exact hh (p, ov) (by simp) (opId o) h2)
      cases ha : applyAll ov is st with
      | err e => rw [ha] at h; cases h
      | panic => rw [ha] at h; cases h
      | ok st1 =>
        rw [ha] at h; simp only at h
        have hall : ∀ i ∈ is, ∀ o, st.ops[i]? = some o → ∃ x, merge o.val ov mergeDefault = .ok x := by
          intro i hii o ho
          cases hmo : merge o.val ov mergeDefault with
          | ok x => exact ⟨x, rfl⟩
          | err e => exact absurd ha (a2 i hii o ho (by simp [hmo]) st1)
          | panic => exact absurd ha (a2 i hii o ho (by simp [hmo]) st1)
        obtain ⟨st1', e1, e2, e3, e4⟩ := a1 hall
        rw [ha] at e1; cases e1
        obtain ⟨g1, g2, g3, g4⟩ := ih (fun d hdd => hh d (by simp [hdd])) (fun d hdd => hd d (by simp [hdd])) st1 e2 h
        refine ⟨g1, OpsRelated_trans (fun _ _ _ _ _ _ _ => trivial) e3 g2, ?_, ?_⟩
        · intro d hdm x hx
          simp only [List.mem_cons] at hdm
          rcases hdm with rfl | hdm
          · rw [← hi.ids, List.mem_map] at hx
            obtain ⟨o, ho, rfl⟩ := hx
            exact m3 o ho
          · exact g3 d hdm x hx
        · intro j o hj
          obtain ⟨o1, q1, q2, q3⟩ := e4 j o hj
          obtain ⟨o2, r1, r2, r3⟩ := g4 j o1 q1
          have hp : o1.path = o.path := congrArg Prod.fst q2
          have hmm : o1.method = o.method := congrArg Prod.snd q2
          rw [hp, hmm] at r3
          refine ⟨o2, r1, r2.trans q2, o1.val, ⟨?_, ?_⟩, r3⟩
          · intro hmt
            have : j ∈ is := (m2 j).2 ⟨Nat.zero_le _, o, by simpa using hj, hmt⟩
            rw [if_pos this] at q3; exact q3
          · intro hmt
            have : j ∉ is := by
              rw [m2]; rintro ⟨_, o', h1, h2⟩
              simp only [Nat.sub_zero] at h1; rw [hj] at h1; cases h1; exact hmt h2
            rw [if_neg this] at q3; exact q3

theorem applyDefaults_total {mt : Str → Str → Str → Res Bool} {hit : Str × Str → Prop} {ids : List (Str × Str)} (hc : Clean hit ids)
    (defops : List (Str × Json)) (hh : ∀ d ∈ defops, ∀ x, mt d.1 x.2 x.1 = .ok true → hit x)
    (hd : ∀ d ∈ defops, WF d.2 ∧ NamedKeys d.2) (st : St) (hi : Inv ids st)
    (hmt : ∀ d ∈ defops, ∀ x ∈ ids, ∃ b, mt d.1 x.2 x.1 = .ok b)
    (hch : ∀ o ∈ st.ops, ∃ b, Chain mt o.path o.method defops o.val b) :
    ∃ st', applyDefaults mt defops st = .ok st' := by
  induction defops generalizing st with
  | nil => exact ⟨st, rfl⟩
  | cons d t ih =>
    obtain ⟨p, ov⟩ := d
    simp only [applyDefaults]
    have hm0 : ∀ o ∈ st.ops, ∃ b, mt p o.method o.path = .ok b := fun o ho =>
      hmt (p, ov) (by simp) (opId o) (by rw [← hi.ids]; exact List.mem_map.2 ⟨o, ho, rfl⟩)
    obtain ⟨is, his⟩ := matching_total hm0 0
    rw [his]; simp only
    obtain ⟨m1, m2, m3⟩ := matching_ok his
    have hdo : WF ov ∧ NamedKeys ov := hd (p, ov) (by simp)
    obtain ⟨a1, _⟩ := applyAll_clean hc hdo.1 hdo.2 is m1 st hi (fun i hii o ho => by
      obtain ⟨_, o', h1, h2⟩ := (m2 i).1 hii
      simp only [Nat.sub_zero] at h1; rw [ho] at h1; cases h1
      exact hh (p, ov) (by simp) (opId o) h2)
    have hall : ∀ i ∈ is, ∀ o, st.ops[i]? = some o → ∃ x, merge o.val ov mergeDefault = .ok x := by
      intro i hii o ho
      obtain ⟨_, o', h1, h2⟩ := (m2 i).1 hii
      simp only [Nat.sub_zero] at h1; rw [ho] at h1; cases h1
      obtain ⟨b, hb⟩ := hch o (List.mem_of_getElem? ho)
      obtain ⟨x, hx, _⟩ := chain_exists_head hb h2
      exact ⟨x, hx⟩
    obtain ⟨st1, e1, e2, e3, e4⟩ := a1 hall
    rw [e1]; simp only
    refine ih (fun d hdd => hh d (by simp [hdd])) (fun d hdd => hd d (by simp [hdd])) st1 e2 (fun d hdd => hmt d (by simp [hdd])) ?_
    intro o1 ho1
    obtain ⟨j, hj⟩ := List.mem_iff_getElem?.1 ho1
    have hlen : st1.ops.length = st.ops.length := by
      have a := congrArg List.length e2.ids; have b := congrArg List.length hi.ids
      simp at a b; omega
    have hlt : j < st.ops.length := by rw [← hlen]; exact (List.getElem?_eq_some_iff.1 hj).1
    obtain ⟨o1', q1, q2, q3⟩ := e4 j _ (List.getElem?_eq_getElem hlt)
    rw [hj] at q1; cases q1
    obtain ⟨b, x, ⟨hx1, hx2⟩, hb⟩ := hch st.ops[j] (List.getElem_mem hlt)
    have hp : o1.path = st.ops[j].path := congrArg Prod.fst q2
    have hmm : o1.method = st.ops[j].method := congrArg Prod.snd q2
    rw [hp, hmm]
    refine ⟨b, ?_⟩
    have : x = o1.val := by
      by_cases hmt' : mt p st.ops[j].method st.ops[j].path = .ok true
      · have hji : j ∈ is := (m2 j).2 ⟨Nat.zero_le _, _, by simpa using List.getElem?_eq_getElem hlt, hmt'⟩
        rw [if_pos hji] at q3
        have := (hx1 hmt').symm.trans q3
        cases this; rfl
      · have hji : j ∉ is := by
          rw [m2]; rintro ⟨_, o', h1, h2⟩
          simp only [Nat.sub_zero] at h1; rw [List.getElem?_eq_getElem hlt] at h1; cases h1; exact hmt' h2
        rw [if_neg hji] at q3
        rw [hx2 hmt', q3]
    rw [← this]; exact hb

/-! ### chains and the specification -/

theorem hits_cons_pos {mt : Str → Str → Str → Res Bool} {P M p : Str} {ov : Json} {t : List (Str × Json)}
    (h : mt p M P = .ok true) : hits mt ((p, ov) :: t) P M = ov :: hits mt t P M := by
  simp [hits, h]

theorem hits_cons_neg {mt : Str → Str → Str → Res Bool} {P M p : Str} {ov : Json} {t : List (Str × Json)}
    (h : mt p M P ≠ .ok true) : hits mt ((p, ov) :: t) P M = hits mt t P M := by
  unfold hits
  rw [List.filter_cons]
  split
  · rename_i h'
    exfalso
    revert h'
    cases hm : mt p M P with
    | ok b => cases b <;> simp_all
    | err e => simp
    | panic => simp
  · rfl

theorem fills_nothing {a : Json} (ha : ∃ m, a = .obj m) : Fills a (.obj []) a := by
  obtain ⟨m, rfl⟩ := ha
  intro p
  refine ⟨fun n h => h, fun h _ => h, fun h hs => ?_⟩
  cases p with
  | nil => simp at h
  | cons k p => rw [h, nodeAt_obj_cons]; simp

theorem fillsAll_empties {a : Json} (ha : ∃ m, a = .obj m) (hw : WF a) (ds : List Json) (h : ∀ d ∈ ds, d = .obj []) :
    FillsAll a ds a := by
  induction ds with
  | nil => exact .nil _
  | cons d ds ih =>
    rw [h d (by simp)]
    exact .cons (fills_nothing ha) hw (ih (fun d hdd => h d (by simp [hdd])))

theorem chain_outcome {mt : Str → Str → Str → Res Bool} {P M : Str} (defops : List (Str × Json))
    (hd : ∀ d ∈ defops, WF d.2 ∧ NamedKeys d.2) {a b : Json} (ha : WF a) (h : Chain mt P M defops a b) :
    WF b ∧ OpOutcome (hits mt defops P M) a b := by
  induction defops generalizing a with
  | nil => cases h; exact ⟨ha, Or.inl ⟨by simp [hits], rfl⟩⟩
  | cons d t ih =>
    obtain ⟨p, ov⟩ := d
    obtain ⟨x, ⟨h1, h2⟩, h3⟩ := h
    have hdo : WF ov ∧ NamedKeys ov := hd (p, ov) (by simp)
    by_cases hm : mt p M P = .ok true
    · rw [hits_cons_pos hm]
      have hx := h1 hm
      rcases merge_op ha hdo.1 hdo.2 with ⟨e, g⟩ | ⟨hne, hon, y, g1, g2, g3, g4⟩ | ⟨_, _, e, g⟩
      · rw [g] at hx; cases hx
        obtain ⟨q1, q2⟩ := ih (fun d hdd => hd d (by simp [hdd])) ha h3
        refine ⟨q1, ?_⟩
        rw [e]
        rcases q2 with ⟨r1, r2⟩ | ⟨r1, r2, r3⟩
        · left; refine ⟨?_, r2⟩; intro d hdd; simp only [List.mem_cons] at hdd
          rcases hdd with rfl | hdd
          · rfl
          · exact r1 d hdd
        · right
          obtain ⟨d, hdd, hdne⟩ := r1
          refine ⟨⟨d, by simp [hdd], hdne⟩, r2, .cons (fills_nothing (members_isObj _)) ?_ r3⟩
          exact members_WF (by intro x hx; cases hx; exact ha)
      · rw [g1] at hx; cases hx
        obtain ⟨q1, q2⟩ := ih (fun d hdd => hd d (by simp [hdd])) g2 h3
        refine ⟨q1, Or.inr ⟨⟨ov, by simp, hne⟩, hon, .cons g4 g2 ?_⟩⟩
        have hmx : members (some x) = x := by obtain ⟨m, rfl⟩ := g3; rfl
        rcases q2 with ⟨r1, r2⟩ | ⟨_, _, r3⟩
        · subst r2
          exact fillsAll_empties g3 g2 _ r1
        · rw [hmx] at r3; exact r3
      · rw [g] at hx; cases hx
    · rw [hits_cons_neg hm]
      rw [h2 hm] at h3
      exact ih (fun d hdd => hd d (by simp [hdd])) ha h3

theorem chain_exists {mt : Str → Str → Str → Res Bool} {P M : Str} (defops : List (Str × Json))
    (hd : ∀ d ∈ defops, WF d.2 ∧ NamedKeys d.2) {a : Json} (ha : WF a) :
    (∃ b, Chain mt P M defops a b) ↔ ((∀ d ∈ hits mt defops P M, d = .obj []) ∨ a = .null ∨ ∃ m, a = .obj m) := by
  constructor
  · rintro ⟨b, hb⟩
    rcases (chain_outcome defops hd ha hb).2 with ⟨h, _⟩ | ⟨_, h, _⟩
    · exact Or.inl h
    · exact Or.inr h
  · induction defops generalizing a with
    | nil => intro _; exact ⟨a, rfl⟩
    | cons d t ih =>
      obtain ⟨p, ov⟩ := d
      intro h
      have hdo : WF ov ∧ NamedKeys ov := hd (p, ov) (by simp)
      have hd' : ∀ d ∈ t, WF d.2 ∧ NamedKeys d.2 := fun d hdd => hd d (by simp [hdd])
      by_cases hm : mt p M P = .ok true
      · rw [hits_cons_pos hm] at h
        rcases merge_op ha hdo.1 hdo.2 with ⟨e, g⟩ | ⟨hne, hon, y, g1, g2, g3, g4⟩ | ⟨hne, hno, e, g⟩
        · obtain ⟨b, hb⟩ := ih hd' ha (by
            rcases h with h | h
            · exact Or.inl (fun d hdd => h d (by simp [hdd]))
            · exact Or.inr h)
          exact ⟨b, a, ⟨fun _ => g, fun h => absurd hm h⟩, hb⟩
        · obtain ⟨b, hb⟩ := ih hd' g2 (Or.inr (Or.inr g3))
          exact ⟨b, y, ⟨fun _ => g1, fun h => absurd hm h⟩, hb⟩
        · exfalso
          rcases h with h | h
          · exact hne (h ov (by simp))
          · exact hno h
      · rw [hits_cons_neg hm] at h
        obtain ⟨b, hb⟩ := ih hd' ha h
        exact ⟨b, a, ⟨fun h => absurd h hm, fun _ => rfl⟩, hb⟩

/-! ### order of defaults -/

theorem fills_swap {a d1 d2 r1 r s1 s : Json} (hnc : ¬ Conflict d1 d2) (h1 : Fills a d1 r1) (h2 : Fills r1 d2 r)
    (h3 : Fills a d2 s1) (h4 : Fills s1 d1 s) (p : List Str) : nodeAt r p = nodeAt s p := by
  have agree : ∀ p x y, nodeAt d1 p = some x → nodeAt d2 p = some y → x = y := by
    intro p x y hx hy
    apply Classical.byContradiction; intro h; exact hnc ⟨p, x, y, hx, hy, h⟩
  -- below a bound path everything is an object
  have above : ∀ (d : Json) (q p : List Str) (n : Node), q <+: p → nodeAt d p = some n → q = p ∨ nodeAt d q = some .obj := by
    intro d q p n hq hn
    induction q generalizing d p with
    | nil =>
      cases p with
      | nil => exact Or.inl rfl
      | cons k p =>
        rcases isObj_cases d with h | ⟨m, rfl⟩
        · rw [nodeAt_leaf_cons h] at hn; cases hn
        · exact Or.inr rfl
    | cons k q ih =>
      cases p with
      | nil => simp at hq
      | cons k' p =>
        rw [List.cons_prefix_cons] at hq
        obtain ⟨rfl, hq⟩ := hq
        rcases isObj_cases d with h | ⟨m, rfl⟩
        · rw [nodeAt_leaf_cons h] at hn; cases hn
        · rw [nodeAt_obj_cons] at hn ⊢
          cases hl : Obj.lookup k m with
          | none => rw [hl] at hn; cases hn
          | some c =>
            rw [hl] at hn
            rcases ih c p hq hn with rfl | h
            · exact Or.inl rfl
            · exact Or.inr h
  have shadow_pre : ∀ (d : Json) (q p : List Str), q <+: p → Shadowed d q → Shadowed d p := by
    rintro d q p hq ⟨t, j, ht, hj⟩; exact ⟨t, j, ht.trans hq, hj⟩
  cases ha : nodeAt a p with
  | some n => rw [(h2 p).1 n ((h1 p).1 n ha), (h4 p).1 n ((h3 p).1 n ha)]
  | none =>
    by_cases hs : Shadowed a p
    · have e1 : Shadowed r1 p := by obtain ⟨q, j, hq, hj⟩ := hs; exact ⟨q, j, hq, (h1 q).1 _ hj⟩
      have e2 : Shadowed s1 p := by obtain ⟨q, j, hq, hj⟩ := hs; exact ⟨q, j, hq, (h3 q).1 _ hj⟩
      rw [(h2 p).2.1 ((h1 p).2.1 ha hs) e1, (h4 p).2.1 ((h3 p).2.1 ha hs) e2]
    · have e1 := (h1 p).2.2 ha hs
      have e2 := (h3 p).2.2 ha hs
      -- a prefix newly shadowed comes from the default
      have newsh : ∀ (d x : Json), Fills a d x → Shadowed x p → ∃ q j, q <+: p ∧ nodeAt d q = some (.leaf j) := by
        rintro d x hf ⟨q, j, hq, hj⟩
        have hns : ¬ Shadowed a q := fun h => hs (shadow_pre a q p hq h)
        cases haq : nodeAt a q with
        | some n =>
          rw [(hf q).1 n haq] at hj
          cases hj
          exact absurd ⟨q, j, hq, haq⟩ hs
        | none =>
          rw [(hf q).2.2 haq hns] at hj
          exact ⟨q, j, hq, hj⟩
      cases hd1 : nodeAt d1 p with
      | some x =>
        rw [hd1] at e1
        rw [(h2 p).1 x e1]
        cases hd2 : nodeAt d2 p with
        | some y =>
          rw [hd2] at e2
          rw [(h4 p).1 y e2, agree p x y hd1 hd2]
        | none =>
          rw [hd2] at e2
          have hns : ¬ Shadowed s1 p := by
            intro h
            obtain ⟨q, j, hq, hj⟩ := newsh d2 s1 h3 h
            rcases above d1 q p x hq hd1 with rfl | ho
            · rw [hd2] at hj; cases hj
            · have := agree q _ _ ho hj; cases this
          rw [(h4 p).2.2 e2 hns, hd1]
      | none =>
        rw [hd1] at e1
        cases hd2 : nodeAt d2 p with
        | some y =>
          rw [hd2] at e2
          have hns : ¬ Shadowed r1 p := by
            intro h
            obtain ⟨q, j, hq, hj⟩ := newsh d1 r1 h1 h
            rcases above d2 q p y hq hd2 with rfl | ho
            · rw [hd1] at hj; cases hj
            · have := agree q _ _ hj ho; cases this
          rw [(h2 p).2.2 e1 hns, hd2, (h4 p).1 y e2]
        | none =>
          rw [hd2] at e2
          have f1 : nodeAt r p = none := by
            by_cases h : Shadowed r1 p
            · exact (h2 p).2.1 e1 h
            · rw [(h2 p).2.2 e1 h, hd2]
          have f2 : nodeAt s p = none := by
            by_cases h : Shadowed s1 p
            · exact (h4 p).2.1 e2 h
            · rw [(h4 p).2.2 e2 h, hd1]
          rw [f1, f2]

theorem fills_total {a d : Json} (ha : ∃ m, a = .obj m) (hd : ∃ m, d = .obj m) (wa : WF a) (wd : WF d) :
    ∃ r, Fills a d r ∧ WF r ∧ ∃ m, r = .obj m := by
  obtain ⟨m, rfl⟩ := ha
  obtain ⟨n, rfl⟩ := hd
  obtain ⟨r, _, h2, h3⟩ := (implements_default.2 m n wa wd).resolve_right (by simp [Rule.fails])
  exact ⟨_, h3, h2, r, rfl⟩

theorem fills_unique {a b r r' : Json} (hr : WF r) (hr' : WF r') (h : Fills a b r) (h' : Fills a b r') : r = r' := by
  apply nodeAt_ext r r' hr hr'
  intro p
  have h1 := h p; have h2 := h' p
  cases ha : nodeAt a p with
  | some n => rw [h1.1 n ha, h2.1 n ha]
  | none =>
    by_cases hs : Shadowed a p
    · rw [h1.2.1 ha hs, h2.2.1 ha hs]
    · rw [h1.2.2 ha hs, h2.2.2 ha hs]

theorem fillsAll_WF {a b : Json} {ds : List Json} (h : FillsAll a ds b) (wa : WF a) : WF b := by
  induction h with
  | nil => exact wa
  | cons _ hw _ ih => exact ih hw

theorem fillsAll_unique {a b b' : Json} {ds : List Json} (h : FillsAll a ds b) (h' : FillsAll a ds b') : b = b' := by
  induction h with
  | nil => cases h'; rfl
  | cons hf hw _ ih =>
    cases h' with
    | cons hf' hw' h'' => exact ih (fills_unique hw hw' hf hf' ▸ h'')

/-- the order does not matter when no two defaults conflict -/
theorem fillsAll_perm {ds ds' : List Json} (hp : ds.Perm ds') {a b : Json} (ha : ∃ m, a = .obj m) (wa : WF a)
    (hd : ∀ d ∈ ds, WF d ∧ ∃ m, d = .obj m) (hnc : ds.Pairwise fun x y => ¬ Conflict x y)
    (h : FillsAll a ds b) : FillsAll a ds' b := by
  induction hp generalizing a b with
  | nil => exact h
  | cons x _ ih =>
    cases h with
    | cons hf hw h =>
      obtain ⟨r, hr, wr, or⟩ := fills_total ha (hd x (by simp)).2 wa (hd x (by simp)).1
      have := fills_unique hw wr hf hr
      subst this
      exact .cons hf hw (ih or hw (fun d hdd => hd d (by simp [hdd])) (List.pairwise_cons.1 hnc).2 h)
  | swap x y l =>
    cases h with
    | @cons _ _ r1 _ _ hf hw h =>
      cases h with
      | @cons _ _ r _ _ hf2 hw2 h =>
        obtain ⟨s1, hs1, ws1, os1⟩ := fills_total ha (hd x (by simp)).2 wa (hd x (by simp)).1
        obtain ⟨s, hs, ws, os⟩ := fills_total os1 (hd y (by simp)).2 ws1 (hd y (by simp)).1
        have hyx := (List.pairwise_cons.1 hnc).1 x (by simp)
        have := nodeAt_ext r s hw2 ws (fills_swap hyx hf hf2 hs1 hs)
        subst this
        exact .cons hs1 ws1 (.cons hs hw2 h)
  | @trans l1 l2 l3 p1 p2 ih1 ih2 =>
    have sym : ∀ {x y : Json}, ¬ Conflict x y → ¬ Conflict y x := by
      rintro x y h ⟨p, a, b, ha, hb, hne⟩; exact h ⟨p, b, a, hb, ha, Ne.symm hne⟩
    exact ih2 ha wa (fun d hdd => hd d (p1.mem_iff.2 hdd)) ((p1.pairwise_iff sym).1 hnc) (ih1 ha wa hd hnc h)

end Oapi.OAPI
