import Verif.Proofs.Defaults3

namespace Oapi.OAPI
open Oapi Spec Container Json

theorem paths_eq (c : Obj) : paths (.obj c) =
    match childrenMap (data (Obj.lookup b!"paths" c)) with
    | .ok m => pathsGo m
    | .err e => .err e
    | .panic => .panic := by
  unfold paths
  rw [path_key (by decide) (by decide)]
  cases childrenMap (data (Obj.lookup b!"paths" c)) <;> rfl

theorem opAt_none_of_not_obj {c : Obj} (h : ∀ ps, Obj.lookup b!"paths" c ≠ some (.obj ps)) (P M : Str) :
    opAt (.obj c) P M = none := by
  cases hx : opAt (.obj c) P M with
  | none => rfl
  | some v =>
    obtain ⟨m, ps, it, e, h1, _, _⟩ := opAt_of hx
    cases e; exact absurd h1 (h ps)

theorem paths_ok {c : Obj} (hw : WF (.obj c)) {ops : List Op} (h : paths (.obj c) = .ok ops) :
    (∀ o, o ∈ ops ↔ opAt (.obj c) o.path o.method = some o.val ∧ o.attached = isShared o.val) ∧ (ops.map opId).Nodup := by
  rw [paths_eq] at h
  cases hc : childrenMap (data (Obj.lookup b!"paths" c)) with
  | err e => rw [hc] at h; cases h
  | panic => rw [hc] at h; cases h
  | ok ps =>
    rw [hc] at h; simp only at h
    rcases childrenMap_ok hc with e | ⟨e, rfl⟩
    · have hp : Obj.lookup b!"paths" c = some (.obj ps) := by
        cases hl : Obj.lookup b!"paths" c with
        | none => rw [hl] at e; cases e
        | some x => rw [hl] at e; simp [data] at e; rw [e]
      have hwp := WF_lookup hw hp
      have hnd := Obj.sorted_nodup ((WF_obj ps).1 hwp).1
      refine ⟨fun o => ?_, ?_⟩
      · rw [pathsGo_mem h]
        constructor
        · rintro ⟨it, h1, h2, h3⟩
          have h1' := Obj.lookup_of_mem hnd h1
          refine ⟨?_, h3⟩
          rw [opAt_eq _ hp h1']
          exact Obj.lookup_of_mem (Obj.sorted_nodup ((WF_obj it).1 (WF_lookup hwp h1')).1) h2
        · rintro ⟨h1, h2⟩
          obtain ⟨m, ps', it, e', q1, q2, q3⟩ := opAt_of h1
          cases e'
          rw [hp] at q1; cases q1
          exact ⟨it, Obj.lookup_mem q2, Obj.lookup_mem q3, h2⟩
      · refine pathsGo_nodup h hnd ?_
        intro P it hm
        exact Obj.sorted_nodup ((WF_obj it).1 (WF_lookup hwp (Obj.lookup_of_mem hnd hm))).1
    · simp [pathsGo] at h; subst h
      refine ⟨fun o => ?_, by simp⟩
      have : ∀ ps, Obj.lookup b!"paths" c ≠ some (.obj ps) := by
        intro ps hp; rw [hp] at e; simp [data] at e
      rw [opAt_none_of_not_obj this]; simp

theorem pathsGo_total {ps : Obj} : (∃ ops, pathsGo ps = .ok ops) ↔ ∀ kv ∈ ps, kv.2 = .null ∨ ∃ m, kv.2 = .obj m := by
  induction ps with
  | nil => simp [pathsGo]
  | cons kv t ih =>
    obtain ⟨P, item⟩ := kv
    simp only [pathsGo]
    constructor
    · rintro ⟨ops, h⟩
      cases hc : childrenMap item with
      | err e => rw [hc] at h; cases h
      | panic => rw [hc] at h; cases h
      | ok m =>
        rw [hc] at h; simp only at h
        have hit : item = .null ∨ ∃ m, item = .obj m := by
          rcases childrenMap_ok hc with rfl | ⟨rfl, _⟩
          · exact Or.inr ⟨m, rfl⟩
          · exact Or.inl rfl
        cases ht : pathsGo t with
        | err e => rw [ht] at h; cases h
        | panic => rw [ht] at h; cases h
        | ok l =>
          have := ih.1 ⟨l, ht⟩
          intro kv hkv
          simp only [List.mem_cons] at hkv
          rcases hkv with rfl | hkv
          · exact hit
          · exact this kv hkv
    · intro h
      obtain ⟨l, hl⟩ := ih.2 (fun kv hkv => h kv (by simp [hkv]))
      rcases h (P, item) (by simp) with e | ⟨m, e⟩
      · simp only at e; subst e
        simp only [childrenMap, hl]; exact ⟨_, rfl⟩
      · simp only at e; subst e
        simp only [childrenMap, hl]; exact ⟨_, rfl⟩

theorem paths_total {c : Obj} (hw : WF (.obj c)) : (∃ ops, paths (.obj c) = .ok ops) ↔ PathItemsOk (.obj c) := by
  rw [paths_eq]
  unfold PathItemsOk Missing
  rw [section_obj]
  cases hl : Obj.lookup b!"paths" c with
  | none => simp [data, childrenMap, pathsGo]
  | some x =>
    cases x with
    | obj ps =>
      have hnd := Obj.sorted_nodup ((WF_obj ps).1 (WF_lookup hw hl)).1
      simp only [data, Option.getD_some, childrenMap]
      rw [pathsGo_total]
      constructor
      · intro h; right
        exact ⟨ps, rfl, fun P v hv => h (P, v) (Obj.lookup_mem hv)⟩
      · rintro ((h | h) | ⟨ps', e, h⟩)
        · cases h
        · cases h
        · cases e
          intro kv hkv; exact h kv.1 kv.2 (Obj.lookup_of_mem hnd hkv)
    | null => simp [data, childrenMap, pathsGo]
    | _ => simp [data, childrenMap]

theorem inv_init {c : Obj} (hw : WF (.obj c)) {ops ops' : List Op} (h : paths (.obj c) = .ok ops) (hp : ops'.Perm ops) :
    Inv (ops'.map opId) ⟨.obj c, ops'⟩ ∧ (ops'.map opId).Nodup := by
  obtain ⟨h1, h2⟩ := paths_ok hw h
  refine ⟨⟨hw, rfl, fun o ho => ((h1 o).1 (hp.mem_iff.1 ho)).1⟩, ?_⟩
  exact ((hp.map opId).nodup_iff).2 h2

theorem ids_iff {c : Obj} (hw : WF (.obj c)) {ops ops' : List Op} (h : paths (.obj c) = .ok ops) (hp : ops'.Perm ops)
    (x : Str × Str) : x ∈ ops'.map opId ↔ ∃ a, opAt (.obj c) x.1 x.2 = some a := by
  obtain ⟨h1, _⟩ := paths_ok hw h
  rw [List.mem_map]
  constructor
  · rintro ⟨o, ho, rfl⟩; exact ⟨o.val, ((h1 o).1 (hp.mem_iff.1 ho)).1⟩
  · rintro ⟨a, ha⟩
    exact ⟨⟨x.1, x.2, a, isShared a⟩, hp.mem_iff.2 ((h1 _).2 ⟨ha, rfl⟩), rfl⟩

theorem hits_perm {mt : Str → Str → Str → Res Bool} {d d' : List (Str × Json)} (h : d'.Perm d) (P M : Str) :
    (hits mt d' P M).Perm (hits mt d P M) := (h.filter _).map _

/-! ### documents with dots -/

theorem set3 {m ps : Obj} {A B : Str} (v : Json) (h1 : Obj.lookup b!"paths" m = some (.obj ps))
    (h2 : ∀ x, Obj.lookup A ps = some x → x = .null ∨ ∃ it, x = .obj it) :
    ∃ it : Obj, (∀ x, Obj.lookup A ps = some (.obj x) → it = x) ∧
      Gabs.set v [b!"paths", A, B] (.obj m) =
        .ok (.obj (Obj.insert b!"paths" (.obj (Obj.insert A (.obj (Obj.insert B v it)) ps)) m)) := by
  have hf : ∃ it : Obj, Gabs.fill (Obj.lookup A ps) = .obj it ∧ ∀ x, Obj.lookup A ps = some (.obj x) → it = x := by
    cases hl : Obj.lookup A ps with
    | none => exact ⟨[], rfl, by simp⟩
    | some x =>
      rcases h2 x hl with rfl | ⟨it, rfl⟩
      · exact ⟨[], rfl, by simp⟩
      · exact ⟨it, rfl, by intro x hx; cases hx; rfl⟩
  obtain ⟨it, hf, hf2⟩ := hf
  refine ⟨it, hf2, ?_⟩
  show Gabs.setGo v true [b!"paths", A, B] (.obj m) = _
  rw [Gabs.setGo_obj]
  simp only [Gabs.goOn, h1, Gabs.fill]
  rw [Gabs.setGo_obj]
  simp only [Gabs.goOn, hf]
  rw [Gabs.setGo_obj]
  rfl

/-- the paths section can be written into -/
def Open (cnt : Json) : Prop := ∃ m ps, cnt = .obj m ∧ Obj.lookup b!"paths" m = some (.obj ps) ∧
  ∀ A x, Obj.lookup A ps = some x → x = .null ∨ ∃ it, x = .obj it

theorem set3_open {cnt cnt' : Json} (ho : Open cnt) {A B : Str} {v : Json}
    (h : Gabs.set v [b!"paths", A, B] cnt = .ok cnt') :
    Open cnt' ∧ opAt cnt' A B = some v ∧ ∀ P M, opAt cnt P M ≠ none → opAt cnt' P M ≠ none := by
  obtain ⟨m, ps, rfl, h1, h2⟩ := ho
  obtain ⟨it, hit, hs⟩ := set3 v h1 (h2 A) (B := B)
  rw [hs] at h; cases h
  have hp : Obj.lookup b!"paths" (Obj.insert b!"paths" (.obj (Obj.insert A (.obj (Obj.insert B v it)) ps)) m) =
    some (.obj (Obj.insert A (.obj (Obj.insert B v it)) ps)) := Obj.lookup_insert_self _ _ _
  refine ⟨⟨_, _, rfl, hp, ?_⟩, ?_, ?_⟩
  · intro A' x hx
    rw [Obj.lookup_insert] at hx
    split at hx
    · cases hx; exact Or.inr ⟨_, rfl⟩
    · exact h2 A' x hx
  · rw [opAt_eq B hp (Obj.lookup_insert_self _ _ _), Obj.lookup_insert_self]
  · intro P M hne
    cases hx : opAt (.obj m) P M with
    | none => exact absurd hx hne
    | some w =>
      obtain ⟨m', ps', it', e, q1, q2, q3⟩ := opAt_of hx
      cases e
      rw [h1] at q1; cases q1
      by_cases hPA : P = A
      · subst hPA
        rw [opAt_eq M hp (Obj.lookup_insert_self _ _ _), Obj.lookup_insert]
        split
        · simp
        · rw [hit _ q2, q3]; simp
      · rw [opAt_eq M hp (by rw [Obj.lookup_insert_ne _ _ hPA]; exact q2), q3]; simp

structure StepOut (ov : Json) (st st' : St) (i : Nat) : Prop where
  opn : Open st'.cnt
  mono : ∀ P M, opAt st.cnt P M ≠ none → opAt st'.cnt P M ≠ none
  ids : st'.ops.map opId = st.ops.map opId
  mangled : ∀ o, st.ops[i]? = some o →
      opAt st'.cnt (Str.replaceAll o.path b!"." b!"~1") (Str.replaceAll o.method b!"." b!"~1") ≠ none
  vals : ∀ (j : Nat) o, st.ops[j]? = some o → ∃ o', st'.ops[j]? = some o' ∧ (j ≠ i → o'.val = o.val) ∧
      (j = i → merge o.val ov mergeDefault = .ok o'.val)

theorem applyAt_open {ov : Json} {st st' : St} {i : Nat} (ho : Open st.cnt) (h : applyAt ov st i = .ok st') :
    StepOut ov st st' i := by
  unfold applyAt at h
  cases hi : st.ops[i]? with
  | none =>
    rw [hi] at h; cases h
    refine ⟨ho, fun _ _ h => h, rfl, by simp [hi], fun j o hj => ⟨o, hj, fun _ => rfl, ?_⟩⟩
    rintro rfl; rw [hi] at hj; cases hj
  | some o =>
    rw [hi] at h; simp only at h
    cases hm : merge o.val ov mergeDefault with
    | err e => rw [hm] at h; cases h
    | panic => rw [hm] at h; cases h
    | ok nc =>
      rw [hm] at h; simp only at h
      have key : ∀ cnt1, Open cnt1 → (∀ P M, opAt st.cnt P M ≠ none → opAt cnt1 P M ≠ none) →
          (match setP cnt1 (opKey o) nc with
            | .ok cnt2 => Res.ok (⟨cnt2, (st.ops.set i { o with val := nc }).map (detach (Gabs.dotPathToSlice (opKey o)))⟩ : St)
            | .err e => .err e
            | .panic => .panic) = .ok st' → StepOut ov st st' i := by
        intro cnt1 ho1 hmono h
        unfold setP at h
        rw [opKey_slice] at h
        cases hs : Gabs.set nc [b!"paths", Str.replaceAll o.path b!"." b!"~1", Str.replaceAll o.method b!"." b!"~1"] cnt1 with
        | err e => rw [hs] at h; cases h
        | panic => rw [hs] at h; cases h
        | ok cnt2 =>
          rw [hs] at h; cases h
          obtain ⟨g1, g2, g3⟩ := set3_open ho1 hs
          have hlt : i < st.ops.length := (List.getElem?_eq_some_iff.1 hi).1
          refine ⟨g1, fun P M hh => g3 P M (hmono P M hh), ?_, ?_, ?_⟩
          · rw [List.map_map]
            have : (st.ops.set i { o with val := nc }).map opId = st.ops.map opId := by
              rw [List.map_set]
              apply List.ext_getElem?
              intro j
              rw [List.getElem?_set]
              split
              · rename_i e; subst e; rw [List.getElem?_map, hi]; simp [hlt, opId]
              · rfl
            rw [← this]
            apply List.map_congr_left
            intro x _; exact (detach_val _ x).2
          · intro o' ho'; rw [hi] at ho'; cases ho'; rw [g2]; simp
          · intro j o' hj
            by_cases hji : j = i
            · subst hji
              rw [hi] at hj; cases hj
              refine ⟨_, by rw [List.getElem?_map, List.getElem?_set]; simp [hlt]; rfl, fun h => absurd rfl h, fun _ => ?_⟩
              rw [(detach_val _ _).1]; exact hm
            · refine ⟨_, by rw [List.getElem?_map, List.getElem?_set]; simp [Ne.symm hji, hj]; rfl, fun _ => (detach_val _ _).1, fun h => absurd h hji⟩
      by_cases ha : o.attached = true
      · rw [if_pos ha] at h
        cases hs : Gabs.set nc [b!"paths", o.path, o.method] st.cnt with
        | err e => rw [hs] at h; cases h
        | panic => rw [hs] at h; cases h
        | ok cnt1 =>
          rw [hs] at h; simp only at h
          obtain ⟨g1, g2, g3⟩ := set3_open ho hs
          exact key cnt1 g1 g3 h
      · rw [if_neg ha] at h; simp only at h
        exact key st.cnt ho (fun _ _ h => h) h

theorem applyAll_open {ov : Json} {is : List Nat} {st st' : St} (ho : Open st.cnt) (h : applyAll ov is st = .ok st') :
    Open st'.cnt ∧ (∀ P M, opAt st.cnt P M ≠ none → opAt st'.cnt P M ≠ none) ∧ st'.ops.map opId = st.ops.map opId ∧
    (∀ i ∈ is, ∀ o, st.ops[i]? = some o →
      opAt st'.cnt (Str.replaceAll o.path b!"." b!"~1") (Str.replaceAll o.method b!"." b!"~1") ≠ none) := by
  induction is generalizing st with
  | nil => cases h; exact ⟨ho, fun _ _ h => h, rfl, by simp⟩
  | cons i t ih =>
    simp only [applyAll] at h
    cases ha : applyAt ov st i with
    | err e => rw [ha] at h; cases h
    | panic => rw [ha] at h; cases h
    | ok st1 =>
      rw [ha] at h; simp only at h
      obtain ⟨a1, a2, a3, a4, _⟩ := applyAt_open ho ha
      obtain ⟨b1, b2, b3, b4⟩ := ih a1 h
      refine ⟨b1, fun P M hh => b2 P M (a2 P M hh), b3.trans a3, ?_⟩
      intro j hj o hoj
      simp only [List.mem_cons] at hj
      rcases hj with rfl | hj
      · exact b2 _ _ (a4 o hoj)
      · have hid : (st1.ops.map opId)[j]? = (st.ops.map opId)[j]? := by rw [a3]
        rw [List.getElem?_map, List.getElem?_map, hoj] at hid
        cases h1 : st1.ops[j]? with
        | none => rw [h1] at hid; cases hid
        | some o1 =>
          rw [h1] at hid
          have e : opId o1 = opId o := by simpa using hid
          have := b4 j hj o1 h1
          rw [show o1.path = o.path from congrArg Prod.fst e, show o1.method = o.method from congrArg Prod.snd e] at this
          exact this

theorem applyDefaults_open {mt : Str → Str → Str → Res Bool} {defops : List (Str × Json)} {st st' : St} (ho : Open st.cnt)
    (h : applyDefaults mt defops st = .ok st') :
    (∀ P M, opAt st.cnt P M ≠ none → opAt st'.cnt P M ≠ none) ∧
    ∀ d ∈ defops, ∀ o ∈ st.ops, mt d.1 o.method o.path = .ok true →
      opAt st'.cnt (Str.replaceAll o.path b!"." b!"~1") (Str.replaceAll o.method b!"." b!"~1") ≠ none := by
  induction defops generalizing st with
  | nil => cases h; exact ⟨fun _ _ h => h, by simp⟩
  | cons d t ih =>
    obtain ⟨p, ov⟩ := d
    simp only [applyDefaults] at h
    cases hm : matching mt p 0 st.ops with
    | err e => rw [hm] at h; cases h
    | panic => rw [hm] at h; cases h
    | ok is =>
      rw [hm] at h; simp only at h
      cases ha : applyAll ov is st with
      | err e => rw [ha] at h; cases h
      | panic => rw [ha] at h; cases h
      | ok st1 =>
        rw [ha] at h; simp only at h
        obtain ⟨a1, a2, a3, a4⟩ := applyAll_open ho ha
        obtain ⟨b1, b2⟩ := ih a1 h
        refine ⟨fun P M hh => b1 P M (a2 P M hh), ?_⟩
        intro d hd o hoo hmt
        simp only [List.mem_cons] at hd
        rcases hd with rfl | hd
        · obtain ⟨j, hj⟩ := List.mem_iff_getElem?.1 hoo
          have := ((matching_ok hm).2.1 j).2 ⟨Nat.zero_le _, o, by simpa using hj, hmt⟩
          exact b1 _ _ (a4 j this o hj)
        · have : opId o ∈ st1.ops.map opId := by rw [a3]; exact List.mem_map.2 ⟨o, hoo, rfl⟩
          obtain ⟨o1, ho1, e⟩ := List.mem_map.1 this
          have ep : o1.path = o.path := congrArg Prod.fst e
          have em : o1.method = o.method := congrArg Prod.snd e
          have := b2 d hd o1 ho1 (by rw [ep, em]; exact hmt)
          rw [ep, em] at this; exact this

/-- a member that is not an operation stops the run -/
theorem applyAll_stuck {ov : Json} {is : List Nat} {st : St} (ho : Open st.cnt) {i : Nat} {o : Op} (hi : st.ops[i]? = some o)
    (hv : ∀ x, merge o.val ov mergeDefault = .ok x → x = o.val) :
    (∀ st', applyAll ov is st = .ok st' → ∃ o', st'.ops[i]? = some o' ∧ o'.val = o.val) ∧
    (i ∈ is → (∀ x, merge o.val ov mergeDefault ≠ .ok x) → ∀ st', applyAll ov is st ≠ .ok st') := by
  induction is generalizing st o with
  | nil => refine ⟨fun st' h => ?_, by simp⟩; cases h; exact ⟨o, hi, rfl⟩
  | cons j t ih =>
    simp only [applyAll]
    cases ha : applyAt ov st j with
    | err e => simp
    | panic => simp
    | ok st1 =>
      simp only
      obtain ⟨a1, a2, a3, a4, a5⟩ := applyAt_open ho ha
      obtain ⟨o1, q1, q2, q3⟩ := a5 i o hi
      have hval : o1.val = o.val := by
        by_cases hji : i = j
        · exact hv _ (q3 hji)
        · exact q2 hji
      obtain ⟨g1, g2⟩ := ih a1 q1 (by rw [hval]; exact hv)
      refine ⟨fun st' h => ?_, ?_⟩
      · obtain ⟨o', r1, r2⟩ := g1 st' h; exact ⟨o', r1, r2.trans hval⟩
      · intro hmem hno
        simp only [List.mem_cons] at hmem
        rcases hmem with rfl | hmem
        · exact absurd (q3 rfl) (hno _)
        · exact g2 hmem (by rw [hval]; exact hno)

theorem applyDefaults_stuck {mt : Str → Str → Str → Res Bool} {defops : List (Str × Json)} {st : St} (ho : Open st.cnt)
    (hd : ∀ d ∈ defops, WF d.2 ∧ NamedKeys d.2) {i : Nat} {o : Op} (hi : st.ops[i]? = some o) (hw : WF o.val)
    (hno : ¬ (o.val = .null ∨ ∃ m, o.val = .obj m)) (hh : ∃ d ∈ defops, mt d.1 o.method o.path = .ok true ∧ d.2 ≠ .obj [])
    (st' : St) : applyDefaults mt defops st ≠ .ok st' := by
  induction defops generalizing st o with
  | nil => obtain ⟨d, hdm, _⟩ := hh; simp at hdm
  | cons d t ih =>
    obtain ⟨p, ov⟩ := d
    have hdo : WF ov ∧ NamedKeys ov := hd (p, ov) (by simp)
    simp only [applyDefaults]
    cases hm : matching mt p 0 st.ops with
    | err e => simp
    | panic => simp
    | ok is =>
      simp only
      have hv : ∀ x, merge o.val ov mergeDefault = .ok x → x = o.val := by
        intro x hx
        rcases merge_op hw hdo.1 hdo.2 with ⟨_, g⟩ | ⟨_, hon, _⟩ | ⟨_, _, e, g⟩
        · rw [g] at hx; cases hx; rfl
        · exact absurd hon hno
        · rw [g] at hx; cases hx
      obtain ⟨s1, s2⟩ := applyAll_stuck (is := is) ho hi hv
      cases ha : applyAll ov is st with
      | err e => simp
      | panic => simp
      | ok st1 =>
        simp only
        obtain ⟨a1, _, a3, _⟩ := applyAll_open ho ha
        obtain ⟨o1, q1, q2⟩ := s1 st1 ha
        have hid : (st1.ops.map opId)[i]? = (st.ops.map opId)[i]? := by rw [a3]
        rw [List.getElem?_map, List.getElem?_map, hi, q1] at hid
        have e : opId o1 = opId o := by simpa using hid
        obtain ⟨d, hdm, hmt, hne⟩ := hh
        simp only [List.mem_cons] at hdm
        rcases hdm with rfl | hdm
        · exfalso
          have hmem := ((matching_ok hm).2.1 i).2 ⟨Nat.zero_le _, o, by simpa using hi, hmt⟩
          refine s2 hmem ?_ st1 ha
          intro x hx
          rcases merge_op hw hdo.1 hdo.2 with ⟨g, _⟩ | ⟨_, hon, _⟩ | ⟨_, _, e, g⟩
          · exact hne g
          · exact hno hon
          · rw [g] at hx; cases hx
        · refine ih a1 (fun d hdd => hd d (by simp [hdd])) q1 (by rw [q2]; exact hw) (by rw [q2]; exact hno) ⟨d, hdm, ?_, hne⟩
          rw [show o1.path = o.path from congrArg Prod.fst e, show o1.method = o.method from congrArg Prod.snd e]
          exact hmt

end Oapi.OAPI
