import Verif.Proofs.Defaults

namespace Oapi.OAPI
open Oapi Spec Container Json

theorem OpsRelated_strengthen {R S : Str → Str → Json → Json → Prop} {c c' : Json} (h : OpsRelated R c c')
    (hs : ∀ P M a b, opAt c P M = some a → opAt c' P M = some b → S P M a b) : OpsRelated S c c' := by
  refine ⟨h.1, ?_⟩
  rcases PathsRel_cases h.2 with ⟨x, y, e1, e2, g⟩ | ⟨n, e⟩
  · rw [e1, e2]
    intro P
    have hp := g P
    rcases ItemRel_cases hp with ⟨a, b, e3, e4, g'⟩ | ⟨n, e⟩
    · rw [e3, e4]
      intro M
      have hm := g' M
      cases ha : Obj.lookup M a with
      | none => cases hb : Obj.lookup M b <;> simp_all [MemberRel]
      | some va =>
        cases hb : Obj.lookup M b with
        | none => simp_all [MemberRel]
        | some vb =>
          simp only [MemberRel]
          refine hs P M va vb ?_ ?_
          · cases c with
            | obj m => rw [opAt_eq M e1 e3, ha]
            | _ => simp [section_, child] at e1
          · cases c' with
            | obj m => rw [opAt_eq M e2 e4, hb]
            | _ => simp [section_, child] at e2
    · rw [← e]
      cases hx : Obj.lookup P x with
      | none => rfl
      | some j => cases j <;> first | rfl | exact absurd hx (n _)
  · rw [← e]
    cases hx : section_ c b!"paths" with
    | none => rfl
    | some j => cases j <;> first | rfl | exact absurd hx (n _)

/-- related documents with the same operations are equal -/
theorem OpsRelated_unique {R S : Str → Str → Json → Json → Prop} {c x y : Json} (hc : ∃ m, c = .obj m) (hx : WF x) (hy : WF y)
    (ox : ∃ m, x = .obj m) (oy : ∃ m, y = .obj m) (h1 : OpsRelated R c x) (h2 : OpsRelated S c y)
    (h : ∀ P M a b b', opAt c P M = some a → opAt x P M = some b → opAt y P M = some b' → R P M a b → S P M a b' → b = b') :
    x = y := by
  obtain ⟨m, rfl⟩ := hc
  obtain ⟨mx, rfl⟩ := ox
  obtain ⟨my, rfl⟩ := oy
  congr 1
  apply Obj.ext_lookup ((WF_obj _).1 hx).1 ((WF_obj _).1 hy).1
  intro k
  by_cases hk : k = b!"paths"
  · subst hk
    rcases PathsRel_cases h1.2 with ⟨a, a1, e1, e2, g1⟩ | ⟨n, e⟩
    · rcases PathsRel_cases h2.2 with ⟨a', a2, e3, e4, g2⟩ | ⟨n, e⟩
      · rw [e1] at e3; cases e3
        rw [section_obj] at e1 e2 e4
        rw [e2, e4]
        congr 2
        have w1 := WF_lookup hx e2
        have w2 := WF_lookup hy e4
        apply Obj.ext_lookup ((WF_obj _).1 w1).1 ((WF_obj _).1 w2).1
        intro P
        rcases ItemRel_cases (g1 P) with ⟨it, i1, q1, q2, r1⟩ | ⟨n, e⟩
        · rcases ItemRel_cases (g2 P) with ⟨it', i2, q3, q4, r2⟩ | ⟨n, e⟩
          · rw [q1] at q3; cases q3
            rw [q2, q4]
            congr 2
            apply Obj.ext_lookup ((WF_obj _).1 (WF_lookup w1 q2)).1 ((WF_obj _).1 (WF_lookup w2 q4)).1
            intro M
            have s1 := r1 M
            have s2 := r2 M
            cases z1 : Obj.lookup M it with
            | none =>
              rw [z1] at s1 s2
              cases z2 : Obj.lookup M i1 <;> cases z3 : Obj.lookup M i2 <;> simp_all [MemberRel]
            | some v =>
              rw [z1] at s1 s2
              cases z2 : Obj.lookup M i1 with
              | none => rw [z2] at s1; exact s1.elim
              | some v1 =>
                cases z3 : Obj.lookup M i2 with
                | none => rw [z3] at s2; exact s2.elim
                | some v2 =>
                  rw [z2] at s1; rw [z3] at s2
                  congr 1
                  refine h P M v v1 v2 ?_ ?_ ?_ s1 s2
                  · rw [opAt_eq M e1 q1, z1]
                  · rw [opAt_eq M e2 q2, z2]
                  · rw [opAt_eq M e4 q4, z3]
          · exact absurd q1 (n _)
        · rcases ItemRel_cases (g2 P) with ⟨it', i2, q3, q4, r2⟩ | ⟨_, e'⟩
          · exact absurd q3 (n _)
          · rw [← e, ← e']
      · exact absurd e1 (n _)
    · rcases PathsRel_cases h2.2 with ⟨a', a2, e3, e4, g2⟩ | ⟨_, e'⟩
      · exact absurd e3 (n _)
      · rw [section_obj] at e e'; rw [section_obj] at e e'; rw [← e, ← e']
  · have a := h1.1 k hk
    have b := h2.1 k hk
    rw [section_obj, section_obj] at a b
    rw [a, b]

theorem mangle_id {k : Str} (h : (46 : UInt8) ∉ k) : Str.replaceAll k b!"." b!"~1" = k := by
  rw [Str.replaceAll_byte]
  induction k with
  | nil => rfl
  | cons c t ih =>
    simp only [List.mem_cons, not_or] at h
    rw [List.flatMap_cons, ih h.2, if_neg (Ne.symm h.1)]; rfl

theorem opKey_slice (o : Op) : Gabs.dotPathToSlice (opKey o) =
    [b!"paths", Str.replaceAll o.path b!"." b!"~1", Str.replaceAll o.method b!"." b!"~1"] := by
  unfold opKey
  rw [Props.C10_dot_path_mangles_dots _ (by simp)]
  simp only [List.map_cons, List.map_nil]
  rw [mangle_id (k := b!"paths") (by decide)]

/-! ### one step, no dots -/

structure Inv (ids : List (Str × Str)) (st : St) : Prop where
  wf : WF st.cnt
  ids : st.ops.map opId = ids
  rep : ∀ o ∈ st.ops, opAt st.cnt o.path o.method = some o.val

theorem detach_val (w : List Str) (o : Op) : (detach w o).val = o.val ∧ opId (detach w o) = opId o := by
  unfold detach; split <;> simp [opId]

theorem mergeDefault_WF {a ov nc : Json} (ha : WF a) (hov : WF ov) (hon : a = .null ∨ ∃ m, a = .obj m) (h : merge a ov mergeDefault = .ok nc) : WF nc := by
  cases ov with
  | obj kvs =>
    rcases hon with rfl | ⟨m, rfl⟩
    · cases kvs with
      | nil => simp [merge, mergeMap] at h; subst h; simp
      | cons kv t =>
        have : merge .null (.obj (kv :: t)) mergeDefault = merge (.obj []) (.obj (kv :: t)) mergeDefault := by
          obtain ⟨k, v⟩ := kv
          simp [merge, mergeMap, mergeOne, Gabs.search, Gabs.set, Gabs.fill]
        rw [this, merge_empty keepsWF_default hov] at h
        simp at h; subst h; exact hov
    · rw [merge_localVal keepsWF_default ha] at h
      exact localVal_WF keepsWF_default _ _ _ (by intro y hy; cases hy; exact ha) h
  | _ => simp [merge] at h; subst h; exact ha

/-- how a default changes an operation -/
theorem merge_op {a ov : Json} (ha : WF a) (hov : WF ov) (hk : NamedKeys ov) :
    (ov = .obj [] ∧ merge a ov mergeDefault = .ok a) ∨
    (ov ≠ .obj [] ∧ (a = .null ∨ ∃ m, a = .obj m) ∧
      ∃ b, merge a ov mergeDefault = .ok b ∧ WF b ∧ (∃ m, b = .obj m) ∧ Fills (members (some a)) ov b) ∨
    (ov ≠ .obj [] ∧ ¬ (a = .null ∨ ∃ m, a = .obj m) ∧ ∃ e, merge a ov mergeDefault = .err e) := by
  obtain ⟨kvs, rfl, hk⟩ := hk
  cases kvs with
  | nil => left; exact ⟨rfl, by simp [merge, mergeMap]⟩
  | cons kv t =>
    right
    by_cases hon : a = .null ∨ ∃ m, a = .obj m
    · left
      refine ⟨by simp, hon, ?_⟩
      have : merge a (.obj (kv :: t)) mergeDefault = merge (members (some a)) (.obj (kv :: t)) mergeDefault := by
        rcases hon with rfl | ⟨m, rfl⟩
        · obtain ⟨k, v⟩ := kv
          simp [merge, mergeMap, mergeOne, Gabs.search, Gabs.set, Gabs.fill, members]
        · rfl
      rw [this]
      have hmw : WF (members (some a)) := members_WF (by intro x hx; cases hx; exact ha)
      obtain ⟨z, hz⟩ := members_isObj (some a)
      rw [hz] at hmw ⊢
      obtain ⟨r, h1, h2, h3⟩ := (implements_default.2 z (kv :: t) hmw hov).resolve_right (by simp [Rule.fails])
      exact ⟨.obj r, h1, h2, ⟨r, rfl⟩, h3⟩
    · right
      refine ⟨by simp, hon, ?_⟩
      obtain ⟨k, v⟩ := kv
      have hk := hk k (by simp)
      have hk2 : ∀ n, Gabs.arrIndex k n = none := by intro n; simp [Gabs.arrIndex, hk.2.2]
      cases a with
      | null => exact absurd (Or.inl rfl) hon
      | obj m => exact absurd (Or.inr ⟨m, rfl⟩) hon
      | arr xs => exact ⟨.outOfBounds, by simp [merge, mergeMap, mergeOne, Gabs.search, Gabs.set, Gabs.fill, Gabs.setGo, hk, hk2]⟩
      | bool _ => exact ⟨.collision, by simp [merge, mergeMap, mergeOne, Gabs.search, Gabs.set, Gabs.fill, Gabs.setGo]⟩
      | num _ => exact ⟨.collision, by simp [merge, mergeMap, mergeOne, Gabs.search, Gabs.set, Gabs.fill, Gabs.setGo]⟩
      | str _ => exact ⟨.collision, by simp [merge, mergeMap, mergeOne, Gabs.search, Gabs.set, Gabs.fill, Gabs.setGo]⟩

theorem opAt_putOp {c : Json} {P M P' M' : Str} {old w : Json} (v : Json) (h : opAt c P M = some old)
    (h' : opAt c P' M' = some w) : opAt (putOp P M v c) P' M' = some (if P' = P ∧ M' = M then v else w) := by
  obtain ⟨b, hb, hR⟩ := opAt_related (putOp_related v h) h'
  rw [hb]; congr 1
  by_cases hc : P' = P ∧ M' = M
  · simp only [hc, and_self, if_true] at hR ⊢; exact hR
  · simp only [if_neg hc] at hR ⊢; exact hR

theorem applyAt_clean {ids : List (Str × Str)} (hn : ids.Nodup) {st : St} (hi : Inv ids st) {i : Nat} {o : Op}
    (ho : st.ops[i]? = some o) (hd1 : (46 : UInt8) ∉ o.path) (hd2 : (46 : UInt8) ∉ o.method) {ov nc : Json}
    (hm : merge o.val ov mergeDefault = .ok nc) (hw : WF nc) :
    ∃ st', applyAt ov st i = .ok st' ∧ Inv ids st' ∧ OpsRelated (fun _ _ _ _ => True) st.cnt st'.cnt ∧
      ∀ j o', st.ops[j]? = some o' → ∃ o'', st'.ops[j]? = some o'' ∧ opId o'' = opId o' ∧
        o''.val = if j = i then nc else o'.val := by
  have hmem : o ∈ st.ops := List.mem_of_getElem? ho
  have hop := hi.rep o hmem
  have hopa : getAt st.cnt [.key b!"paths", .key o.path, .key o.method] = some o.val := hop
  have hkey : Gabs.dotPathToSlice (opKey o) = [b!"paths", o.path, o.method] := by
    rw [opKey_slice, mangle_id hd1, mangle_id hd2]
  have hput2 : putOp o.path o.method nc (putOp o.path o.method nc st.cnt) = putOp o.path o.method nc st.cnt :=
    putAt_putAt nc nc hopa
  have hset : Gabs.set nc [b!"paths", o.path, o.method] (putOp o.path o.method nc st.cnt) =
      .ok (putOp o.path o.method nc st.cnt) := by
    rw [set_op nc (opAt_putOp nc hop hop), hput2]
  have happ : applyAt ov st i = .ok ⟨putOp o.path o.method nc st.cnt,
      (st.ops.set i { o with val := nc }).map (detach (Gabs.dotPathToSlice (opKey o)))⟩ := by
    unfold applyAt setP
    rw [ho]
    simp only [hm, hkey, set_op nc hop]
    by_cases ha : o.attached = true
    · simp only [ha, if_true, hset]
    · simp only [ha, Bool.false_eq_true, if_false, set_op nc hop]
  refine ⟨_, happ, ?_, ?_, ?_⟩
  · have hids : (st.ops.set i { o with val := nc }).map opId = ids := by
      rw [List.map_set]
      rw [show opId { o with val := nc } = opId o from rfl, ← hi.ids]
      apply List.ext_getElem?
      intro j
      rw [List.getElem?_set]
      split
      · rename_i e; subst e; rw [List.getElem?_map, ho]
        have : i < st.ops.length := (List.getElem?_eq_some_iff.1 ho).1
        simp [this]
      · rfl
    refine ⟨putOp_WF hi.wf hw, ?_, ?_⟩
    · rw [List.map_map]
      rw [← hids]
      apply List.map_congr_left
      intro x _; exact (detach_val _ x).2
    · intro x hx
      simp only [List.mem_map] at hx
      obtain ⟨y, hy, rfl⟩ := hx
      have e1 := (detach_val (Gabs.dotPathToSlice (opKey o)) y).2
      have e2 := (detach_val (Gabs.dotPathToSlice (opKey o)) y).1
      have e3 : (detach (Gabs.dotPathToSlice (opKey o)) y).path = y.path := congrArg Prod.fst e1
      have e4 : (detach (Gabs.dotPathToSlice (opKey o)) y).method = y.method := congrArg Prod.snd e1
      rw [e2, e3, e4]
      obtain ⟨j, hj⟩ := List.mem_iff_getElem?.1 hy
      rw [List.getElem?_set] at hj
      by_cases hij : i = j
      · subst hij
        simp only [if_true] at hj
        split at hj
        · simp at hj; subst hj
          simp only; rw [opAt_putOp nc hop hop]; simp
        · simp at hj
      · rw [if_neg hij] at hj
        have hym : y ∈ st.ops := List.mem_of_getElem? hj
        rw [opAt_putOp nc hop (hi.rep y hym)]
        have : ¬ (y.path = o.path ∧ y.method = o.method) := by
          rintro ⟨a, b⟩
          apply hij
          have g1 : ids[i]? = some (opId o) := by rw [← hi.ids, List.getElem?_map, ho]; rfl
          have g2 : ids[j]? = some (opId o) := by
            rw [← hi.ids, List.getElem?_map, hj]; simp [opId, a, b]
          obtain ⟨l1, g1⟩ := List.getElem?_eq_some_iff.1 g1
          obtain ⟨l2, g2⟩ := List.getElem?_eq_some_iff.1 g2
          exact (List.getElem_inj hn).1 (g1.trans g2.symm)
        rw [if_neg this]
  · exact OpsRelated_strengthen (putOp_related nc hop) (fun _ _ _ _ _ _ => trivial)
  · intro j o' hj
    refine ⟨detach (Gabs.dotPathToSlice (opKey o)) (if j = i then { o with val := nc } else o'), ?_, ?_, ?_⟩
    · rw [List.getElem?_map, List.getElem?_set]
      by_cases hij : i = j
      · subst hij
        have : i < st.ops.length := (List.getElem?_eq_some_iff.1 ho).1
        simp [this]
      · simp [hij, Ne.symm hij, hj]
    · rw [(detach_val _ _).2]
      by_cases hij : j = i
      · subst hij; rw [ho] at hj; cases hj; simp [opId]
      · simp [hij]
    · rw [(detach_val _ _).1]
      by_cases hij : j = i
      · simp [hij]
      · simp [hij]

end Oapi.OAPI
