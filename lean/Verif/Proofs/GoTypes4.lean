import Verif.Proofs.GoTypes3

/-! Converting types in memory: structs, elements and whole pointers. -/
namespace Oapi.GoTypes
open Types Spec GoHeap

variable {F : Type} {I : TSt → Prop} {P : (List Pointer → List Pointer) → Prop}

theorem element_sim {p : Slice} {a : Arrs GoType} {t e : GoType} {call : GoType → TSt → TSt × Res (Schema F)}
    {vcall : (List Pointer → List Pointer) → GoType → Res (Schema F)} {k : Schema F → Schema F} {st : TSt} (hs : ∃ f, P f) (h : I st) (ha : AKeep p a st.paths)
    (hc : CEnds I P p a (call e st) (fun f => vcall f e)) : CEnds I P p a (element t e call k st) (fun f => Types.element t e (vcall f) k) := by
  unfold element Types.element
  by_cases he : t = e
  · simp only [if_pos he]
    obtain ⟨f, hf⟩ := hs
    exact ⟨h, ha, f, hf, rfl⟩
  · simp only [if_neg he]
    obtain ⟨h1, h2, f, hf, h3⟩ := hc
    cases hx : call e st with
    | mk st1 x =>
    rw [hx] at h1 h2 h3
    simp only at h1 h2 h3
    refine ⟨?_, ?_, f, hf, ?_⟩
    · cases x <;> exact h1
    · cases x <;> exact h2
    · simp only [← h3]; cases x <;> rfl

/-- Inside a type (path not empty) one way to sort is used. -/
theorem type2schema_inner (cf : Conf F) (mm : PMap) (srt : Nat → List Pointer → List Pointer) : ∀ n i t tp tg j, tp ≠ [] →
    Types.type2schema (cxOf cf mm srt) n i t tp tg = Types.type2schema (cxOf cf mm fun _ => srt i) n j t tp tg
  | 0, _, _, _, _, _, _ => rfl
  | n + 1, i, t, tp, tg, j, hne => by
    have ih := fun e => type2schema_inner cf mm srt n i e (tp ++ [under cf.env t]) tg j (by simp)
    have hl : (tp ++ [under cf.env t]).length ≠ 1 := by
      cases tp with
      | nil => exact absurd rfl hne
      | cons a l => simp
    have hr : ∀ u, Types.reference2schema (cxOf cf mm srt) i u = Types.reference2schema (cxOf cf mm fun _ => srt i) j u := fun u => rfl
    unfold Types.type2schema
    show (if under cf.env t ∈ tp then _ else _) = (if under cf.env t ∈ tp then _ else _)
    by_cases hm : under cf.env t ∈ tp
    · rw [if_pos hm, if_pos hm]; exact hr _
    · rw [if_neg hm, if_neg hm]
      simp only [show (cxOf cf mm srt).env = cf.env from rfl, show (cxOf cf mm fun _ => srt i).env = cf.env from rfl] at *
      cases hu : under cf.env t with
      | struct fs => rw [hu] at hl; simp only [if_neg hl]; exact hr _
      | array len e => rw [hu] at ih; simp only [ih]
      | basic k => rfl
      | map k e => rw [hu] at ih; simp only [ih]
      | slice e => rw [hu] at ih; simp only [ih]
      | pointer e => rw [hu] at ih; simp only [ih]
      | _ => rfl

/-- Inside a type: a conversion in memory is one on values. -/
theorem type2schema_sim {cf : Conf F} {mm : PMap} (hs : Picks cf mm I P) : ∀ n t tp tg (i : Nat) (st : TSt),
    I st → Valid st.paths tp → view st.paths tp ≠ [] →
    CEnds I P tp st.paths (type2schema cf n t tp tg st) (fun f => Types.type2schema (cxOf cf mm fun _ => f) n i t (view st.paths tp) tg)
  | 0, _, _, _, _, _, h, _, _ => ⟨h, .refl _ _, hs.allowed.elim fun f hf => ⟨f, hf, rfl⟩⟩
  | n + 1, t, tp, tg, i, st, h, hv, hne => by
    unfold type2schema Types.type2schema
    show CEnds I P tp st.paths (if under cf.env t ∈ view st.paths tp then _ else _) (fun f => if under cf.env t ∈ view st.paths tp then _ else _)
    by_cases hm : under cf.env t ∈ view st.paths tp
    · simp only [if_pos hm]
      exact reference_sim hs _ _ _ h
    · simp only [if_neg hm]
      obtain ⟨k1, k2, k3, _, k5, k6⟩ := append1_spec cf.pathRoom hv (under cf.env t)
      simp only [show ∀ f, (cxOf cf mm f).env = cf.env from fun _ => rfl] at *
      have hlen : tp.len ≠ 0 := by
        intro h0
        have := view_length hv
        rw [h0] at this
        exact hne (List.length_eq_zero_iff.1 this)
      generalize append1 cf.pathRoom st.paths tp (under cf.env t) = a at *
      have h' : I { st with paths := a.1 } := hs.paths _ _ h
      have ih : ∀ e tg, CEnds I P tp st.paths (type2schema cf n e a.2 tg { st with paths := a.1 })
          (fun f => Types.type2schema (cxOf cf mm fun _ => f) n i e (view st.paths tp ++ [under cf.env t]) tg) := by
        intro e tg
        have := type2schema_sim hs n e a.2 tg i { st with paths := a.1 } h' k1 (by simp only [k2]; simp)
        simp only [k2] at this
        exact ⟨this.1, k6 _ this.2.1, this.2.2⟩
      have el := fun tt e k => element_sim (t := tt) (e := e) (k := k) hs.allowed h' k5 (ih e tg)
        (vcall := fun f e => Types.type2schema (cxOf cf mm fun _ => f) n i e (view st.paths tp ++ [under cf.env t]) tg)
        (call := fun e st => type2schema cf n e a.2 tg st)
      have hvl := view_length hv
      have hl : (view st.paths tp ++ [under cf.env t]).length ≠ 1 := by simp [hvl, hlen]
      have hr := fun u => reference_sim hs u tp i h'
      cases hu : under cf.env t with
      | struct fs =>
        rw [hu] at hl
        simp only [if_neg hl]
        rw [if_neg (by rw [k3]; omega)]
        exact ⟨(hr _).1, k5.trans (hr _).2.1, (hr _).2.2⟩
      | array len e => rw [hu] at el; exact el _ _ _
      | basic k => exact ⟨h', k5, hs.allowed.elim fun f hf => ⟨f, hf, rfl⟩⟩
      | map k e => rw [hu] at el; exact el _ _ _
      | slice e => rw [hu] at el; exact el _ _ _
      | pointer e => rw [hu] at el; exact el _ _ _
      | _ => exact ⟨h', k5, hs.allowed.elim fun f hf => ⟨f, hf, rfl⟩⟩

/-! ### Structs -/

/-- Calls of `type2schema` for fields, with path `p` that reads as `q`. -/
def SCalls (I : TSt → Prop) (P : (List Pointer → List Pointer) → Prop) (p : Slice) (q : List GoType) (call : GoType → TagP.Tag F → TSt → TSt × Res (Schema F))
    (vcall : (List Pointer → List Pointer) → GoType → TagP.Tag F → Res (Schema F)) : Prop :=
  ∀ t tg st, I st → Valid st.paths p → view st.paths p = q → CEnds I P p st.paths (call t tg st) (fun f => vcall f t tg)

theorem fieldSchema_sim {cf : Conf F} {mm : PMap} (hs : Picks cf mm I P) {p : Slice} {q : List GoType}
    {call : GoType → TagP.Tag F → TSt → TSt × Res (Schema F)} {vcall : (List Pointer → List Pointer) → GoType → TagP.Tag F → Res (Schema F)}
    (hc : SCalls I P p q call vcall) (x : StructField F) {st : TSt} (h : I st) (hv : Valid st.paths p) (hq : view st.paths p = q) (i : Nat) :
    CEnds I P p st.paths (fieldSchema cf call x st) (fun f => Types.fieldSchema (cxOf cf mm fun _ => f) (fun _ t tg => vcall f t tg) i x) := by
  unfold fieldSchema Types.fieldSchema
  by_cases ht : x.tag.type ≠ []
  · simp only [if_pos ht]
    exact ⟨h, .refl _ _, hs.allowed.elim fun f hf => ⟨f, hf, rfl⟩⟩
  · simp only [if_neg ht]
    simp only [show ∀ f, (cxOf cf mm f).env = cf.env from fun _ => rfl]
    cases hu : under cf.env x.typ with
    | struct fs => exact reference_sim hs _ _ _ h
    | _ => exact hc _ _ st h hv hq

/-- The loop looks only at the ways to sort of the fields it is still to come to. -/
theorem structLoop_later (cf : Conf F) (mm : PMap) (vcall : (List Pointer → List Pointer) → GoType → TagP.Tag F → Res (Schema F)) {s s' : Nat → List Pointer → List Pointer} :
    ∀ xs i props req, (∀ j, i ≤ j → s j = s' j) →
    Types.structLoop (cxOf cf mm s) (fun i t tg => vcall (s i) t tg) i xs props req = Types.structLoop (cxOf cf mm s') (fun i t tg => vcall (s' i) t tg) i xs props req
  | [], _, _, _, _ => rfl
  | x :: rest, i, props, req, h => by
    have hi := h i (Nat.le_refl _)
    have hf : Types.fieldSchema (cxOf cf mm s) (fun i t tg => vcall (s i) t tg) i x = Types.fieldSchema (cxOf cf mm s') (fun i t tg => vcall (s' i) t tg) i x := by
      unfold Types.fieldSchema
      have hr : ∀ u, Types.reference2schema (cxOf cf mm s) i u = Types.reference2schema (cxOf cf mm s') i u := by
        intro u; simp only [Types.reference2schema, Types.pick, cxOf, hi]
      simp only [hi, show ∀ f, (cxOf cf mm f).env = cf.env from fun _ => rfl, show ∀ f, (cxOf cf mm f).zero = cf.zero from fun _ => rfl, hr]
    have ih := fun props req => structLoop_later cf mm vcall (s := s) (s' := s') rest (i + 1) props req (fun j hj => h j (by omega))
    unfold Types.structLoop
    rw [hf]
    split
    · rfl
    · rfl
    · split <;> exact ih _ _

theorem structLoop_sim {cf : Conf F} {mm : PMap} (hs : Picks cf mm I P) {p : Slice} {q : List GoType}
    {call : GoType → TagP.Tag F → TSt → TSt × Res (Schema F)} {vcall : (List Pointer → List Pointer) → GoType → TagP.Tag F → Res (Schema F)}
    (hc : SCalls I P p q call vcall) : ∀ xs i props req (st : TSt), I st → Valid st.paths p → view st.paths p = q →
    I (structLoop cf call xs props req st).1 ∧ ∃ s, (∀ j, P (s j)) ∧
      (structLoop cf call xs props req st).2 = Types.structLoop (cxOf cf mm s) (fun i t tg => vcall (s i) t tg) i xs props req
  | [], _, _, _, st, h, _, _ => ⟨h, hs.allowed.elim fun f hf => ⟨fun _ => f, fun _ => hf, rfl⟩⟩
  | x :: rest, i, props, req, st, h, hv, hq => by
    obtain ⟨f1, f2, f, hf, f3⟩ := fieldSchema_sim hs hc x h hv hq i
    have e1 : ∀ s : Nat → List Pointer → List Pointer, s i = f →
        Types.fieldSchema (cxOf cf mm s) (fun i t tg => vcall (s i) t tg) i x = Types.fieldSchema (cxOf cf mm fun _ => f) (fun _ t tg => vcall f t tg) i x := by
      intro s hs'
      unfold Types.fieldSchema
      have hr : ∀ u, Types.reference2schema (cxOf cf mm s) i u = Types.reference2schema (cxOf cf mm fun _ => f) i u := by
        intro u; simp only [Types.reference2schema, Types.pick, cxOf, hs']
      simp only [hs', show ∀ f, (cxOf cf mm f).env = cf.env from fun _ => rfl, show ∀ f, (cxOf cf mm f).zero = cf.zero from fun _ => rfl, hr]
    unfold structLoop
    cases hx : fieldSchema cf call x st with
    | mk st1 r =>
    rw [hx] at f1 f2 f3
    simp only at f1 f2 f3
    cases r with
    | err e =>
      refine ⟨f1, fun _ => f, fun _ => hf, ?_⟩
      unfold Types.structLoop
      rw [e1 _ rfl, ← f3]
    | panic =>
      refine ⟨f1, fun _ => f, fun _ => hf, ?_⟩
      unfold Types.structLoop
      rw [e1 _ rfl, ← f3]
    | ok sc =>
      obtain ⟨v1, w1⟩ := f2.view hv
      have go : ∀ props' req', ∃ s, (∀ j, P (s j)) ∧ s i = f ∧ I (structLoop cf call rest props' req' st1).1 ∧
          (structLoop cf call rest props' req' st1).2 = Types.structLoop (cxOf cf mm s) (fun i t tg => vcall (s i) t tg) (i + 1) rest props' req' := by
        intro props' req'
        obtain ⟨i1, s, hss, i2⟩ := structLoop_sim hs hc rest (i + 1) props' req' st1 f1 w1 (v1.trans hq)
        refine ⟨fun j => if j = i then f else s j, ?_, by simp, i1, ?_⟩
        · intro j
          by_cases hj : j = i
          · simp only [if_pos hj]; exact hf
          · simp only [if_neg hj]; exact hss j
        · rw [i2]
          exact structLoop_later cf mm vcall rest (i + 1) props' req' (fun j hj => by rw [if_neg (by omega)])
      simp only
      by_cases hr : sc.ref.isSome = true
      · simp only [if_pos hr]
        obtain ⟨s, a1, a2, a3, a4⟩ := go (putProp x.key sc props) req
        refine ⟨a3, s, a1, ?_⟩
        rw [a4]
        conv => rhs; unfold Types.structLoop
        rw [e1 s a2, ← f3]
        simp only [if_pos hr]
      · simp only [if_neg hr]
        obtain ⟨s, a1, a2, a3, a4⟩ := go (putProp x.key (sc.withAttrs (dress x.tag)) props) (if x.tag.required then req ++ [x.key] else req)
        refine ⟨a3, s, a1, ?_⟩
        rw [a4]
        conv => rhs; unfold Types.structLoop
        rw [e1 s a2, ← f3]
        simp only [if_neg hr]

theorem struct2schema_sim {cf : Conf F} {mm : PMap} (hs : Picks cf mm I P) {p : Slice} {q : List GoType}
    {call : GoType → TagP.Tag F → TSt → TSt × Res (Schema F)} {vcall : (List Pointer → List Pointer) → GoType → TagP.Tag F → Res (Schema F)}
    (hc : SCalls I P p q call vcall) (fs : List (FieldInfo × GoType)) {st : TSt} (h : I st) (hv : Valid st.paths p) (hq : view st.paths p = q) :
    I (struct2schema cf call fs st).1 ∧ ∃ s, (∀ j, P (s j)) ∧
      (struct2schema cf call fs st).2 = Types.struct2schema (cxOf cf mm s) (fun i t tg => vcall (s i) t tg) fs := by
  unfold struct2schema Types.struct2schema
  obtain ⟨n1, n2, n3⟩ := newSlice_spec st.paths p
  obtain ⟨c1, c2⟩ := collectFields_sim cf (depth cf.env (.struct fs)) fs (newSlice st.paths).2 (newSlice st.paths).1 n1
  rw [n2] at c2
  have keep := n3 _ c1
  simp only [show ∀ f, (cxOf cf mm f).env = cf.env from fun _ => rfl, show ∀ f, (cxOf cf mm f).tagOf = cf.tagOf from fun _ => rfl]
  rw [← c2]
  cases hx : collectFields cf (depth cf.env (.struct fs)) fs (newSlice st.paths).2 (newSlice st.paths).1 with
  | mk b r =>
  rw [hx] at keep
  simp only at keep
  cases r with
  | err e => exact ⟨hs.paths _ _ h, hs.allowed.elim fun f hf => ⟨fun _ => f, fun _ => hf, rfl⟩⟩
  | panic => exact ⟨hs.paths _ _ h, hs.allowed.elim fun f hf => ⟨fun _ => f, fun _ => hf, rfl⟩⟩
  | ok fields =>
    simp only
    obtain ⟨v1, w1⟩ := keep.view hv
    obtain ⟨i1, s, hss, i2⟩ := structLoop_sim hs hc fields 0 [] [] { st with paths := b } (hs.paths _ _ h) w1 (v1.trans hq)
    refine ⟨?_, s, hss, ?_⟩
    · cases hy : structLoop cf call fields [] [] { st with paths := b } with
      | mk st1 y =>
      rw [hy] at i1
      cases y <;> exact i1
    · rw [← i2]
      cases hy : structLoop cf call fields [] [] { st with paths := b } with
      | mk st1 y => cases y <;> rfl

/-- A whole type. -/
theorem top_sim {cf : Conf F} {mm : PMap} (hs : Picks cf mm I P) (n : Nat) (t : GoType) (p : Slice) (tg : TagP.Tag F) (st : TSt)
    (h : I st) (hv : Valid st.paths p) (hq : view st.paths p = []) :
    I (type2schema cf n t p tg st).1 ∧ ∃ s, (∀ j, P (s j)) ∧ (type2schema cf n t p tg st).2 = Types.type2schema (cxOf cf mm s) n 0 t [] tg := by
  cases n with
  | zero => exact ⟨h, hs.allowed.elim fun f hf => ⟨fun _ => f, fun _ => hf, rfl⟩⟩
  | succ n =>
    unfold type2schema Types.type2schema
    rw [hq]
    simp only [List.not_mem_nil, if_false, List.nil_append]
    obtain ⟨k1, k2, k3, _, k5, k6⟩ := append1_spec cf.pathRoom hv (under cf.env t)
    simp only [show ∀ f, (cxOf cf mm f).env = cf.env from fun _ => rfl, show ∀ f, (cxOf cf mm f).zero = cf.zero from fun _ => rfl] at *
    have hlen : p.len = 0 := by
      have := view_length hv
      rw [hq] at this; exact this.symm
    generalize append1 cf.pathRoom st.paths p (under cf.env t) = a at *
    rw [hq, List.nil_append] at k2
    have h' : I { st with paths := a.1 } := hs.paths _ _ h
    have sc : ∀ u, under cf.env t = u → SCalls I P a.2 [u] (fun t tg st => type2schema cf n t a.2 tg st)
        (fun f t tg => Types.type2schema (cxOf cf mm fun _ => f) n 0 t [u] tg) := by
      rintro u rfl t' tg' st' hh' hv' hq'
      have := type2schema_sim hs n t' a.2 tg' 0 st' hh' hv' (by rw [hq']; simp)
      rw [hq'] at this
      exact this
    have lift : ∀ (x : TSt × Res (Schema F)) (v : (Nat → List Pointer → List Pointer) → Res (Schema F)), CEnds I P a.2 a.1 x (fun f => v fun _ => f) →
        I x.1 ∧ ∃ s, (∀ j, P (s j)) ∧ x.2 = v s := by
      rintro x v ⟨a1, _, f, hf, a2⟩
      exact ⟨a1, fun _ => f, fun _ => hf, a2⟩
    have el := fun u hu tt e k => lift (element tt e (fun e st => type2schema cf n e a.2 tg st) k { st with paths := a.1 })
      (fun s => Types.element tt e (fun e => Types.type2schema (cxOf cf mm s) n 0 e [u] tg) k)
      (element_sim (t := tt) (e := e) (k := k) hs.allowed h' (.refl _ _) (sc u hu e tg { st with paths := a.1 } h' k1 (by rw [k2, hu])))
    cases hu : under cf.env t with
    | struct fs =>
      have k7 : a.2.len = 1 := by rw [k3, hlen]
      simp only [if_pos k7, List.length_singleton, if_true]
      obtain ⟨i1, s, hss, i2⟩ := struct2schema_sim hs (sc _ hu) fs h' k1 (by rw [k2, hu])
      refine ⟨i1, s, hss, ?_⟩
      rw [i2]
      congr 1
      funext i t' tg'
      exact (type2schema_inner cf mm s n i t' _ tg' 0 (by simp)).symm
    | array len e => exact el _ hu _ _ _
    | basic k => exact ⟨h', hs.allowed.elim fun f hf => ⟨fun _ => f, fun _ => hf, rfl⟩⟩
    | map k e => exact el _ hu _ _ _
    | slice e => exact el _ hu _ _ _
    | pointer e => exact el _ hu _ _ _
    | _ => exact ⟨h', hs.allowed.elim fun f hf => ⟨fun _ => f, fun _ => hf, rfl⟩⟩

theorem find_content (points : Arrs Pointer) (m : HMap) (ptr : Pointer) : findType points m ptr = (contentOf points m).findType ptr := by
  unfold findType PMap.findType contentOf
  induction m with
  | nil => rfl
  | cons e r ih =>
    simp only [List.map_cons, List.find?_cons]
    cases (view points e.2).any fun q => ptr.toStr == q.toStr with
    | true => rfl
    | false => exact ih

/-- A pointer is resolved in memory as on values, for some way to sort. -/
theorem resolve_picks {cf : Conf F} {mm : PMap} (hs : Picks cf mm I P) {it : HMap → HMap} (ptr : Pointer) {st : TSt} (h : I st)
    (hfind : findType st.points (it st.map) ptr = mm.findType ptr) : I (resolve cf it ptr st).1 ∧
    ∃ s, (∀ j, P (s j)) ∧ (resolve cf it ptr st).2 = Types.resolve (cxOf cf mm s) ptr := by
  unfold resolve
  rw [hfind]
  cases hf : mm.findType ptr with
  | none =>
    obtain ⟨f, hf'⟩ := hs.allowed
    refine ⟨h, fun _ => f, fun _ => hf', ?_⟩
    unfold Types.resolve
    simp only [cxOf, hf]
  | some t =>
    obtain ⟨n1, n2, _⟩ := newSlice_spec st.paths ⟨0, 0⟩
    obtain ⟨i1, s, hss, i2⟩ := top_sim hs (depth cf.env t) t (newSlice st.paths).2 {} { st with paths := (newSlice st.paths).1 } (hs.paths _ _ h) n1 n2
    refine ⟨i1, s, hss, ?_⟩
    simp only
    rw [i2]
    unfold Types.resolve
    simp only [cxOf, hf]

theorem hist_perm {m : PMap} {it : HMap → HMap} (hit : ∀ l, (it l).Perm l) {st : TSt} (h : Hist m st) :
    ∃ mm : PMap, mm.Perm m ∧ ∀ ptr, findType st.points (it st.map) ptr = mm.findType ptr := by
  have hp : (contentOf st.points st.map).Perm (contentOf st.points (it st.map)) := ((hit st.map).symm.map _)
  obtain ⟨mm, p1, p2⟩ := pairwise2_perm hp h.2
  exact ⟨mm, p1, fun ptr => by rw [find_content, ent_find ptr p2]⟩

/-- … for any history, some order of the map and some way to sort. -/
theorem resolve_sim {cf : Conf F} (hs : ∀ i, SortsPoints (cf.srt i)) {m : PMap} (hm : (m.map Prod.fst).Nodup) {it : HMap → HMap} (hit : ∀ l, (it l).Perm l) (ptr : Pointer) {st : TSt}
    (h : Hist m st) : Hist m (resolve cf it ptr st).1 ∧
    ∃ mm s, mm.Perm m ∧ (∀ j, SortsPoints (s j)) ∧ (resolve cf it ptr st).2 = Types.resolve (cxOf cf mm s) ptr := by
  obtain ⟨mm, p1, p2⟩ := hist_perm hit h
  obtain ⟨a, s, b, c⟩ := resolve_picks (picks_hist hs (at_perm hm p1)) ptr h (p2 ptr)
  exact ⟨a, mm, s, p1, b, c⟩

/-! ### A sort that leaves sorted slices alone -/

/-- Memory holds the points `m`, and sorting any of its slices by `f` gives the same first point as at the beginning. -/
def Still (f : List Pointer → List Pointer) (m : PMap) (st : TSt) : Prop := Hist m st ∧ ∀ t, (f (st.content.at t)).head? = (f (m.at t)).head?

theorem picks_still {cf : Conf F} {f : List Pointer → List Pointer} (hf : SortsPoints f) (hi : ∀ l, f (f l) = f l) (hs : ∀ i, cf.srt i = f) {m mm : PMap} (hmm : ∀ t, mm.at t = m.at t) :
    Picks cf mm (Still f m) (· = f) where
  paths := fun _ _ h => h
  allowed := ⟨f, rfl⟩
  picks := by
    intro t st h
    have hp := pick_sim (srt := cf.srt) (fun i => by rw [hs i]; exact hf) hmm t h.1
    have hc := content_at (points := st.points) (m := st.map) (t := t)
    change st.content.at t = _ at hc
    have ht := h.2 t
    refine ⟨⟨hp.1, ?_⟩, hp.2.1, f, rfl, ?_⟩
    · intro u
      rw [← h.2 u]
      unfold pick
      cases hx : st.map.at t with
      | none => rfl
      | some s =>
        rw [hx] at hc
        simp only at hc ⊢
        by_cases h0 : s.len = 0
        · simp only [if_pos h0]
        · simp only [if_neg h0]
          obtain ⟨l1, l2, hm, hl1⟩ := at_split hx
          have hvs := h.1.1.valid (t, s) (by rw [hm]; simp)
          obtain ⟨x, hxx, hle⟩ := hvs
          simp only at hxx hle
          have hg : st.points.getD s.arr [] = x := by simp [List.getD, hxx]
          have hlt : s.arr < st.points.length := (List.getElem?_eq_some_iff.1 hxx).1
          have hc2 := content_at (points := st.points) (m := st.map) (t := u)
          rw [hs, hg]
          have hlen : (f (view st.points s)).length = s.len := by
            rw [(hf _).1.length_eq, view_of hxx]; simp; omega
          have hself : (st.points.set s.arr (f (view st.points s) ++ x.drop s.len))[s.arr]? = some (f (view st.points s) ++ x.drop s.len) := by simp [hlt]
          have hc3 := content_at (points := st.points.set s.arr (f (view st.points s) ++ x.drop s.len)) (m := st.map) (t := u)
          show (f (PMap.at (contentOf (st.points.set s.arr (f (view st.points s) ++ x.drop s.len)) st.map) u)).head? = (f (PMap.at (contentOf st.points st.map) u)).head?
          rw [hc2, hc3]
          cases hu : st.map.at u with
          | none => rfl
          | some s' =>
            simp only
            by_cases he : s' = s
            · subst he
              rw [view_of hself, show (f (view st.points s') ++ x.drop s'.len).take s'.len = f (view st.points s') by rw [← hlen]; simp, hi]
            · have hne : s'.arr ≠ s.arr := by
                intro hh
                obtain ⟨r1, r2, hm', _⟩ := at_split hu
                have m1 : (t, s) ∈ st.map := by rw [hm]; simp
                have m2 : (u, s') ∈ st.map := by rw [hm']; simp
                obtain ⟨i, hi1⟩ := List.mem_iff_getElem?.1 m1
                obtain ⟨j, hj1⟩ := List.mem_iff_getElem?.1 m2
                have q1 : (st.map.map (·.2.arr))[i]? = some s.arr := by rw [List.getElem?_map, hi1]; rfl
                have q2 : (st.map.map (·.2.arr))[j]? = some s.arr := by rw [List.getElem?_map, hj1]; exact congrArg some hh
                have hil : i < (st.map.map (·.2.arr)).length := (List.getElem?_eq_some_iff.1 q1).1
                have := (List.getElem?_inj hil h.1.1.arrs).1 (q1.trans q2.symm)
                subst this
                rw [hi1] at hj1
                exact he (congrArg Prod.snd (Option.some.inj hj1)).symm
              rw [view, view, List.getD, List.getD, List.getElem?_set_ne (Ne.symm hne)]
              rfl
    · rw [hmm, ← ht, hc]
      unfold pick
      cases hx : st.map.at t with
      | none => simp only [hx] at hc ⊢; rw [List.perm_nil.1 (hf []).1]; rfl
      | some s =>
        simp only
        by_cases h0 : s.len = 0
        · simp only [if_pos h0]
          obtain ⟨l1, l2, hm, hl1⟩ := at_split hx
          have hvs := h.1.1.valid (t, s) (by rw [hm]; simp)
          have : view st.points s = [] := by
            have := view_length hvs
            simp only at this
            exact List.length_eq_zero_iff.1 (this.trans h0)
          rw [this, List.perm_nil.1 (hf []).1]; rfl
        · simp only [if_neg h0, hs]

theorem resolve_still {cf : Conf F} {f : List Pointer → List Pointer} (hf : SortsPoints f) (hi : ∀ l, f (f l) = f l) (hs : ∀ i, cf.srt i = f) {m : PMap} (hm : (m.map Prod.fst).Nodup)
    {it : HMap → HMap} (hit : ∀ l, (it l).Perm l) (ptr : Pointer) {st : TSt} (h : Still f m st) : Still f m (resolve cf it ptr st).1 ∧
    ∃ mm, mm.Perm m ∧ (resolve cf it ptr st).2 = Types.resolve (cxOf cf mm fun _ => f) ptr := by
  obtain ⟨mm, p1, p2⟩ := hist_perm hit h.1
  obtain ⟨a, s, b, c⟩ := resolve_picks (picks_still hf hi hs (at_perm hm p1)) ptr h (p2 ptr)
  refine ⟨a, mm, p1, ?_⟩
  rw [c, show s = fun _ => f from funext b]

end Oapi.GoTypes
