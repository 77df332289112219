import Verif.Proofs.Det7
import Verif.Proofs.Check

/-! Documents made of schemas. -/
namespace Oapi
open Spec

/-- Documents whose keys are dot-safe and whose references stand alone and have texts in `P`. -/
inductive FitDoc (P : Str → Prop) : Json → Prop where
  | ref {x} : P x → FitDoc P (refObj x)
  | leaf {j} : scalar j = true → FitDoc P j
  | arr {xs} : (∀ x ∈ xs, FitDoc P x) → FitDoc P (.arr xs)
  | obj {m} : Obj.Sorted m → (∀ k v, (k, v) ∈ m → DotSafe k) → (∀ k v, (k, v) ∈ m → FitDoc P v) → (∀ x, (refKey, .str x) ∉ m) → FitDoc P (.obj m)

theorem FitDoc.wf {P : Str → Prop} {j : Json} (h : FitDoc P j) : Json.WF j := by
  induction h with
  | ref _ => simp [refObj, Obj.Sorted, Json.WFO, Obj.keys]
  | leaf h => rename_i j; cases j <;> first | cases h; done | simp
  | arr _ ih => rw [Json.WF_arr, Json.WFL_iff]; exact ih
  | obj hs _ _ _ ih => rw [Json.WF_obj, Json.WFO_iff]; exact ⟨hs, fun p hp => ih p.1 p.2 hp⟩

theorem refKey_dotSafe : DotSafe refKey := dotSafeB_sound (by decide)

theorem FitDoc.safe {P : Str → Prop} {j : Json} (h : FitDoc P j) : SafeDoc j := by
  induction h with
  | ref _ =>
    intro l m hm k hk
    cases l with
    | nil => cases hm; simp [Obj.keys] at hk; subst hk; exact refKey_dotSafe
    | cons s l =>
      cases s with
      | idx n => simp [refObj, getAt, child] at hm
      | key k' =>
        simp only [refObj, getAt, child, Obj.lookup] at hm
        split at hm
        · rename_i c hc
          split at hc
          · cases hc
            cases l with
            | nil => cases hm
            | cons s l => simp [getAt, child] at hm
          · cases hc
        · cases hm
  | leaf h =>
    rename_i j
    intro l m hm
    cases l with
    | nil => cases hm; cases h
    | cons s l => rw [getAt_scalar h (by simp)] at hm; cases hm
  | arr _ ih =>
    intro l m hm
    cases l with
    | nil => cases hm
    | cons s l =>
      cases s with
      | key k => simp [getAt, child] at hm
      | idx n =>
        simp only [getAt, child] at hm
        split at hm
        · rename_i c hc
          exact ih c (List.mem_of_getElem? hc) l m hm
        · cases hm
  | obj hs hk _ _ ih =>
    intro l m hm
    cases l with
    | nil =>
      cases hm
      intro k hk'
      obtain ⟨v, hv⟩ := (Obj.mem_keys_iff _ _).1 hk'
      exact hk k v (Obj.lookup_mem hv)
    | cons s l =>
      cases s with
      | idx n => simp [getAt, child] at hm
      | key k =>
        simp only [getAt, child] at hm
        split at hm
        · rename_i c hc
          exact ih k c (Obj.lookup_mem hc) l m hm
        · cases hm

theorem FitDoc.refs {P : Str → Prop} {j : Json} (h : FitDoc P j) : ∀ {L x}, getAt j (L ++ [.key refKey]) = some (.str x) →
    getAt j L = some (refObj x) ∧ P x := by
  induction h with
  | ref hp =>
    rename_i y
    intro L x hx
    cases L with
    | nil =>
      simp [refObj, getAt, child, Obj.lookup] at hx
      subst hx
      exact ⟨rfl, hp⟩
    | cons s L =>
      cases s with
      | idx n => simp [refObj, getAt, child] at hx
      | key k' =>
        simp only [refObj, List.cons_append, getAt, child, Obj.lookup] at hx
        split at hx
        · rename_i c hc
          split at hc
          · cases hc
            rw [getAt_scalar (by rfl) (by simp)] at hx
            cases hx
          · cases hc
        · cases hx
  | leaf h =>
    intro L x hx
    rw [getAt_scalar h (by simp)] at hx
    cases hx
  | arr _ ih =>
    intro L x hx
    cases L with
    | nil => simp [getAt, child] at hx
    | cons s L =>
      cases s with
      | key k => simp [getAt, child] at hx
      | idx n =>
        simp only [List.cons_append, getAt, child] at hx ⊢
        split at hx
        · rename_i c hc
          exact ih c (List.mem_of_getElem? hc) hx
        · cases hx
  | obj hs _ _ hk ih =>
    intro L x hx
    cases L with
    | nil =>
      simp only [List.nil_append, getAt, child] at hx
      split at hx
      · rename_i c hc
        cases hx
        exact absurd (Obj.lookup_mem hc) (hk x)
      · cases hx
    | cons s L =>
      cases s with
      | idx n => simp [getAt, child] at hx
      | key k =>
        simp only [List.cons_append, getAt, child] at hx ⊢
        split at hx
        · rename_i c hc
          exact ih k c (Obj.lookup_mem hc) hx
        · cases hx

end Oapi

namespace Oapi.Scan
open Spec Types

variable {F : Type}

/-- Schemas whose references stand alone and are in `P`, with dot-safe property names and finite numbers. -/
inductive Fit (P : Pointer → Prop) (fin : F → Bool) : Schema F → Prop where
  | ref {p} : P p → Fit P fin (.mk (some p) {} none none [] [])
  | node {a items additional oneOf properties} : (∀ f ∈ attrFloats a, fin f = true) → (∀ s, items = some s → Fit P fin s) →
      (∀ s, additional = some s → Fit P fin s) → (∀ s ∈ oneOf, Fit P fin s) → (∀ k s, (k, s) ∈ properties → DotSafe k) → (∀ k s, (k, s) ∈ properties → Fit P fin s) →
      Fit P fin (.mk none a items additional oneOf properties)

theorem mem_floatsL {l : List (Schema F)} {f : F} : f ∈ floatsL l → ∃ s ∈ l, f ∈ floats s := by
  induction l with
  | nil => intro h; simp [floatsL] at h
  | cons s l ih =>
    intro h
    simp only [floatsL, List.mem_append] at h
    rcases h with h | h
    · exact ⟨s, by simp, h⟩
    · obtain ⟨s', h1, h2⟩ := ih h
      exact ⟨s', by simp [h1], h2⟩

theorem mem_floatsP {l : List (Str × Schema F)} {f : F} : f ∈ floatsP l → ∃ e ∈ l, f ∈ floats e.2 := by
  induction l with
  | nil => intro h; simp [floatsP] at h
  | cons e l ih =>
    intro h
    obtain ⟨k, s⟩ := e
    simp only [floatsP, List.mem_append] at h
    rcases h with h | h
    · exact ⟨(k, s), by simp, h⟩
    · obtain ⟨s', h1, h2⟩ := ih h
      exact ⟨s', by simp [h1], h2⟩

theorem Fit.floats {P : Pointer → Prop} {fin : F → Bool} {s : Schema F} (h : Fit P fin s) : ∀ f ∈ Scan.floats s, fin f = true := by
  induction h with
  | ref _ =>
    intro f hf
    simp [Scan.floats, attrFloats, floatsO, floatsL, floatsP] at hf
  | node ha _ _ _ _ _ h1 h2 h3 h4 =>
    intro f hf
    simp only [Scan.floats, List.mem_append] at hf
    rcases hf with (((hf | hf) | hf) | hf) | hf
    · exact ha f hf
    · rename_i items _ _ _ _ _ _ _ _
      cases items with
      | none => simp [floatsO] at hf
      | some s => exact h1 s rfl f (by simpa [floatsO] using hf)
    · rename_i additional _ _ _ _ _ _ _
      cases additional with
      | none => simp [floatsO] at hf
      | some s => exact h2 s rfl f (by simpa [floatsO] using hf)
    · obtain ⟨s, hs, hf⟩ := mem_floatsL hf
      exact h3 s hs f hf
    · obtain ⟨e, he, hf⟩ := mem_floatsP hf
      exact h4 e.1 e.2 he f hf

theorem present_mem {l : List (Str × Option Json)} {k : Str} {v : Json} : (k, v) ∈ present l → (k, some v) ∈ l := by
  induction l with
  | nil => intro h; cases h
  | cons e l ih =>
    obtain ⟨k', v'⟩ := e
    cases v' with
    | none => intro h; exact List.mem_cons_of_mem _ (ih h)
    | some w =>
      intro h
      simp only [present, List.mem_cons] at h
      rcases h with h | h
      · cases h; simp
      · exact List.mem_cons_of_mem _ (ih h)

theorem present_sorted {l : List (Str × Option Json)} (h : (l.map Prod.fst).Pairwise fun a b => Str.lt a b = true) : Obj.Sorted (present l) := by
  induction l with
  | nil => trivial
  | cons e l ih =>
    obtain ⟨k', v'⟩ := e
    rw [List.map_cons, List.pairwise_cons] at h
    cases v' with
    | none => exact ih h.2
    | some w =>
      refine ⟨?_, ih h.2⟩
      intro k hk
      obtain ⟨v, hv⟩ := (Obj.mem_keys_iff _ _).1 hk
      exact h.1 k (List.mem_map_of_mem (f := Prod.fst) (present_mem (Obj.lookup_mem hv)))

/-- The names of the members. -/
def fieldNames : List Str :=
  [b!"$ref", b!"additionalProperties", b!"deprecated", b!"exclusiveMaximum", b!"exclusiveMinimum", b!"format", b!"items", b!"maxItems",
   b!"maxLength", b!"maxProperties", b!"maximum", b!"minItems", b!"minLength", b!"minProperties", b!"minimum", b!"multipleOf",
   b!"nullable", b!"oneOf", b!"pattern", b!"properties", b!"readOnly", b!"required", b!"type", b!"uniqueItems", b!"writeOnly"]

theorem fieldNames_sorted : fieldNames.Pairwise fun a b => Str.lt a b = true := by decide +kernel
theorem fieldNames_safe : ∀ k ∈ fieldNames, dotSafeB k = true := by decide +kernel

theorem schemaFields_names (enc : Enc F) (ref : Option Pointer) (a : Attrs F) (i d o p : Option Json) :
    (schemaFields enc ref a i d o p).map Prod.fst = fieldNames := rfl

theorem schemaList_mem {enc : Enc F} {l : List (Schema F)} {v : Json} : v ∈ schemaList enc l → ∃ s ∈ l, v = schemaJson enc s := by
  induction l with
  | nil => intro h; simp [schemaList] at h
  | cons s l ih =>
    intro h
    simp only [schemaList, List.mem_cons] at h
    rcases h with rfl | h
    · exact ⟨s, by simp, rfl⟩
    · obtain ⟨s', h1, h2⟩ := ih h
      exact ⟨s', by simp [h1], h2⟩

theorem schemaProps_sorted {enc : Enc F} {l : List (Str × Schema F)} : Obj.Sorted (schemaProps enc l) := by
  induction l with
  | nil => simp [schemaProps, Obj.Sorted]
  | cons e l ih => obtain ⟨k, s⟩ := e; simp only [schemaProps]; exact Obj.insert_sorted _ _ _ ih

theorem schemaProps_mem {enc : Enc F} {l : List (Str × Schema F)} {k : Str} {v : Json} (h : (k, v) ∈ schemaProps enc l) :
    ∃ s, (k, s) ∈ l ∧ v = schemaJson enc s := by
  have h' := Obj.lookup_of_mem (Obj.sorted_nodup schemaProps_sorted) h
  clear h
  induction l with
  | nil => simp [schemaProps, Obj.lookup] at h'
  | cons e l ih =>
    obtain ⟨k', s'⟩ := e
    simp only [schemaProps] at h'
    rw [Obj.lookup_insert] at h'
    split at h'
    · rename_i e; subst e; cases h'; exact ⟨s', by simp, rfl⟩
    · obtain ⟨s, h1, h2⟩ := ih h'
      exact ⟨s, by simp [h1], h2⟩

/-- The alternatives, unless there are none. -/
def oneOfJson (enc : Enc F) : List (Schema F) → Option Json
  | [] => none
  | s :: l => some (.arr (schemaList enc (s :: l)))
/-- The properties, unless there are none. -/
def propsJson (enc : Enc F) : List (Str × Schema F) → Option Json
  | [] => none
  | e :: l => some (.obj (schemaProps enc (e :: l)))

theorem schemaJson_mk (enc : Enc F) (r a i d o p) : schemaJson enc (.mk r a i d o p) =
    .obj (present (schemaFields enc r a (schemaOpt enc i) (schemaOpt enc d) (oneOfJson enc o) (propsJson enc p))) := by
  cases o <;> cases p <;> rfl

theorem schemaJson_obj (enc : Enc F) (s : Schema F) : ∃ m, schemaJson enc s = .obj m := by
  obtain ⟨r, a, i, d, o, p⟩ := s
  rw [schemaJson_mk]
  exact ⟨_, rfl⟩

/-- Numbers are written as numbers. -/
def EncNum (enc : Enc F) : Prop := (∀ f, ∃ n, enc.num f = .num n) ∧ ∀ i, ∃ n, enc.int i = .num n

theorem fit_node {enc : Enc F} (he : EncNum enc) {P : Pointer → Prop} {a : Attrs F} {i d o p : Option Json}
    (hi : ∀ v, i = some v → FitDoc (fun x => ∃ p, P p ∧ x = p.toStr) v) (hd : ∀ v, d = some v → FitDoc (fun x => ∃ p, P p ∧ x = p.toStr) v)
    (ho : ∀ v, o = some v → FitDoc (fun x => ∃ p, P p ∧ x = p.toStr) v) (hp : ∀ v, p = some v → FitDoc (fun x => ∃ p, P p ∧ x = p.toStr) v) :
    FitDoc (fun x => ∃ p, P p ∧ x = p.toStr) (.obj (present (schemaFields enc none a i d o p))) ∧
      ∀ x, (refKey, Json.str x) ∉ present (schemaFields enc none a i d o p) := by
  have hflag : ∀ b v, flag b = some v → FitDoc (fun x => ∃ p, P p ∧ x = p.toStr) v := by
    intro b v h; unfold flag at h; split at h <;> cases h; exact .leaf rfl
  have htext : ∀ b v, text b = some v → FitDoc (fun x => ∃ p, P p ∧ x = p.toStr) v := by
    intro b v h; unfold text at h; split at h <;> cases h; exact .leaf rfl
  have htexts : ∀ b v, texts b = some v → FitDoc (fun x => ∃ p, P p ∧ x = p.toStr) v := by
    intro b v h; unfold texts at h; split at h <;> cases h
    refine .arr ?_
    intro x hx
    rw [List.mem_map] at hx
    obtain ⟨s, _, rfl⟩ := hx
    exact .leaf rfl
  have hnum : ∀ (b : Option F) v, b.map enc.num = some v → FitDoc (fun x => ∃ p, P p ∧ x = p.toStr) v := by
    intro b v h
    cases b with
    | none => cases h
    | some f => cases h; obtain ⟨n, hn⟩ := he.1 f; rw [hn]; exact .leaf rfl
  have hint : ∀ (b : Option Int) v, b.map enc.int = some v → FitDoc (fun x => ∃ p, P p ∧ x = p.toStr) v := by
    intro b v h
    cases b with
    | none => cases h
    | some f => cases h; obtain ⟨n, hn⟩ := he.2 f; rw [hn]; exact .leaf rfl
  have hno : ∀ v, (refKey, some v) ∉ schemaFields enc none a i d o p := by
    intro v hv
    simp only [schemaFields, List.mem_cons, Prod.mk.injEq, Option.map_none, List.not_mem_nil] at hv
    have ne : ∀ k ∈ fieldNames.tail, refKey ≠ k := by decide +kernel
    simp only [fieldNames, List.tail_cons, List.mem_cons, forall_eq_or_imp, List.not_mem_nil, false_implies, implies_true, and_true] at ne
    simp [ne] at hv
  refine ⟨.obj (present_sorted (by rw [schemaFields_names]; exact fieldNames_sorted)) ?_ ?_ fun x hx => hno _ (present_mem hx), fun x hx => hno _ (present_mem hx)⟩
  · intro k v hv
    have hv' := present_mem hv
    refine dotSafeB_sound (fieldNames_safe k ?_)
    rw [← schemaFields_names enc none a i d o p]
    exact List.mem_map_of_mem (f := Prod.fst) hv'
  · intro k v hv
    have hv' := present_mem hv
    simp only [schemaFields, List.mem_cons, Prod.mk.injEq, List.not_mem_nil, or_false] at hv'
    rcases hv' with h|h|h|h|h|h|h|h|h|h|h|h|h|h|h|h|h|h|h|h|h|h|h|h|h <;> obtain ⟨_, h⟩ := h <;>
      first
      | exact hflag _ _ h.symm
      | exact htext _ _ h.symm
      | exact htexts _ _ h.symm
      | exact hnum _ _ h.symm
      | exact hint _ _ h.symm
      | exact hi _ h.symm
      | exact hd _ h.symm
      | exact ho _ h.symm
      | exact hp _ h.symm
      | cases h

theorem fit_opt {enc : Enc F} {Q : Json → Prop} {i : Option (Schema F)} (h : ∀ s, i = some s → Q (schemaJson enc s)) :
    ∀ v, schemaOpt enc i = some v → Q v := by
  intro v hv
  cases i with
  | none => simp [schemaOpt] at hv
  | some s => simp only [schemaOpt, Option.some.injEq] at hv; rw [← hv]; exact h s rfl

theorem Fit.doc {enc : Enc F} (he : EncNum enc) {P : Pointer → Prop} {fin : F → Bool} {s : Schema F} (h : Fit P fin s) :
    FitDoc (fun x => ∃ p, P p ∧ x = p.toStr) (schemaJson enc s) ∧ (s.ref = none → ∀ x, getAt (schemaJson enc s) [.key refKey] ≠ some (.str x)) := by
  induction h with
  | ref hp =>
    rename_i p
    refine ⟨?_, fun h => by cases h⟩
    rw [show schemaJson enc (.mk (some p) {} none none [] []) = refObj p.toStr from rfl]
    exact .ref ⟨_, hp, rfl⟩
  | node _ _ _ _ h5 _ h1 h2 h3 h4 =>
    rename_i a items additional oneOf properties _ _ _ _ _
    have ho : ∀ v, oneOfJson enc oneOf = some v →
        FitDoc (fun x => ∃ p, P p ∧ x = p.toStr) v := by
      intro v hv
      cases oneOf with
      | nil => cases hv
      | cons s l =>
        cases hv
        refine .arr ?_
        intro x hx
        obtain ⟨s', hs', rfl⟩ := schemaList_mem hx
        exact (h3 s' hs').1
    have hp : ∀ v, propsJson enc properties = some v →
        FitDoc (fun x => ∃ p, P p ∧ x = p.toStr) v := by
      intro v hv
      cases properties with
      | nil => cases hv
      | cons s l =>
        cases hv
        refine .obj schemaProps_sorted ?_ ?_ ?_
        · intro k x hx
          obtain ⟨s', hs', rfl⟩ := schemaProps_mem hx
          exact h5 k s' hs'
        · intro k x hx
          obtain ⟨s', hs', rfl⟩ := schemaProps_mem hx
          exact (h4 k s' hs').1
        · intro y hx
          obtain ⟨s', hs', e⟩ := schemaProps_mem hx
          obtain ⟨m, hm⟩ := schemaJson_obj enc s'
          rw [hm] at e; cases e
    have := fit_node (a := a) he (fit_opt (enc := enc) fun s hs => (h1 s hs).1) (fit_opt (enc := enc) fun s hs => (h2 s hs).1) ho hp
    rw [schemaJson_mk]
    refine ⟨this.1, ?_⟩
    intro _ x hx
    simp only [getAt, child] at hx
    split at hx
    · rename_i c hc
      cases hx
      exact this.2 x (Obj.lookup_mem hc)
    · cases hx

end Oapi.Scan
