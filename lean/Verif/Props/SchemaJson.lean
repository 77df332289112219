import Verif.Proofs.Det8

/-! C74: schemas as JSON documents. -/
namespace Oapi.Props
open Spec Types Scan

variable {F : Type}

theorem lookup_present {l : List (Str × Option Json)} (h : (l.map Prod.fst).Nodup) (k : Str) : Obj.lookup k (present l) = (l.lookup k).join := by
  induction l with
  | nil => rfl
  | cons e l ih =>
    obtain ⟨a, v⟩ := e
    rw [List.map_cons, List.nodup_cons] at h
    rw [List.lookup_cons]
    by_cases hk : k = a
    · subst hk
      rw [show (k == k) = true from beq_self_eq_true k]
      cases v with
      | none =>
        simp only [present]
        rw [ih h.2]
        have : l.lookup k = none := by
          rw [List.lookup_eq_none_iff]
          intro p hp
          have : k ≠ p.1 := by
            rintro rfl
            exact h.1 (List.mem_map.2 ⟨p, hp, rfl⟩)
          simp [this]
        rw [this]; rfl
      | some v => simp [present, Obj.lookup]
    · have hb : (k == a) = false := by simpa using hk
      rw [hb]
      cases v with
      | none => simp only [present]; exact ih h.2
      | some v => simp only [present, Obj.lookup, if_neg hk]; exact ih h.2

theorem schemaList_map (enc : Enc F) (l : List (Schema F)) : schemaList enc l = l.map (schemaJson enc) := by
  induction l with
  | nil => rfl
  | cons s l ih => simp only [schemaList, ih, List.map_cons]

theorem lookup_schemaProps (enc : Enc F) (l : List (Str × Schema F)) (k : Str) :
    Obj.lookup k (schemaProps enc l) = (l.lookup k).map (schemaJson enc) := by
  induction l with
  | nil => rfl
  | cons e l ih =>
    obtain ⟨a, s⟩ := e
    simp only [schemaProps]
    rw [Obj.lookup_insert, List.lookup_cons]
    by_cases hk : k = a
    · subst hk; simp
    · rw [if_neg hk, show (k == a) = false by simpa using hk]
      exact ih

/-- C74: a schema is written as an object whose members are these and no others: flags that are set, texts and lists that are not empty, and
whatever else is there. -/
theorem C74_members (enc : Enc F) (s : Schema F) : ∃ m, schemaJson enc s = .obj m ∧
    Obj.lookup b!"$ref" m = s.ref.map (fun p => .str p.toStr) ∧
    Obj.lookup b!"type" m = (if s.attrs.type = [] then none else some (.str s.attrs.type)) ∧
    Obj.lookup b!"format" m = (if s.attrs.format = [] then none else some (.str s.attrs.format)) ∧
    Obj.lookup b!"pattern" m = (if s.attrs.pattern = [] then none else some (.str s.attrs.pattern)) ∧
    Obj.lookup b!"nullable" m = (if s.attrs.nullable then some (.bool true) else none) ∧
    Obj.lookup b!"readOnly" m = (if s.attrs.readOnly then some (.bool true) else none) ∧
    Obj.lookup b!"writeOnly" m = (if s.attrs.writeOnly then some (.bool true) else none) ∧
    Obj.lookup b!"deprecated" m = (if s.attrs.deprecated then some (.bool true) else none) ∧
    Obj.lookup b!"exclusiveMinimum" m = (if s.attrs.exclusiveMinimum then some (.bool true) else none) ∧
    Obj.lookup b!"exclusiveMaximum" m = (if s.attrs.exclusiveMaximum then some (.bool true) else none) ∧
    Obj.lookup b!"uniqueItems" m = (if s.attrs.uniqueItems then some (.bool true) else none) ∧
    Obj.lookup b!"minimum" m = s.attrs.minimum.map enc.num ∧
    Obj.lookup b!"maximum" m = s.attrs.maximum.map enc.num ∧
    Obj.lookup b!"multipleOf" m = s.attrs.multipleOf.map enc.num ∧
    Obj.lookup b!"minLength" m = s.attrs.minLength.map enc.int ∧
    Obj.lookup b!"maxLength" m = s.attrs.maxLength.map enc.int ∧
    Obj.lookup b!"minItems" m = s.attrs.minItems.map enc.int ∧
    Obj.lookup b!"maxItems" m = s.attrs.maxItems.map enc.int ∧
    Obj.lookup b!"minProperties" m = s.attrs.minProperties.map enc.int ∧
    Obj.lookup b!"maxProperties" m = s.attrs.maxProperties.map enc.int ∧
    Obj.lookup b!"required" m = (if s.attrs.required = [] then none else some (.arr (s.attrs.required.map .str))) ∧
    Obj.lookup b!"items" m = s.items.map (schemaJson enc) ∧
    Obj.lookup b!"additionalProperties" m = s.additional.map (schemaJson enc) ∧
    Obj.lookup b!"oneOf" m = (if s.oneOf = [] then none else some (.arr (s.oneOf.map (schemaJson enc)))) ∧
    (s.properties = [] → Obj.lookup b!"properties" m = none) ∧
    (s.properties ≠ [] → ∃ ps, Obj.lookup b!"properties" m = some (.obj ps) ∧ Obj.Sorted ps ∧
      ∀ k, Obj.lookup k ps = (s.properties.lookup k).map (schemaJson enc)) ∧
    Obj.Sorted m ∧ Obj.keys m ⊆ [b!"$ref", b!"type", b!"format", b!"pattern", b!"nullable", b!"readOnly", b!"writeOnly", b!"deprecated",
      b!"exclusiveMinimum", b!"exclusiveMaximum", b!"uniqueItems", b!"minimum", b!"maximum", b!"multipleOf", b!"minLength", b!"maxLength",
      b!"minItems", b!"maxItems", b!"minProperties", b!"maxProperties", b!"required", b!"items", b!"additionalProperties", b!"oneOf",
      b!"properties"] := by
  obtain ⟨r, a, i, d, o, p⟩ := s
  refine ⟨_, schemaJson_mk enc r a i d o p, ?_⟩
  have hn : (schemaFields enc r a (schemaOpt enc i) (schemaOpt enc d) (oneOfJson enc o) (propsJson enc p)).map Prod.fst = fieldNames := rfl
  have hnd : ((schemaFields enc r a (schemaOpt enc i) (schemaOpt enc d) (oneOfJson enc o) (propsJson enc p)).map Prod.fst).Nodup := by
    rw [hn]; decide
  have hopt : ∀ x : Option (Schema F), schemaOpt enc x = x.map (schemaJson enc) := by intro x; cases x <;> rfl
  simp only [lookup_present hnd]
  refine ⟨rfl, rfl, rfl, rfl, rfl, rfl, rfl, rfl, rfl, rfl, rfl, rfl, rfl, rfl, rfl, rfl, rfl, rfl, rfl, rfl, rfl, ?_, ?_, ?_, ?_, ?_, ?_, ?_⟩
  · exact hopt i
  · exact hopt d
  · change oneOfJson enc o = _
    cases o with
    | nil => rfl
    | cons s l => rw [oneOfJson, schemaList_map]; exact (if_neg (List.cons_ne_nil s l)).symm
  · intro h
    change p = [] at h
    subst h
    rfl
  · intro h
    change p ≠ [] at h
    cases p with
    | nil => exact absurd rfl h
    | cons e l => exact ⟨_, rfl, schemaProps_sorted, lookup_schemaProps enc _⟩
  · exact present_sorted (by rw [hn]; exact fieldNames_sorted)
  · intro k hk
    obtain ⟨v, hv⟩ := (Obj.mem_keys_iff _ _).1 hk
    have := present_mem (Obj.lookup_mem hv)
    have : k ∈ fieldNames := by rw [← hn]; exact List.mem_map.2 ⟨_, this, rfl⟩
    revert this
    simp only [fieldNames, List.mem_cons, List.not_mem_nil, or_false]
    intro h
    rcases h with h | h | h | h | h | h | h | h | h | h | h | h | h | h | h | h | h | h | h | h | h | h | h | h | h <;> simp [h]

theorem flag_inj {a b : Bool} (h : flag a = flag b) : a = b := by
  cases a <;> cases b <;> simp_all [flag]
theorem text_inj {a b : Str} (h : text a = text b) : a = b := by
  unfold text at h
  split at h <;> split at h <;> simp_all
theorem map_str_inj : ∀ {a b : List Str}, a.map Json.str = b.map Json.str → a = b
  | [], [], _ => rfl
  | [], _ :: _, h => by cases h
  | _ :: _, [], h => by cases h
  | x :: a, y :: b, h => by
    simp only [List.map_cons, List.cons.injEq, Json.str.injEq] at h
    rw [h.1, map_str_inj h.2]
theorem texts_inj {a b : List Str} (h : texts a = texts b) : a = b := by
  unfold texts at h
  split at h <;> split at h
  · simp_all
  · cases h
  · cases h
  · simp only [Option.some.injEq, Json.arr.injEq] at h
    exact map_str_inj h
theorem omap_inj {α β : Type} {f : α → β} (hf : ∀ x y, f x = f y → x = y) {a b : Option α} (h : a.map f = b.map f) : a = b := by
  cases a <;> cases b <;> simp_all
  exact hf _ _ h

/-- C74: nothing is lost: schemas with the same JSON have the same flags, texts, bounds and lists, references of the same text, and their
items, additional properties, alternatives and properties of each name have the same JSON. -/
theorem C74_lossless {enc : Enc F} (hnum : ∀ x y, enc.num x = enc.num y → x = y) (hint : ∀ x y, enc.int x = enc.int y → x = y) {s s' : Schema F}
    (h : schemaJson enc s = schemaJson enc s') :
    s.attrs = s'.attrs ∧ s.ref.map Pointer.toStr = s'.ref.map Pointer.toStr ∧ s.items.map (schemaJson enc) = s'.items.map (schemaJson enc) ∧
    s.additional.map (schemaJson enc) = s'.additional.map (schemaJson enc) ∧ s.oneOf.map (schemaJson enc) = s'.oneOf.map (schemaJson enc) ∧
    ∀ k, (s.properties.lookup k).map (schemaJson enc) = (s'.properties.lookup k).map (schemaJson enc) := by
  obtain ⟨m, e0, e1, e2, e3, e4, e5, e6, e7, e8, e9, e10, e11, e12, e13, e14, e15, e16, e17, e18, e19, e20, e21, e22, e23, e24, e25, e26, _⟩ := C74_members enc s
  obtain ⟨m', f0, f1, f2, f3, f4, f5, f6, f7, f8, f9, f10, f11, f12, f13, f14, f15, f16, f17, f18, f19, f20, f21, f22, f23, f24, f25, f26, _⟩ :=
    C74_members enc s'
  rw [e0, f0] at h
  cases h
  have hattrs : s.attrs = s'.attrs := by
    have g1 := text_inj (e2.symm.trans f2)
    have g2 := text_inj (e3.symm.trans f3)
    have g3 := text_inj (e4.symm.trans f4)
    have g4 := flag_inj (e5.symm.trans f5)
    have g5 := flag_inj (e6.symm.trans f6)
    have g6 := flag_inj (e7.symm.trans f7)
    have g7 := flag_inj (e8.symm.trans f8)
    have g8 := flag_inj (e9.symm.trans f9)
    have g9 := flag_inj (e10.symm.trans f10)
    have g10 := flag_inj (e11.symm.trans f11)
    have g11 := omap_inj hnum (e12.symm.trans f12)
    have g12 := omap_inj hnum (e13.symm.trans f13)
    have g13 := omap_inj hnum (e14.symm.trans f14)
    have g14 := omap_inj hint (e15.symm.trans f15)
    have g15 := omap_inj hint (e16.symm.trans f16)
    have g16 := omap_inj hint (e17.symm.trans f17)
    have g17 := omap_inj hint (e18.symm.trans f18)
    have g18 := omap_inj hint (e19.symm.trans f19)
    have g19 := omap_inj hint (e20.symm.trans f20)
    have g20 := texts_inj (e21.symm.trans f21)
    obtain ⟨_, a, _, _, _, _⟩ := s
    obtain ⟨_, a', _, _, _, _⟩ := s'
    simp only [Schema.attrs] at *
    cases a; cases a'
    simp only at *
    subst g1 g2 g3 g4 g5 g6 g7 g8 g9 g10 g11 g12 g13 g14 g15 g16 g17 g18 g19 g20
    rfl
  refine ⟨hattrs, ?_, e22.symm.trans f22, e23.symm.trans f23, ?_, ?_⟩
  · have := e1.symm.trans f1
    cases hs : s.ref <;> cases hs' : s'.ref <;> rw [hs, hs'] at this <;> simp_all
  · have := e24.symm.trans f24
    split at this <;> split at this
    · simp_all
    · cases this
    · cases this
    · simpa using this
  · intro k
    by_cases h1 : s.properties = []
    · have a1 := e25 h1
      by_cases h2 : s'.properties = []
      · rw [h1, h2]
      · obtain ⟨ps, a2, _⟩ := f26 h2
        rw [a1] at a2; cases a2
    · obtain ⟨ps, a1, _, a2⟩ := e26 h1
      by_cases h2 : s'.properties = []
      · have := f25 h2
        rw [a1] at this; cases this
      · obtain ⟨ps', b1, _, b2⟩ := f26 h2
        rw [a1] at b1
        cases b1
        exact (a2 k).symm.trans (b2 k)

/-- A number written in a schema, as a bound or a multiple, at any depth. -/
inductive NumIn : Schema F → F → Prop
  | minimum {s f} : s.attrs.minimum = some f → NumIn s f
  | maximum {s f} : s.attrs.maximum = some f → NumIn s f
  | multipleOf {s f} : s.attrs.multipleOf = some f → NumIn s f
  | items {s s' f} : s.items = some s' → NumIn s' f → NumIn s f
  | additional {s s' f} : s.additional = some s' → NumIn s' f → NumIn s f
  | oneOf {s s' f} : s' ∈ s.oneOf → NumIn s' f → NumIn s f
  | property {s s' k f} : (k, s') ∈ s.properties → NumIn s' f → NumIn s f

theorem mem_attrFloats {a : Attrs F} {f : F} : f ∈ attrFloats a ↔ a.multipleOf = some f ∨ a.maximum = some f ∨ a.minimum = some f := by
  simp [attrFloats]

theorem mem_floatsL_iff {l : List (Schema F)} {f : F} : f ∈ floatsL l ↔ ∃ s ∈ l, f ∈ floats s := by
  refine ⟨mem_floatsL, ?_⟩
  rintro ⟨s, hs, hf⟩
  induction l with
  | nil => cases hs
  | cons a l ih =>
    simp only [floatsL, List.mem_append]
    rw [List.mem_cons] at hs
    rcases hs with rfl | hs
    · exact .inl hf
    · exact .inr (ih hs)
theorem mem_floatsP_iff {l : List (Str × Schema F)} {f : F} : f ∈ floatsP l ↔ ∃ e ∈ l, f ∈ floats e.2 := by
  refine ⟨mem_floatsP, ?_⟩
  rintro ⟨s, hs, hf⟩
  induction l with
  | nil => cases hs
  | cons a l ih =>
    simp only [floatsP, List.mem_append]
    rw [List.mem_cons] at hs
    rcases hs with rfl | hs
    · exact .inl hf
    · exact .inr (ih hs)

theorem mem_floats_mk {r a i d o p} {f : F} : f ∈ floats (.mk r a i d o p) ↔
    f ∈ attrFloats a ∨ (∃ s, i = some s ∧ f ∈ floats s) ∨ (∃ s, d = some s ∧ f ∈ floats s) ∨ (∃ s ∈ o, f ∈ floats s) ∨ ∃ e ∈ p, f ∈ floats e.2 := by
  have ho : ∀ x : Option (Schema F), f ∈ floatsO x ↔ ∃ s, x = some s ∧ f ∈ floats s := by
    intro x; cases x <;> simp [floatsO]
  simp only [floats, List.mem_append, mem_floatsL_iff, mem_floatsP_iff, ho, or_assoc]

theorem numIn_floats {s : Schema F} {f : F} (h : NumIn s f) : f ∈ floats s := by
  induction h with
  | @minimum s f h => obtain ⟨r, a, i, d, o, p⟩ := s; exact mem_floats_mk.2 (.inl (mem_attrFloats.2 (.inr (.inr h))))
  | @maximum s f h => obtain ⟨r, a, i, d, o, p⟩ := s; exact mem_floats_mk.2 (.inl (mem_attrFloats.2 (.inr (.inl h))))
  | @multipleOf s f h => obtain ⟨r, a, i, d, o, p⟩ := s; exact mem_floats_mk.2 (.inl (mem_attrFloats.2 (.inl h)))
  | @items s _ f h _ ih => obtain ⟨r, a, i, d, o, p⟩ := s; exact mem_floats_mk.2 (.inr (.inl ⟨_, h, ih⟩))
  | @additional s _ f h _ ih => obtain ⟨r, a, i, d, o, p⟩ := s; exact mem_floats_mk.2 (.inr (.inr (.inl ⟨_, h, ih⟩)))
  | @oneOf s _ f h _ ih => obtain ⟨r, a, i, d, o, p⟩ := s; exact mem_floats_mk.2 (.inr (.inr (.inr (.inl ⟨_, h, ih⟩))))
  | @property s _ k f h _ ih => obtain ⟨r, a, i, d, o, p⟩ := s; exact mem_floats_mk.2 (.inr (.inr (.inr (.inr ⟨_, h, ih⟩))))

theorem floats_numIn {f : F} : ∀ (n : Nat) (s : Schema F), sizeOf s ≤ n → f ∈ floats s → NumIn s f := by
  intro n
  induction n with
  | zero => intro s hs; cases s; simp at hs
  | succ n ih =>
    rintro ⟨r, a, i, d, o, p⟩ hs h
    simp only [Schema.mk.sizeOf_spec] at hs
    have h' := mem_floats_mk.1 h
    clear h
    rcases h' with h | ⟨s, e, h⟩ | ⟨s, e, h⟩ | ⟨s, e, h⟩ | ⟨e, he, h⟩
    · rcases mem_attrFloats.1 h with h | h | h
      · exact .multipleOf h
      · exact .maximum h
      · exact .minimum h
    · subst e
      exact .items rfl (ih s (by simp only [Option.some.sizeOf_spec] at hs; omega) h)
    · subst e
      exact .additional rfl (ih s (by simp only [Option.some.sizeOf_spec] at hs; omega) h)
    · exact .oneOf e (ih s (by have := List.sizeOf_lt_of_mem e; omega) h)
    · obtain ⟨k, s⟩ := e
      refine .property he (ih s ?_ h)
      have := List.sizeOf_lt_of_mem he
      simp only [Prod.mk.sizeOf_spec] at this
      omega

/-- C74: writing a schema fails exactly if one of its numbers cannot be written (NaN or an infinity), and then for no other reason. -/
theorem C74_fails_iff (enc : Enc F) (s : Schema F) :
    (make enc s = .err .decode ↔ ∃ f, NumIn s f ∧ enc.finite f = false) ∧ (make enc s = .ok (schemaJson enc s) ↔ ∀ f, NumIn s f → enc.finite f = true) := by
  unfold make
  by_cases h : (floats s).all enc.finite = true
  · rw [if_pos h]
    rw [List.all_eq_true] at h
    refine ⟨⟨(fun h => by cases h), ?_⟩, ⟨fun _ f hf => h f (numIn_floats hf), fun _ => rfl⟩⟩
    rintro ⟨f, hf, hb⟩
    rw [h f (numIn_floats hf)] at hb
    cases hb
  · rw [if_neg h]
    rw [List.all_eq_true] at h
    have : ∃ f, f ∈ floats s ∧ enc.finite f = false := by
      apply Classical.byContradiction
      intro hn
      apply h
      intro f hf
      cases hb : enc.finite f with
      | true => rfl
      | false => exact absurd ⟨f, hf, hb⟩ hn
    obtain ⟨f, hf, hb⟩ := this
    refine ⟨⟨fun _ => ⟨f, floats_numIn _ s (Nat.le_refl _) hf, hb⟩, fun _ => rfl⟩, ⟨(fun h => by cases h), ?_⟩⟩
    intro h
    rw [h f (floats_numIn _ s (Nat.le_refl _) hf)] at hb
    cases hb

/-- A schema with a property, bounds and a flag. -/
example : let enc : Enc Int := ⟨.num, .num, fun n => n != 99⟩
    let s : Schema Int := .mk none { type := b!"object", required := [b!"n"] } none none [] [(b!"n", .plain { type := b!"integer", minimum := some 3, nullable := true })]
    make enc s = .ok (.obj [(b!"properties", .obj [(b!"n", .obj [(b!"minimum", .num 3), (b!"nullable", .bool true), (b!"type", .str b!"integer")])]),
      (b!"required", .arr [.str b!"n"]), (b!"type", .str b!"object")]) := by decide +kernel
example : let enc : Enc Int := ⟨.num, .num, fun n => n != 99⟩
    make enc (.mk none {} (some (.plain { maximum := some 99 })) none [] []) = .err .decode := by decide +kernel

end Oapi.Props
