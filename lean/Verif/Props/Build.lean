import Verif.Proofs.Build

/- C85, C86: the fluent interface of schemas. -/
namespace Oapi.Props

open Oapi.Build Oapi.Spec.Build

variable {N : Type}

/-- **C85** (effect): after a call, every field the call sets reads what the call was given (appending calls: the old list and then the new items). -/
theorem C85_sets {w : World N} {s : Nat} (h : SchOK w s) {op : Op N} {f : Field} {v : Val N} (hs : Sets w s op f v) :
    look (apply w s op) s f = v := apply_sets h hs

/-- **C85** (frame): every field the call does not set reads as before. -/
theorem C85_keeps {w : World N} {s : Nat} (h : SchOK w s) {op : Op N} {f : Field} (hf : ¬ Touches op f)
    (hsa : (f ≠ .oneOf ∧ f ≠ .anyOf) ∨ SelfApart w s) : look (apply w s op) s f = look w s f := apply_keeps h hf hsa

/-- **C85** (chains): in any chain of calls the last call that sets a field determines it. -/
theorem C85_last_call_wins {w : World N} {s : Nat} (h : SchOK w s) (before after : List (Op N)) (op : Op N)
    (hargs : ∀ o ∈ before ++ op :: after, ArgsOK w o) {f : Field} {v : Val N} (hs : Sets (run w s before) s op f v)
    (hafter : ∀ o ∈ after, ¬ Touches o f) : look (run w s (before ++ op :: after)) s f = v := by
  have hb := run_ok before h fun o ho => hargs o (List.mem_append_left _ ho)
  have hop := (hargs op (List.mem_append_right _ (.head _))).grow hb.2
  have hne : f ≠ .oneOf ∧ f ≠ .anyOf := by constructor <;> rintro rfl <;> cases hs
  rw [run_append, run_cons, run_keeps after hafter hne.1 hne.2 (apply_ok hb.1 hop) fun o ho =>
    (hargs o (List.mem_append_right _ (.tail _ ho))).grow (hb.2.trans (apply_grows hb.1 op))]
  exact apply_sets hb.1 hs

/-- **C85** (chains): a field that no call of the chain sets reads as before the chain. -/
theorem C85_chain_keeps {w : World N} {s : Nat} (h : SchOK w s) (ops : List (Op N)) (hargs : ∀ o ∈ ops, ArgsOK w o) {f : Field}
    (hf : ∀ o ∈ ops, ¬ Touches o f) (h1 : f ≠ .oneOf) (h2 : f ≠ .anyOf) : look (run w s ops) s f = look w s f :=
  run_keeps ops hf h1 h2 h hargs

/-- **C85** (chains): the oneOf and anyOf lists, which no call sets, stay, if they are not stored behind the allOf lists used. -/
theorem C85_chain_keeps_oneOf_anyOf {w : World N} {s : Nat} (h : SchOK w s) (hsa : SelfApart w s) (ops : List (Op N))
    (hargs : ∀ o ∈ ops, ArgsOK w o) (hl : ∀ l, .allOf l ∈ ops → ApartSl l (w.schemas s).oneOf ∧ ApartSl l (w.schemas s).anyOf) :
    look (run w s ops) s .oneOf = look w s .oneOf ∧ look (run w s ops) s .anyOf = look w s .anyOf :=
  ⟨run_oneAny ops (.inl rfl) h hsa hargs hl, run_oneAny ops (.inr rfl) h hsa hargs hl⟩

/-- **C85** (appending): a chain of AddRequired calls between which the field is not set otherwise collects all names in order. -/
theorem C85_required_collects {w : World N} {s : Nat} (h : SchOK w s) (old : List Str) (ho : look w s .required = .texts old)
    (ops : List (Op N)) (hargs : ∀ o ∈ ops, ArgsOK w o) 
    (honly : ∀ o ∈ ops, Touches o .required → ∃ xs e, o = .addRequired xs e) :
    look (run w s ops) s .required = .texts (old ++ ops.flatMap addedNames) := by
  induction ops generalizing w old with
  | nil => simpa [run] using ho
  | cons o os ih =>
    have g := apply_grows h o
    have hok := apply_ok h (hargs o (.head _))
    have ha' : ∀ p ∈ os, ArgsOK (apply w s o) p := fun p hp => (hargs p (.tail _ hp)).grow g
    by_cases ht : Touches o .required
    · obtain ⟨xs, e, rfl⟩ := honly o (.head _) ht
      have := ih hok (old ++ xs) (apply_sets h (.addRequired xs e old ho)) ha' fun p hp => honly p (.tail _ hp)
      simpa [run_cons, List.append_assoc, addedNames] using this
    · have := ih hok old ((apply_keeps h ht (.inl ⟨nofun, nofun⟩)).trans ho) ha' fun p hp => honly p (.tail _ hp)
      rw [run_cons, this]
      cases o <;> first | rfl | exact absurd ⟨w, s, _, .addRequired _ _ _ rfl⟩ ht

/-- **C85** (constructors): a new schema has exactly the promised fields, all others are blank; older schemas are unchanged. -/
theorem C85_constructors (w : World N) (ex : Sl) (c : Ctor) :
    (∀ f v, Makes w ex c f v → look (make w ex c).1 (make w ex c).2 f = v) ∧
    (∀ f, (∀ v, ¬ Makes w ex c f v) → look (make w ex c).1 (make w ex c).2 f = blank f) ∧
    (∀ t f, t ≠ (make w ex c).2 → look (make w ex c).1 t f = look w t f) := by
  refine ⟨?_, ?_, ?_⟩
  · intro f v h
    cases h <;> simp only [make, look, upd_same, construct]
  · intro f h
    cases c <;> cases f <;> first
      | (simp only [make, look, upd_same, construct, blank, view, List.take_zero, Option.map_none, Option.getD_none, Option.isSome_none, Option.bind_none]; done)
      | exact absurd (by constructor) (h _)
  · intro t f h
    have h' : t ≠ w.next := h
    cases f <;> simp only [make, look, upd_ne _ _ h']

/-- **C85** (data types): among the constructors that stand for a data type, exactly Int8Property, Int16Property, DateProperty and
DateTimeProperty give a type and format that the OpenAPI specification does not know; the last two miss `date` and `date-time`. -/
theorem C85_data_types (w : World N) (ex : Sl) (c : Ctor) (hc : c ∈ plainCtors) :
    (∃ p ∈ oasDataTypes, look (make w ex c).1 (make w ex c).2 .type = .text p.1 ∧ look (make w ex c).1 (make w ex c).2 .format = .text p.2) ↔
      c ∉ [Ctor.int8, .int16, .date, .dateTime] := by
  have key : ∀ c ∈ plainCtors, (decide (∃ p ∈ oasDataTypes, (construct (N := Unit) {} c).type = p.1 ∧ (construct (N := Unit) {} c).format = p.2)) =
      decide (c ∉ [Ctor.int8, .int16, .date, .dateTime]) := by decide
  have e : (construct (N := N) ex c).type = (construct (N := Unit) {} c).type ∧ (construct (N := N) ex c).format = (construct (N := Unit) {} c).format := by
    cases c <;> exact ⟨rfl, rfl⟩
  have k := decide_eq_decide.1 (key c hc)
  rw [← k]
  simp only [make, look, upd_same, e.1, e.2, Val.text.injEq]

/-! ### C86 -/

/-- **C86**: calls on one schema are not seen through another schema with which it shares neither property map, external documentation,
XML object nor array storage, as long as none of the maps and slices handed over are those of the other schema. -/
theorem C86_independent {w : World N} {s t : Nat} (hs : SchOK w s) (ht : SchOK w t) (ha : Apart w s t) (ops : List (Op N))
    (hops : ∀ o ∈ ops, ArgsOK w o ∧ ArgsApart w t o) (f : Field) : look (run w s ops) t f = look w t f :=
  run_other ops f hs ht ha hops

/-- A new schema is apart from all older ones, whatever the constructor, except through the lists given to AllSchema. -/
theorem C86_new_is_apart {w : World N} {t : Nat} (ht : SchOK w t) (hlt : t < w.next) (ex : Sl) (c : Ctor) (hc : CtorOK w ex c)
    (h0 : w.strs 0 = [] ∧ w.refs 0 = [] ∧ w.bytes 0 = []) (hall : ∀ l, c = .all l → ApartSl l (w.schemas t).allOf ∧ ApartSl l (w.schemas t).oneOf ∧ ApartSl l (w.schemas t).anyOf) :
    SchOK (make w ex c).1 (make w ex c).2 ∧ SchOK (make w ex c).1 t ∧ Apart (make w ex c).1 (make w ex c).2 t := by
  have hne : t ≠ w.next := Nat.ne_of_lt hlt
  have nil {α : Type} {a : Nat → List α} {n : Nat} {l : Sl} (h : a 0 = []) (hl : SlOK a n l) : ApartSl {} l := by
    by_cases e : l.arr = 0
    · right
      have := hl.fits
      rw [e, h] at this
      simpa using this
    · exact .inl (Ne.symm e)
  have okNil {α : Type} (a : Nat → List α) : SlOK a (w.next + 1) {} := ⟨Nat.succ_pos _, Nat.zero_le _⟩
  have g {α : Type} {a : Nat → List α} {l : Sl} (h : SlOK a w.next l) : SlOK a (w.next + 1) l := ⟨Nat.lt_succ_of_lt h.used, h.fits⟩
  refine ⟨?_, ?_, ?_⟩
  · cases c <;> constructor <;> simp only [make, upd_same, construct] <;>
      first | exact okNil _ | exact g hc | nofun
  · constructor <;> simp only [make, upd_ne _ _ hne]
    · exact fun m hm => Nat.lt_succ_of_lt (ht.properties m hm)
    · exact fun m hm => Nat.lt_succ_of_lt (ht.docs m hm)
    · exact fun m hm => Nat.lt_succ_of_lt (ht.xml m hm)
    · exact g ht.allOf
    · exact g ht.oneOf
    · exact g ht.anyOf
    · exact g ht.required
    · exact g ht.default
    · exact g ht.example_
  · refine ⟨Ne.symm hne, ?_, ?_, ?_, ?_, ?_, ?_, ?_⟩ <;> simp only [make, upd_ne _ _ hne, upd_same]
    · cases c <;> nofun
    · cases c <;> nofun
    · cases c <;> nofun
    · cases c <;> exact nil h0.1 ht.required
    · cases c <;> first | exact nil h0.2.1 ht.allOf | exact (hall _ rfl).1
    · cases c <;> first | exact nil h0.2.1 ht.oneOf | exact (hall _ rfl).2.1
    · cases c <;> first | exact nil h0.2.1 ht.anyOf | exact (hall _ rfl).2.2

/-- **C86** (hazard): a property map given to two schemas is one map: a property set on one appears on the other. -/
theorem C86_shared_map (w : World N) (s t m : Nat) (n : Str) (x : Option Nat) :
    look (run w s [.properties (some m), .property n x]) t (.property n) =
      if s = t ∨ (w.schemas t).properties = some m then .entry (some x) else look w t (.property n) := by
  simp only [run, List.foldl_cons, List.foldl_nil, apply, setSch, upd_same]
  by_cases e : s = t
  · subst e
    simp [look]
  · simp only [look, upd_ne _ _ (Ne.symm e), e, false_or]
    cases ep : (w.schemas t).properties with
    | none => simp
    | some m' =>
      by_cases em : m' = m
      · subst em; simp
      · simp [upd_ne _ _ em, em]

/-- **C86** (hazard): two schemas holding the same XML object share the changes. -/
theorem C86_shared_xml (w : World N) (s t m : Nat) (n : Str) (hs : (w.schemas s).xml = some m) (ht : (w.schemas t).xml = some m) :
    look (apply w s (.xmlName n)) t .xmlName = .text n ∧ look (apply w s .asWrappedXML) t .xmlWrapped = .flag true ∧
    look (apply w s .asXMLAttribute) t .xmlAttribute = .flag true := by
  simp [look, apply, setXml, hs, ht]

/-- **C86** (hazard): and the same external documentation object. -/
theorem C86_shared_docs (w : World N) (s t m : Nat) (d u : Str) (hne : ¬ (d = [] ∧ u = [])) (hs : (w.schemas s).docs = some m)
    (ht : (w.schemas t).docs = some m) :
    look (apply w s (.externalDocs d u)) t .docsDescription = .text d ∧ look (apply w s (.externalDocs d u)) t .docsURL = .text u := by
  simp [look, apply, hne, hs, ht]

/-- **C86** (hazard): a list with spare capacity given to two schemas: what AddRequired appends to one is read through the other,
if that was longer. -/
theorem C86_shared_required (w : World N) (s t : Nat) (hne : s ≠ t) (xs : List Str) (extra : Nat)
    (harr : (w.schemas t).required.arr = (w.schemas s).required.arr)
    (hcap : (w.schemas s).required.len + xs.length ≤ (w.strs (w.schemas s).required.arr).length) :
    look (apply w s (.addRequired xs extra)) t .required =
      .texts ((view w.strs (w.schemas s).required ++ xs ++
        (w.strs (w.schemas s).required.arr).drop ((w.schemas s).required.len + xs.length)).take (w.schemas t).required.len) := by
  simp only [look, apply, upd_ne _ _ (Ne.symm hne), append, if_pos hcap]
  simp only [view, harr, upd_same]

/-- What is read through a slice of an array into which `xs` was written behind the first `n` entries. -/
theorem shared_view {α : Type} {a : Nat → List α} {next : Nat} {l b : Sl} {xs : List α} {extra : Nat} {z : α} (harr : b.arr = l.arr)
    (hcap : l.len + xs.length ≤ (a l.arr).length) :
    view (append a next l xs extra z).1 b = (view a l ++ xs ++ (a l.arr).drop (l.len + xs.length)).take b.len := by
  simp only [append, if_pos hcap]
  simp only [view, harr, upd_same]

/-- **C86** (hazard): the same for AddToAllOf, and for any of the three lists of the other schema. -/
theorem C86_shared_allOf (w : World N) (s t : Nat) (hne : s ≠ t) (xs : List (Option Nat)) (extra : Nat)
    (hcap : (w.schemas s).allOf.len + xs.length ≤ (w.refs (w.schemas s).allOf.arr).length) (written : List (Option Nat))
    (hw : written = view w.refs (w.schemas s).allOf ++ xs ++ (w.refs (w.schemas s).allOf.arr).drop ((w.schemas s).allOf.len + xs.length)) :
    ((w.schemas t).allOf.arr = (w.schemas s).allOf.arr →
      look (apply w s (.addToAllOf xs extra)) t .allOf = .schemas (written.take (w.schemas t).allOf.len)) ∧
    ((w.schemas t).oneOf.arr = (w.schemas s).allOf.arr →
      look (apply w s (.addToAllOf xs extra)) t .oneOf = .schemas (written.take (w.schemas t).oneOf.len)) ∧
    ((w.schemas t).anyOf.arr = (w.schemas s).allOf.arr →
      look (apply w s (.addToAllOf xs extra)) t .anyOf = .schemas (written.take (w.schemas t).anyOf.len)) := by
  subst hw
  refine ⟨?_, ?_, ?_⟩ <;> intro harr <;> simp only [look, apply, upd_ne _ _ (Ne.symm hne), shared_view harr hcap]

/-- **C86** (decoding): decoding JSON into a schema gives it that example. -/
theorem C86_decode (w : World N) (s : Nat) (data : List UInt8) (extra : Nat) (hs : SchOK w s) :
    look (decodeExample w s data extra) s .example_ = .raw data := by
  have h : SlOK w.bytes w.next ⟨(w.schemas s).example_.arr, 0⟩ := ⟨hs.example_.used, Nat.zero_le _⟩
  simp only [look, decodeExample, upd_same]
  rw [append_view h]
  simp [view]

/-- **C86** (hazard): decoding an example not longer than the old one's array into a schema made by DateProperty or DateTimeProperty
overwrites the example of every other schema made by them, past and future. -/
theorem C86_decode_overwrites_dates (w : World N) (ex : Sl) (s : Nat) (data : List UInt8) (extra : Nat) (hex : SlOK w.bytes w.next ex)
    (hs : (w.schemas s).example_ = ex) (hfit : data.length ≤ ex.len) :
    (∀ t, t ≠ s → (w.schemas t).example_ = ex →
      look (decodeExample w s data extra) t .example_ = .raw (data ++ (view w.bytes ex).drop data.length)) ∧
    look (make (decodeExample w s data extra) ex .date).1 (make (decodeExample w s data extra) ex .date).2 .example_ =
      .raw (data ++ (view w.bytes ex).drop data.length) := by
  have hf := hex.fits
  have hc : 0 + data.length ≤ (w.bytes ex.arr).length := by omega
  have key : (data ++ (w.bytes ex.arr).drop data.length).take ex.len = data ++ ((w.bytes ex.arr).take ex.len).drop data.length := by
    rw [List.take_append, List.take_of_length_le hfit, List.drop_take]
  constructor
  · intro t hne he
    simp only [look, decodeExample, hs, append, if_pos hc, upd_ne _ _ hne, he]
    simp only [view, upd_same, List.take_zero, List.nil_append, Nat.zero_add]
    rw [key]
  · simp only [make, look, upd_same, construct, decodeExample, hs, append, if_pos hc]
    simp only [view, upd_same, List.take_zero, List.nil_append, Nat.zero_add]
    rw [key]

/-! ### C87 -/

/-- **C87**: a parameter built by a constructor and any chain of calls is required exactly if the constructor was PathParam and
AsOptional was not called; in particular no chain makes a query, header or cookie parameter required. -/
theorem C87_required (c : PCtor) (n : Str) (x : Option Nat) (ops : List POp) :
    (runParam (newParam c n x) ops).required = true ↔ c = .path ∧ .asOptional ∉ ops := by
  have gen : ∀ (ops : List POp) (p : Param), (runParam p ops).required = true ↔ p.required = true ∧ .asOptional ∉ ops := by
    intro ops
    induction ops with
    | nil => intro p; simp [runParam]
    | cons o os ih =>
      intro p
      change (runParam (applyParam p o) os).required = true ↔ _
      rw [ih]
      cases o <;> simp [applyParam]
  rw [gen]
  cases c <;> simp [newParam]

/-- **C87**: name, location and schema are those of the last WithName, WithLocation and WithSchema call, else those given to the
constructor; the description is that of the last WithDescription, else empty; empty values are allowed if the last call about them allows them. -/
theorem C87_last_call_wins (c : PCtor) (n : Str) (x : Option Nat) (ops : List POp) :
    let p := runParam (newParam c n x) ops
    p.name = (lastOf saysName ops).getD n ∧
    p.loc = (lastOf saysLocation ops).getD (location c) ∧
    p.schema = (lastOf saysSchema ops).getD x ∧
    p.description = (lastOf saysDescription ops).getD [] ∧
    p.allowEmptyValue = (lastOf saysEmpty ops).getD false := by
  have gen : ∀ (ops : List POp) (p : Param),
      (runParam p ops).name = (lastOf saysName ops).getD p.name ∧
      (runParam p ops).loc = (lastOf saysLocation ops).getD p.loc ∧
      (runParam p ops).schema = (lastOf saysSchema ops).getD p.schema ∧
      (runParam p ops).description = (lastOf saysDescription ops).getD p.description ∧
      (runParam p ops).allowEmptyValue =
        (lastOf saysEmpty ops).getD p.allowEmptyValue := by
    intro ops
    induction ops with
    | nil => intro p; exact ⟨rfl, rfl, rfl, rfl, rfl⟩
    | cons o os ih =>
      intro p
      have := ih (applyParam p o)
      have e {α : Type} (g : POp → Option α) (d : α) : (lastOf g (o :: os)).getD d = (lastOf g os).getD ((g o).getD d) := by
        simp only [lastOf, List.filterMap_cons]
        cases g o with
        | none => rfl
        | some v =>
          rw [List.getLast?_cons]
          simp
      simp only [e]
      refine ⟨?_, ?_, ?_, ?_, ?_⟩
      · refine this.1.trans ?_
        cases o <;> rfl
      · refine this.2.1.trans ?_
        cases o <;> rfl
      · refine this.2.2.1.trans ?_
        cases o <;> rfl
      · refine this.2.2.2.1.trans ?_
        cases o <;> rfl
      · refine this.2.2.2.2.trans ?_
        cases o <;> rfl
  have := gen ops (newParam c n x)
  cases c <;> exact this

end Oapi.Props
