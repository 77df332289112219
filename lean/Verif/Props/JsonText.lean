import Verif.Proofs.JsonFormat
import Verif.Props.Format

/-! C93–C97: the JSON texts the tool writes and reads. -/
namespace Oapi.Props
open Spec Spec.JsonText
open Spec.PtrJson (JsonString Quotable)
open JsonText (Env Marshals MarshalsIndent enc unmarshal unmarshalMap clone)

variable {env : Env} {m : Obj} {w : Str}

/-! ### C93 -/

/-- The number can be written. -/
def CanWrite (env : Env) (n : Int) : Prop := (env.numText n).isSome = true

theorem indent_some (hT : ∀ n t, env.numText n = some t → Number t) {d : Json} (hw : Json.WF d) {q : Option Str} (h : Marshals env d q) :
    (q.bind JsonText.indent).isSome ↔ q.isSome := by
  cases q with
  | none => simp
  | some w =>
    have hm := JsonText.marshals_means (N := JsonText.AnyNumber) (S := JsonText.AnyString) (P := fun _ => True) hT (fun _ _ h => h)
      (fun s _ => JsonText.encString_key env.short s) (fun k hk => ⟨_, JsonText.quote_json hk⟩) (fun _ _ h => JsonText.any_compact h) hw (JsonText.allTexts_true _) h
    obtain ⟨v, h1, _⟩ := JsonText.indent_value (fun _ _ h => h) (fun _ _ h => JsonText.any_key h) hm
    simp [h1]

/-- **C93** (success): a document is written as JSON, compact or indented, whatever order its members are sorted in, exactly if all its numbers
can be written and its top-level keys are Unicode without control characters other than `\b \f \n \r \t`, without DEL and without unprintable
characters outside the basic plane. -/
theorem C93_ok (hT : ∀ n t, env.numText n = some t → Number t) (hw : Json.WF (.obj m)) :
    (∀ r, Marshals env (.obj m) r → (r.isSome ↔ AllNumbers (CanWrite env) (.obj m) ∧ ∀ k ∈ Obj.keys m, Quotable env.prn k)) ∧
    (∀ r, MarshalsIndent env (.obj m) r → (r.isSome ↔ AllNumbers (CanWrite env) (.obj m) ∧ ∀ k ∈ Obj.keys m, Quotable env.prn k)) := by
  refine ⟨fun r h => JsonText.marshals_some hT hw h, ?_⟩
  rintro r ⟨q, h, rfl⟩
  rw [indent_some hT hw h]
  exact JsonText.marshals_some hT hw h

/-- **C93** (success, other documents): documents that are no objects, exactly if their numbers can be written. -/
theorem C93_ok_other (hT : ∀ n t, env.numText n = some t → Number t) {d : Json} (hw : Json.WF d) (hd : ∀ m, d ≠ .obj m) :
    (∀ r, Marshals env d r → (r.isSome ↔ AllNumbers (CanWrite env) d)) ∧ (∀ r, MarshalsIndent env d r → (r.isSome ↔ AllNumbers (CanWrite env) d)) := by
  have h1 : ∀ r, Marshals env d r → (r.isSome ↔ AllNumbers (CanWrite env) d) := by
    intro r h
    have : r = enc env d := by
      cases d with
      | obj m => exact absurd rfl (hd m)
      | _ => exact h
    rw [this]
    exact JsonText.enc_some env d
  refine ⟨h1, ?_⟩
  rintro r ⟨q, h, rfl⟩
  rw [indent_some hT hw h]
  exact h1 q h

theorem written_means {value : Str → Option Int} (hV : ∀ n t, env.numText n = some t → NumberText value t n) {d : Json} (hw : Json.WF d)
    (hu : AllTexts Unicode d) :
    (Marshals env d (some w) → Means (NumberText value) JsonString (.value d) w) ∧
    (MarshalsIndent env d (some w) → Means (NumberText value) JsonString (.value d) w) := by
  have h1 : ∀ w, Marshals env d (some w) → Means (NumberText value) JsonString (.value d) w := fun w h =>
    JsonText.marshals_means hV (fun _ _ h => h.1) (fun s hs => JsonText.encString_means env.short hs) (fun k hk => JsonText.quote_json hk)
      (fun _ _ h => JsonText.compact_key h) hw hu h
  refine ⟨h1 w, ?_⟩
  rintro ⟨q, h, e⟩
  cases q with
  | none => cases e
  | some v =>
    obtain ⟨v', h2, h3⟩ := JsonText.indent_value (fun _ _ h => h.1) (fun _ _ h => JsonText.key_json h) (h1 v h)
    rw [Option.bind_some, h2] at e
    cases e
    exact h3

/-- **C93** (meaning): what is written is a JSON text that means the document, if the texts of the document are Unicode and number texts mean
their numbers. -/
theorem C93_text {value : Str → Option Int} (hV : ∀ n t, env.numText n = some t → NumberText value t n) {d : Json} (hw : Json.WF d)
    (hu : AllTexts Unicode d) :
    (Marshals env d (some w) → JsonText value w d) ∧ (MarshalsIndent env d (some w) → JsonText value w d) :=
  ⟨fun h => JsonText.means_doc ((written_means hV hw hu).1 h), fun h => JsonText.means_doc ((written_means hV hw hu).2 h)⟩

/-- **C93** (always JSON): what is written is a JSON text in any case. -/
theorem C93_always_json (hT : ∀ n t, env.numText n = some t → Number t) {d : Json} (hw : Json.WF d) :
    (Marshals env d (some w) → ∃ d', Doc (fun t _ => Number t) JsonString w d') ∧
    (MarshalsIndent env d (some w) → ∃ d', Doc (fun t _ => Number t) JsonString w d') := by
  have h1 : ∀ w, Marshals env d (some w) → Means (fun t _ => Number t) JsonText.AnyString (.value d) w := fun w h =>
    JsonText.marshals_means (P := fun _ => True) hT (fun _ _ h => h)
      (fun s _ => JsonText.encString_key env.short s) (fun k hk => ⟨_, JsonText.quote_json hk⟩) (fun _ _ h => JsonText.any_compact h) hw (JsonText.allTexts_true _) h
  have h2 : ∀ w, Means (fun t _ => Number t) JsonText.AnyString (.value d) w → ∃ d', Doc (fun t _ => Number t) JsonString w d' := by
    intro w h
    obtain ⟨y, h, h2, _⟩ := JsonText.any_means (S' := JsonString) (fun _ _ h => h) h
    obtain ⟨j', rfl⟩ := h2 _ rfl
    exact ⟨_, JsonText.means_doc h⟩
  refine ⟨fun h => h2 w (h1 w h), ?_⟩
  rintro ⟨q, h, e⟩
  cases q with
  | none => cases e
  | some v =>
    obtain ⟨v', h3, h4⟩ := JsonText.indent_value (fun _ _ h => h) (fun _ _ h => JsonText.any_key h) (h1 v h)
    rw [Option.bind_some, h3] at e
    cases e
    exact h2 w h4

/-- **C93** (total): there always is an outcome. -/
theorem C93_outcome (env : Env) (d : Json) : (∃ r, Marshals env d r) ∧ ∃ r, MarshalsIndent env d r := by
  obtain ⟨r, h⟩ := JsonText.marshals_exists env d
  exact ⟨⟨r, h⟩, _, r, h, rfl⟩

/-- **C55** (for the real encoding): a document that can be written and has two or more members outside the well-known ones is written as
different texts in different runs. -/
theorem C55_json_differs (hT : ∀ n t, env.numText n = some t → Number t) (hw : Json.WF (.obj m)) (hn : AllNumbers (CanWrite env) (.obj m))
    (hk : ∀ k ∈ Obj.keys m, Quotable env.prn k) (ho : 2 ≤ (others m).length) :
    ∃ w₁ w₂, Marshals env (.obj m) (some w₁) ∧ Marshals env (.obj m) (some w₂) ∧ w₁ ≠ w₂ := by
  obtain ⟨o₁, o₂, h₁, h₂, k, l, hk1, hl1, hne⟩ := C55_nondeterministic (m := m) (Obj.sorted_nodup hw.1) ho
  have hr1 := (C93_ok hT hw).1 _ ⟨o₁, h₁, rfl⟩
  have hr2 := (C93_ok hT hw).1 _ ⟨o₂, h₂, rfl⟩
  obtain ⟨w₁, e₁⟩ := Option.isSome_iff_exists.1 (hr1.2 ⟨hn, hk⟩)
  obtain ⟨w₂, e₂⟩ := Option.isSome_iff_exists.1 (hr2.2 ⟨hn, hk⟩)
  have hmem : ∀ {o : List Format.Item} {k : Str}, Format.Members Format.order m o → (o.map Format.Item.key).head? = some k → Quotable env.prn k := by
    intro o k ho hk'
    obtain ⟨i, hi, rfl⟩ := List.mem_map.1 (List.mem_of_head? hk')
    exact hk _ (List.mem_map.2 ⟨_, JsonText.mem_items ho i hi, rfl⟩)
  obtain ⟨a, x, ha, ea⟩ := JsonText.marshals_first hk1 (hmem h₁ hk1) e₁
  obtain ⟨b, y, hb, eb⟩ := JsonText.marshals_first hl1 (hmem h₂ hl1) e₂
  refine ⟨w₁, w₂, ⟨o₁, h₁, e₁.symm⟩, ⟨o₂, h₂, e₂.symm⟩, ?_⟩
  intro e
  rw [ea, eb] at e
  injection e with _ e
  injection e with _ e
  exact hne (JsonText.literal_inj ha hb e)

/-- **C55** (for the real encoding): with at most one such member all runs write the same. -/
theorem C55_json_same (hw : Json.WF (.obj m)) (ho : (others m).length ≤ 1) {r₁ r₂ : Option Str} (h₁ : Marshals env (.obj m) r₁)
    (h₂ : Marshals env (.obj m) r₂) : r₁ = r₂ := by
  obtain ⟨o₁, h₁, rfl⟩ := h₁
  obtain ⟨o₂, h₂, rfl⟩ := h₂
  rw [C55_deterministic (Obj.sorted_nodup hw.1) ho h₁ h₂]

/-! ### C94 -/

variable {numOf : Str → Option Int} {t : Str}

/-- **C94** (exactly): a file is read as a document exactly if its text means that object, or means null and the document is empty; literals with
bytes that are no UTF-8 and lone surrogates mean U+FFFD there. -/
theorem C94_reads (o : Obj) : unmarshalMap numOf t = some o ↔
    Doc (NumberText numOf) GoString t (.obj o) ∨ (Doc (NumberText numOf) GoString t .null ∧ o = []) := by
  unfold unmarshalMap
  rw [← JsonText.unmarshal_iff, ← JsonText.unmarshal_iff]
  cases h : unmarshal numOf t with
  | none => simp
  | some j =>
    cases j with
    | obj o' => simp
    | null => simp only [Option.some.injEq, reduceCtorEq, true_and, false_or]; exact eq_comm
    | _ => simp

/-- **C94** (JSON texts): an object given as a JSON text is read as what it means. -/
theorem C94_json {o : Obj} (h : JsonText numOf t (.obj o)) : unmarshalMap numOf t = some o :=
  (C94_reads o).2 (.inl (JsonText.doc_mono (fun _ _ h => JsonText.go_json h) h))

/-- **C94** (JSON texts of other kinds) are refused, but null. -/
theorem C94_refused {d : Json} (h : JsonText numOf t d) (ho : ∀ o, d ≠ .obj o) (hn : d ≠ .null) : unmarshalMap numOf t = none := by
  have := (JsonText.unmarshal_iff (numOf := numOf) t d).2 (JsonText.doc_mono (fun _ _ h => JsonText.go_json h) h)
  unfold unmarshalMap
  rw [this]
  cases d with
  | obj o => exact absurd rfl (ho o)
  | null => exact absurd rfl hn
  | _ => rfl

/-- **C94** (one meaning): a text means at most one document. -/
theorem C94_functional {i j : Json} (h1 : JsonText numOf t i) (h2 : JsonText numOf t j) : i = j := by
  have e1 := (JsonText.unmarshal_iff (numOf := numOf) t i).2 (JsonText.doc_mono (fun _ _ h => JsonText.go_json h) h1)
  have e2 := (JsonText.unmarshal_iff (numOf := numOf) t j).2 (JsonText.doc_mono (fun _ _ h => JsonText.go_json h) h2)
  rw [e1] at e2
  exact Option.some.inj e2

theorem lax_doc : (∃ j, Doc (NumberText numOf) GoString t j) ↔ ∃ j, Doc (NumberText numOf) (fun k _ => LaxString k) t j := by
  constructor
  · rintro ⟨j, h⟩
    exact ⟨j, JsonText.doc_mono (fun k s h => (JsonText.lax_iff k).2 ⟨s, h⟩) h⟩
  · rintro ⟨j, a, w, b, h1, h2, h3, h4⟩
    obtain ⟨y, h, h5, _⟩ := JsonText.any_means (S' := GoString) (fun k _ h => (JsonText.lax_iff k).1 h) h4
    obtain ⟨j', rfl⟩ := h5 _ rfl
    exact ⟨j', a, w, b, h1, h2, h3, h⟩

/-- **C94** (syntax errors): a text is a document for the tool exactly if it has JSON's form, string literals judged by their form alone, and no
number is out of range. -/
theorem C94_form : (∃ j, unmarshal numOf t = some j) ↔ ∃ j, Doc (NumberText numOf) (fun k _ => LaxString k) t j := by
  rw [← lax_doc]
  constructor
  · rintro ⟨j, h⟩; exact ⟨j, (JsonText.unmarshal_iff t j).1 h⟩
  · rintro ⟨j, h⟩; exact ⟨j, (JsonText.unmarshal_iff t j).2 h⟩

/-- **C94** (what is read): the document read has unique keys, and all its texts are Unicode whatever bytes the file has. -/
theorem C94_unicode {o : Obj} (h : unmarshalMap numOf t = some o) : Json.WF (.obj o) ∧ AllTexts Unicode (.obj o) := by
  rcases (C94_reads o).1 h with ⟨a, w, b, _, _, _, hm⟩ | ⟨_, rfl⟩
  · exact ⟨JsonText.means_wf hm, JsonText.means_unicode hm⟩
  · exact ⟨by simp [Json.WF, Json.WFO, Obj.Sorted], by simp [AllTexts, AllTextsO]⟩

/-! ### C95 -/

/-- The document as it is read back, from any of the two forms. -/
theorem read_back {f : Int → Int} (hT : ∀ n t, env.numText n = some t → Number t) (hR : ∀ n t, env.numText n = some t → env.numOf t = some (f n)) {d : Json}
    (hw : Json.WF d) (hu : AllTexts Unicode d) : (Marshals env d (some w) → unmarshal env.numOf w = some (mapNumbers f d)) ∧
      (MarshalsIndent env d (some w) → unmarshal env.numOf w = some (mapNumbers f d)) := by
  have key : ∀ w, Means (fun t n => Number t ∧ env.numOf t = some (f n)) JsonString (.value d) w → unmarshal env.numOf w = some (mapNumbers f d) := by
    intro w h
    have h1 := JsonText.means_map (N' := NumberText env.numOf) (f := f) (fun t n h => h) h
    exact (JsonText.unmarshal_iff _ _).2 (JsonText.means_doc (JsonText.means_mono (fun _ _ h => JsonText.go_json h) h1))
  have h1 : ∀ w, Marshals env d (some w) → Means (fun t n => Number t ∧ env.numOf t = some (f n)) JsonString (.value d) w := fun w h =>
    JsonText.marshals_means (fun n t h => ⟨hT n t h, hR n t h⟩) (fun _ _ h => h.1) (fun s hs => JsonText.encString_means env.short hs) (fun k hk => JsonText.quote_json hk)
      (fun _ _ h => JsonText.compact_key h) hw hu h
  refine ⟨fun h => key w (h1 w h), ?_⟩
  rintro ⟨q, h, e⟩
  cases q with
  | none => cases e
  | some v =>
    obtain ⟨v', h2, h3⟩ := JsonText.indent_value (fun _ _ h => h.1) (fun _ _ h => JsonText.key_json h) (h1 v h)
    rw [Option.bind_some, h2] at e
    cases e
    exact key w h3

/-- **C95**: reading a file the tool wrote as JSON, compact or indented, gives the document, its numbers as they are read back. -/
theorem C95_read_back {f : Int → Int} (hT : ∀ n t, env.numText n = some t → Number t) (hR : ∀ n t, env.numText n = some t → env.numOf t = some (f n))
    (hw : Json.WF (.obj m)) (hu : AllTexts Unicode (.obj m)) :
    (Marshals env (.obj m) (some w) → unmarshalMap env.numOf w = some (mapNumbersO f m)) ∧
    (MarshalsIndent env (.obj m) (some w) → unmarshalMap env.numOf w = some (mapNumbersO f m)) := by
  obtain ⟨h1, h2⟩ := read_back (w := w) hT hR hw hu
  unfold unmarshalMap
  exact ⟨fun h => by rw [h1 h]; rfl, fun h => by rw [h2 h]; rfl⟩

/-- **C95**: the very document, if its numbers survive. -/
theorem C95_round_trip (hT : ∀ n t, env.numText n = some t → Number t ∧ env.numOf t = some n) (hw : Json.WF (.obj m)) (hu : AllTexts Unicode (.obj m)) :
    (Marshals env (.obj m) (some w) → unmarshalMap env.numOf w = some m) ∧ (MarshalsIndent env (.obj m) (some w) → unmarshalMap env.numOf w = some m) := by
  have h := C95_read_back (w := w) (f := fun n => n) (fun n t h => (hT n t h).1) (fun n t h => (hT n t h).2) hw hu
  have e : mapNumbersO (fun n => n) m = m := by
    have := (JsonText.mapNumbers_fixed (fun n => n) (.obj m)).2
    rw [mapNumbers, Json.obj.injEq] at this
    exact this (JsonText.allNumbers_all (fun _ => rfl) _)
  rw [e] at h
  exact h

/-! ### C96 -/

/-- **C96**: the constant in the generated Go file is exactly the JSON text of the document if and only if no text and no key of the document
has a backquote. -/
theorem C96_go_file (hT : ∀ n t, env.numText n = some t → Number t) (pkg : Str) (hp : (96 : UInt8) ∉ pkg) (h : Marshals env (.obj m) (some w)) :
    firstRaw (Format.goFile pkg w) = some (w, b!"\n") ↔ AllTexts (fun s => (96 : UInt8) ∉ s) (.obj m) := by
  obtain ⟨h1, h2⟩ := JsonText.marshals_bytes hT h
  rw [C56_iff pkg w hp (fun hm => absurd (h1 _ hm) (by decide)), h2]
  rfl

/-- **C96** (one line): the compact form has no line feeds or other control characters. -/
theorem C96_one_line (hT : ∀ n t, env.numText n = some t → Number t) (h : Marshals env (.obj m) (some w)) : ∀ c ∈ w, 32 ≤ c :=
  (JsonText.marshals_bytes hT h).1

/-! ### C97 -/

/-- **C97** (failure): copying a value fails exactly if one of its numbers cannot be written. -/
theorem C97_fails (j : Json) : clone env j = none ↔ ¬ AllNumbers (CanWrite env) j := by
  unfold clone
  have := JsonText.enc_some env j
  rw [Option.map_eq_none_iff, ← Option.not_isSome_iff_eq_none]
  exact not_congr this

theorem clone_map {f : Int → Int} (hT : ∀ n t, env.numText n = some t → Number t) (hR : ∀ n t, env.numText n = some t → env.numOf t = some (f n)) {j : Json}
    (hw : Json.WF j) (hu : AllTexts Unicode j) {k : Json} (h : clone env j = some k) : k = mapNumbers f j := by
  unfold clone at h
  obtain ⟨t, ht, rfl⟩ := Option.map_eq_some_iff.1 h
  have hm := JsonText.enc_means (N := fun t n => Number t ∧ env.numOf t = some (f n)) (S := JsonString) (P := Unicode)
    (fun n t h => ⟨hT n t h, hR n t h⟩) (fun s hs => JsonText.encString_means env.short hs) j t hw hu ht
  have h1 := JsonText.means_map (N' := NumberText env.numOf) (f := f) (fun t n h => h) hm
  rw [(JsonText.unmarshal_iff _ _).2 (JsonText.means_doc (JsonText.means_mono (fun _ _ h => JsonText.go_json h) h1))]
  rfl

/-- **C97** (copies): the copy of a value whose texts are Unicode is the value with each number as it is read back; so it is the value itself
exactly if all its numbers survive. -/
theorem C97_copy {f : Int → Int} (hT : ∀ n t, env.numText n = some t → Number t) (hR : ∀ n t, env.numText n = some t → env.numOf t = some (f n)) {j : Json}
    (hw : Json.WF j) (hu : AllTexts Unicode j) {k : Json} (h : clone env j = some k) :
    k = mapNumbers f j ∧ (k = j ↔ AllNumbers (fun n => f n = n) j) := by
  have e := clone_map hT hR hw hu h
  refine ⟨e, ?_⟩
  rw [e]
  exact JsonText.mapNumbers_fixed f j

/-- **C97** (what was read survives): values read from JSON files are copied unchanged, if the numbers that are read can be written and read back. -/
theorem C97_read_copy (hN : ∀ t n, NumberText env.numOf t n → ∃ t', env.numText n = some t' ∧ NumberText env.numOf t' n)
    {j : Json} (h : unmarshal env.numOf t = some j) : clone env j = some j := by
  obtain ⟨a, w, b, _, _, _, hm⟩ := (JsonText.unmarshal_iff _ _).1 h
  have hP := JsonText.means_numbers (P := fun n => ∃ t', env.numText n = some t' ∧ NumberText env.numOf t' n) hN hm
  have hw : Json.WF j := JsonText.means_wf hm
  have hu : AllTexts Unicode j := JsonText.means_unicode hm
  have hs : (enc env j).isSome := (JsonText.enc_some env j).2 (JsonText.allNumbers_mono (fun n ⟨t', h, _⟩ => by rw [h]; rfl) j hP)
  obtain ⟨v, hv⟩ := Option.isSome_iff_exists.1 hs
  unfold clone
  rw [hv]
  have hm' := JsonText.enc_meansQ (N := NumberText env.numOf) (S := JsonString) (P := Unicode)
    (Q := fun n => ∃ t', env.numText n = some t' ∧ NumberText env.numOf t' n) (fun n t ⟨t', h1, h2⟩ h => by rw [h1] at h; cases h; exact h2) (fun s hs => JsonText.encString_means env.short hs) j v hw hu hP hv
  rw [Option.map_some, (JsonText.unmarshal_iff _ _).2 (JsonText.means_doc (JsonText.means_mono (fun _ _ h => JsonText.go_json h) hm'))]
  rfl

/-- **C97** (copies are Unicode): the texts of a copy are Unicode whatever the value was. -/
theorem C97_unicode {j k : Json} (h : clone env j = some k) : AllTexts Unicode k ∧ Json.WF k := by
  unfold clone at h
  obtain ⟨t, ht, rfl⟩ := Option.map_eq_some_iff.1 h
  cases hu : unmarshal env.numOf t with
  | none => simp [AllTexts, Json.WF]
  | some k =>
    obtain ⟨a, w, b, _, _, _, hm⟩ := (JsonText.unmarshal_iff _ _).1 hu
    exact ⟨JsonText.means_unicode hm, JsonText.means_wf hm⟩

end Oapi.Props
