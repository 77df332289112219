import Verif.Props.JsonText
import Verif.Proofs.Gabs

/-! Concrete cases for C93–C97. -/
namespace Oapi.Props
open Spec Spec.JsonText
open Spec.PtrJson (JsonString Quotable)
open JsonText (Env Marshals MarshalsIndent enc unmarshal unmarshalMap clone)

/-- Decimal integers. -/
def decText (n : Int) : Str := if n < 0 then 45 :: Str.itoa n.natAbs else Str.itoa n.natAbs

/-- What a float64 keeps of an integer (roughly: odd numbers beyond 2^53 become even). -/
def keep (n : Int) : Int := if n.natAbs ≤ 2 ^ 53 then n else n / 2 * 2

/-- A machine whose numbers are integers; one of them, -99, stands for NaN. -/
def intEnv : Env where
  prn := fun _ => true
  short := false
  numText := fun n => if n = -99 then none else some (decText n)
  numOf := fun t => (Str.atoi t).map keep

/-- The same without the rounding. -/
def exactEnv : Env := { intEnv with numOf := Str.atoi }

theorem itoaGo_head (f n : Nat) (h : n ≤ f) : (Str.itoaGo f n).head? = some 48 → Str.itoaGo f n = [48] := by
  have pos : ∀ f n, 0 < n → n ≤ f → (Str.itoaGo f n).head? ≠ some 48 := by
    intro f
    induction f with
    | zero => intro n h1 h2; omega
    | succ f ih =>
      intro n h1 h2
      unfold Str.itoaGo
      split
      · rename_i h3
        intro e
        simp only [List.head?_cons, Option.some.injEq] at e
        have := congrArg UInt8.toNat e
        rw [UInt8.toNat_ofNat'] at this
        have h4 : (48 : UInt8).toNat = 48 := rfl
        omega
      · rename_i h3
        rw [List.head?_append]
        have hne := Str.itoaGo_ne_nil f (n / 10)
        obtain ⟨a, t, e⟩ := List.exists_cons_of_ne_nil hne
        have := ih (n / 10) (by omega) (by omega)
        rw [e] at this ⊢
        simpa using this
  intro h1
  cases n with
  | zero => cases f <;> rfl
  | succ n => exact absurd h1 (pos f (n + 1) (by omega) h)

theorem decText_number (n : Int) : Number (decText n) := by
  have hw : Whole (Str.itoa n.natAbs) := ⟨⟨Str.itoaGo_ne_nil _ _, Str.itoa_digits _⟩, itoaGo_head _ _ (Nat.le_refl _)⟩
  unfold decText
  split
  · exact ⟨[45], _, [], [], .inr rfl, hw, .inl rfl, .inl rfl, by simp⟩
  · exact ⟨[], _, [], [], .inl rfl, hw, .inl rfl, .inl rfl, by simp⟩

theorem decText_atoi (n : Int) : Str.atoi (decText n) = some n := by
  unfold decText
  split
  · simp [Str.atoi, Str.parseNat_itoa]
    omega
  · rw [Str.atoi_itoa]
    simp only [Option.some.injEq]
    omega

theorem intEnv_text (n : Int) (t : Str) (h : intEnv.numText n = some t) : t = decText n ∧ n ≠ -99 := by
  simp only [intEnv] at h
  split at h
  · cases h
  · rename_i hn; cases h; exact ⟨rfl, hn⟩

/-- The hypotheses about numbers hold. -/
theorem intEnv_number (n : Int) (t : Str) (h : intEnv.numText n = some t) : Number t := (intEnv_text n t h).1 ▸ decText_number n
theorem intEnv_value (n : Int) (t : Str) (h : intEnv.numText n = some t) : intEnv.numOf t = some (keep n) := by
  rw [(intEnv_text n t h).1]
  show (Str.atoi (decText n)).map keep = _
  rw [decText_atoi]; rfl
theorem exactEnv_number (n : Int) (t : Str) (h : exactEnv.numText n = some t) : Number t ∧ exactEnv.numOf t = some n :=
  ⟨intEnv_number n t h, by rw [(intEnv_text n t h).1]; exact decText_atoi n⟩

/-! A document with everything in it. -/
def docJ : Obj := [(b!"info", .obj [(b!"title", .str b!"A <b> \"x\"\n")]), (b!"openapi", .str b!"3.0.0"), (b!"paths", .obj []),
  (b!"x", .arr [.num 1, .num (-20), .bool true, .null, .arr [], .str [0xC3, 0xA9]])]

theorem docJ_wf : Json.WF (.obj docJ) := by simp [docJ, Json.WF, Json.WFO, Json.WFL, Obj.Sorted, Obj.keys]; decide +kernel

theorem ascii_unicode {s : Str} (h : ∀ c ∈ s, c < 128) : Unicode s := by
  induction s with
  | nil => exact ⟨[], rfl, nofun⟩
  | cons c t ih => exact JsonText.unicode_append (a := [c]) (JsonText.unicode_byte (h c (by simp))) (ih fun d hd => h d (by simp [hd]))

theorem docJ_unicode : AllTexts Unicode (.obj docJ) := by
  simp only [docJ, AllTexts, AllTextsO, AllTextsL, and_true]
  repeat' apply And.intro
  all_goals first
    | exact trivial
    | exact ascii_unicode (by decide)
    | exact ⟨[0xE9], by decide, by intro r hr; rw [List.mem_singleton.1 hr]; exact .inl (by decide)⟩

def itemsJ : List Format.Item := [⟨b!"x", .arr [.num 1, .num (-20), .bool true, .null, .arr [], .str [0xC3, 0xA9]], -1⟩, ⟨b!"openapi", .str b!"3.0.0", 0⟩,
  ⟨b!"info", .obj [(b!"title", .str b!"A <b> \"x\"\n")], 1⟩, ⟨b!"paths", .obj [], 3⟩]

theorem itemsJ_members : Format.Members Format.order docJ itemsJ := by
  refine ⟨pairs itemsJ, itemsJ, ?_, ⟨.refl _, by decide⟩, ⟨.refl _, by decide⟩⟩
  have : List.isPerm (pairs itemsJ) docJ = true := by decide +kernel
  exact List.isPerm_iff.1 this

/-- The text that is written. -/
def textJ : Str := b!"{\"x\":[1,-20,true,null,[],\"é\"],\"openapi\":\"3.0.0\",\"info\":{\"title\":\"A \\u003cb\\u003e \\\"x\\\"\\n\"},\"paths\":{}}"

theorem textJ_written : Marshals intEnv (.obj docJ) (some textJ) := ⟨itemsJ, itemsJ_members, by decide +kernel⟩

def prettyJ : Str := b!"{\n  \"x\": [\n    1,\n    -20,\n    true,\n    null,\n    [],\n    \"é\"\n  ],\n  \"openapi\": \"3.0.0\",\n  \"info\": {\n    \"title\": \"A \\u003cb\\u003e \\\"x\\\"\\n\"\n  },\n  \"paths\": {}\n}"

theorem prettyJ_written : MarshalsIndent intEnv (.obj docJ) (some prettyJ) := ⟨_, textJ_written, by decide +kernel⟩

theorem textJ_exact : Marshals exactEnv (.obj docJ) (some textJ) := ⟨itemsJ, itemsJ_members, by decide +kernel⟩
theorem prettyJ_exact : MarshalsIndent exactEnv (.obj docJ) (some prettyJ) := ⟨_, textJ_exact, by decide +kernel⟩

/-! C93, C95, C96 apply to it. -/
example : AllNumbers (CanWrite intEnv) (.obj docJ) ∧ ∀ k ∈ Obj.keys docJ, Quotable intEnv.prn k :=
  ((C93_ok intEnv_number docJ_wf).1 _ textJ_written).1 rfl
example : JsonText Str.atoi textJ (.obj docJ) ∧ JsonText Str.atoi prettyJ (.obj docJ) :=
  ⟨(C93_text exactEnv_number docJ_wf docJ_unicode).1 textJ_exact, (C93_text exactEnv_number docJ_wf docJ_unicode).2 prettyJ_exact⟩
example : unmarshalMap Str.atoi textJ = some docJ ∧ unmarshalMap Str.atoi prettyJ = some docJ :=
  ⟨(C95_round_trip (env := exactEnv) exactEnv_number docJ_wf docJ_unicode).1 textJ_exact,
   (C95_round_trip (env := exactEnv) exactEnv_number docJ_wf docJ_unicode).2 prettyJ_exact⟩
example : unmarshalMap Str.atoi textJ = some docJ := by decide +kernel
example : firstRaw (Format.goFile b!"main" textJ) = some (textJ, b!"\n") :=
  (C96_go_file intEnv_number b!"main" (by decide) textJ_written).2 (by
    simp only [docJ, AllTexts, AllTextsO, AllTextsL]
    decide)

/-! A control character in a top-level key, and NaN, make writing fail. -/
example : ¬ Quotable intEnv.prn [1] ∧ ∀ r, Marshals intEnv (.obj [([1], .null)]) r → r = none := by
  have hq : ¬ Quotable intEnv.prn [1] := by
    rw [PtrJson.quotable_iff]
    intro h
    have := h (.rune 1) (by decide)
    exact absurd (this.1 (by decide)) (by decide)
  refine ⟨hq, fun r h => ?_⟩
  have := (C93_ok (m := [([1], .null)]) intEnv_number (by simp [Json.WF, Json.WFO, Obj.Sorted, Obj.keys])).1 r h
  cases r with
  | none => rfl
  | some t => exact absurd ((this.1 rfl).2 [1] (by decide)) hq
example : ∀ r, Marshals intEnv (.obj [(b!"a", .num (-99))]) r → r = none := by
  intro r h
  have := (C93_ok (m := [(b!"a", .num (-99))]) intEnv_number (by simp [Json.WF, Json.WFO, Obj.Sorted, Obj.keys])).1 r h
  cases r with
  | none => rfl
  | some t => exact absurd ((this.1 rfl).1) (by simp [AllNumbers, AllNumbersO, CanWrite, intEnv])

/-! Reading: the last of two members counts, a stray byte and half a surrogate pair are U+FFFD, null is the empty document, lists are refused,
and so are trailing commas, leading zeros and text behind the document. -/
example : unmarshalMap Str.atoi b!" { \"a\" : 1 , \"\\u0061\" : [ 2 , { } ] } \n" = some [(b!"a", .arr [.num 2, .obj []])] := by decide +kernel
example : unmarshalMap Str.atoi (b!"{\"a\":\"x" ++ [0xFF] ++ b!"\\ud800y\"}") = some [(b!"a", .str (b!"x" ++ [0xEF, 0xBF, 0xBD, 0xEF, 0xBF, 0xBD] ++ b!"y"))] := by decide +kernel
example : unmarshalMap Str.atoi b!"{\"a\":\"\\ud83d\\ude00\\/\"}" = some [(b!"a", .str (b!"😀/"))] := by decide +kernel
example : unmarshalMap Str.atoi b!"null" = some [] ∧ unmarshalMap Str.atoi b!"[1]" = none ∧ unmarshalMap Str.atoi b!"{\"a\":1,}" = none ∧
    unmarshalMap Str.atoi b!"{\"a\":01}" = none ∧ unmarshalMap Str.atoi b!"{} x" = none ∧ unmarshalMap Str.atoi b!"" = none := by decide +kernel

/-! Copies: small numbers survive, large ones are rounded, NaN makes it fail. -/
example : clone intEnv (.obj docJ) = some (.obj docJ) := by decide +kernel
example : clone intEnv (.obj [(b!"maximum", .num 9007199254740993)]) = some (.obj [(b!"maximum", .num 9007199254740992)]) := by decide +kernel
example : clone intEnv (.obj [(b!"maximum", .num (-99))]) = none := by decide +kernel
example : clone intEnv (.str [0x61, 0xFF]) = some (.str [0x61, 0xEF, 0xBF, 0xBD]) := by decide +kernel
example {j : Json} (hw : Json.WF j) (hu : AllTexts Unicode j) {k : Json} (h : clone intEnv j = some k) : k = mapNumbers keep j :=
  (C97_copy intEnv_number intEnv_value hw hu h).1

/-- A machine that can write all its numbers: what is read is copied unchanged. -/
def allEnv : Env := { exactEnv with numText := fun n => some (decText n) }
example {t : Str} {j : Json} (h : unmarshal allEnv.numOf t = some j) : clone allEnv j = some j :=
  C97_read_copy (fun _ n _ => ⟨decText n, rfl, decText_number n, decText_atoi n⟩) h

end Oapi.Props
