import Verif.Props.Main
import Verif.Props.JsonText
import Verif.Props.JsonTextEx
import Verif.Props.Read

/-! C98: the command with the real JSON encoding, from the document the scan returned to the document a reader gets from the output file. -/
namespace Oapi.Props
open Spec Spec.JsonText
open Spec.PtrJson (JsonString Quotable)
open JsonText (Env Marshals MarshalsIndent unmarshal unmarshalMap)
open Main
open Cli (Flags Level Dest Faults)

variable {L : Type} {m : Machine L} {ff : Flags} {nolog : Bool} {env : Env}

/-- The result `x` of an encoder and the outcome `r` of encoding agree: a text, or an error. -/
def Encodes (x : Res Str) (r : Option Str) : Prop := (∃ t, r = some t ∧ x = .ok t) ∨ (r = none ∧ ∃ e, x = .err e)

/-- The command's JSON encoders are the modelled ones (one of their possible outcomes, for every document). -/
def JsonMachine (env : Env) (m : Machine L) : Prop :=
  ∀ d, (∃ r, Marshals env d r ∧ Encodes (m.json d) r) ∧ ∃ r, MarshalsIndent env d r ∧ Encodes (m.pretty d) r

/-- The output goes to a file. -/
def ToFile (m : Machine L) (ff : Flags) : Prop :=
  (inForce m ff).output ≠ [] ∧ (inForce m ff).output ≠ b!"stdout" ∧ (inForce m ff).output ≠ b!"stderr"

/-- The format is one of the two JSON formats. -/
def JsonFormat (m : Machine L) (ff : Flags) : Prop := (inForce m ff).format = b!"json" ∨ (inForce m ff).format = b!"json:pretty"

/-- What the encoder for the format in force makes of a document. -/
def encoded (m : Machine L) (ff : Flags) (d : Json) : Res Str := if (inForce m ff).format = b!"json" then m.json d else m.pretty d

theorem encoded_format (hf : JsonFormat m ff) (d : Json) :
    Format.format (m.yaml d) (m.json d) (m.pretty d) (inForce m ff).format = encoded m ff d := by
  unfold encoded
  rcases hf with e | e <;> rw [e] <;> rfl

/-- A reader that sees the files the command left, and whose JSON numbers are `env`'s. -/
structure SeesOutput (env : Env) (m : Machine L) (ff : Flags) (nolog : Bool) (fs : Read.FS) : Prop where
  content : fs.content (inForce m ff).output = (main m ff nolog).files (inForce m ff).output
  json : fs.json = unmarshalMap env.numOf
  named : ∃ n, LastElem (inForce m ff).output n ∧ EndsWith n b!".json"

theorem json_outcome (hm : JsonMachine env m) (hf : JsonFormat m ff) (d : Json) : ∃ r, (Marshals env d r ∨ MarshalsIndent env d r) ∧
    Encodes (Format.format (m.yaml d) (m.json d) (m.pretty d) (inForce m ff).format) r := by
  obtain ⟨⟨r, h1, h2⟩, q, h3, h4⟩ := hm d
  rcases hf with e | e <;> rw [e]
  · exact ⟨r, .inl h1, h2⟩
  · exact ⟨q, .inr h3, h4⟩

theorem read_output {fs : Read.FS} (hs : SeesOutput env m ff nolog fs) {w : Str} (h : (main m ff nolog).files (inForce m ff).output = some w) :
    (∀ o, unmarshalMap env.numOf w = some o → Read.readFile fs (inForce m ff).output = .ok ⟨(inForce m ff).output, .obj o⟩) ∧
    (unmarshalMap env.numOf w = none → ∃ e, Read.readFile fs (inForce m ff).output = .err e) := by
  obtain ⟨n, hn, he⟩ := hs.named
  refine ⟨fun o ho => (C81_json hn he _).2 ⟨rfl, w, o, hs.content.trans h, by rw [hs.json]; exact ho, rfl⟩, fun ho => ?_⟩
  rcases C81_object_or_error (fs := fs) (inForce m ff).output with ⟨o, h'⟩ | h'
  · obtain ⟨_, data, k, h1, h2, _⟩ := (C81_json hn he _).1 h'
    rw [hs.content, h] at h1
    cases h1
    rw [hs.json, ho] at h2
    cases h2
  · exact h'

/-- **C98** (round trip): if the scan returned a document whose texts are Unicode, whose numbers can be written and survive, and whose top-level keys
can be quoted, then after a run with a JSON format whose output file could be written, the file holds a JSON text that means the document, and
reading it gives back the document. -/
theorem C98_round_trip (hT : ∀ n t, env.numText n = some t → NumberText env.numOf t n) (hm : JsonMachine env m) (hf : JsonFormat m ff) (hp : ToFile m ff)
    {o : Obj} {err : Option Err} (h : m.scan (passed m ff nolog) = .ret (some (.obj o)) err) (hw : Json.WF (.obj o)) (hu : AllTexts Unicode (.obj o))
    (hn : AllNumbers (CanWrite env) (.obj o)) (hk : ∀ k ∈ Obj.keys o, Quotable env.prn k) :
    ∃ w, encoded m ff (.obj o) = .ok w ∧ JsonText env.numOf w (.obj o) ∧ (Writable m.faults w →
      (main m ff nolog).files (inForce m ff).output = some w ∧
      ∀ fs, SeesOutput env m ff nolog fs → Read.readFile fs (inForce m ff).output = .ok ⟨(inForce m ff).output, .obj o⟩) := by
  obtain ⟨r, hr, he⟩ := json_outcome hm hf (.obj o)
  have hs : r.isSome := by
    rcases hr with h' | h'
    · exact ((C93_ok (fun n t e => (hT n t e).1) hw).1 r h').2 ⟨hn, hk⟩
    · exact ((C93_ok (fun n t e => (hT n t e).1) hw).2 r h').2 ⟨hn, hk⟩
  rcases he with ⟨w, rfl, hx⟩ | ⟨rfl, _⟩
  · have hj : JsonText env.numOf w (.obj o) := hr.elim (C93_text hT hw hu).1 (C93_text hT hw hu).2
    refine ⟨w, encoded_format hf _ ▸ hx, hj, fun hW => ?_⟩
    have h1 := (C69_output_replaced (text := w) h hx hp hW).1
    exact ⟨h1, fun fs hs => (read_output hs h1).1 o (C94_json hj)⟩
  · cases hs

/-- **C98** (a scan without a document): the file then holds `null`, and reading it gives an empty document. -/
theorem C98_failed_scan (hm : JsonMachine env m) (hf : JsonFormat m ff) (hp : ToFile m ff)
    {err : Option Err} (h : m.scan (passed m ff nolog) = .ret none err) (hW : Writable m.faults b!"null") :
    (main m ff nolog).files (inForce m ff).output = some b!"null" ∧
    ∀ fs, SeesOutput env m ff nolog fs → Read.readFile fs (inForce m ff).output = .ok ⟨(inForce m ff).output, .obj []⟩ := by
  obtain ⟨r, hr, he⟩ := json_outcome hm hf .null
  have hs : r = some b!"null" := by
    rcases hr with h' | ⟨q, h', h''⟩
    · exact h'
    · rw [h'', show q = some b!"null" from h']; decide
  subst hs
  rcases he with ⟨w, hw, hx⟩ | ⟨hw, _⟩
  · cases hw
    have h1 := (C69_output_replaced (text := b!"null") h hx hp hW).1
    exact ⟨h1, fun fs hs => (read_output hs h1).1 [] ((C94_reads []).2 (.inr ⟨⟨[], b!"null", [], nofun, nofun, rfl, .null⟩, rfl⟩))⟩
  · cases hw

theorem unmarshalMap_nil (f : Str → Option Int) : unmarshalMap f [] = none := by
  cases h : unmarshalMap f [] with
  | none => rfl
  | some o =>
    rcases (C94_reads o).1 h with ⟨a, w, b, _, _, e, hm⟩ | ⟨⟨a, w, b, _, _, e, hm⟩, _⟩
    all_goals
      obtain ⟨_, e2⟩ := List.append_eq_nil_iff.1 e.symm
      obtain ⟨e3, _⟩ := List.append_eq_nil_iff.1 e2
      subst e3
      cases hm

/-- **C98** (a document that cannot be written): if a number of the document cannot be written or a top-level key cannot be quoted, the output file
is emptied although the scan succeeded, a fatal error is logged, and the file cannot be read. -/
theorem C98_unwritable (hT : ∀ n t, env.numText n = some t → Number t) (hm : JsonMachine env m) (hf : JsonFormat m ff) (hp : ToFile m ff)
    {o : Obj} {err : Option Err} (h : m.scan (passed m ff nolog) = .ret (some (.obj o)) err) (hw : Json.WF (.obj o))
    (hn : ¬ (AllNumbers (CanWrite env) (.obj o) ∧ ∀ k ∈ Obj.keys o, Quotable env.prn k)) (hW : m.faults.removes = true ∧ m.faults.opens = true) :
    (main m ff nolog).files (inForce m ff).output = some [] ∧ Level.fatal ∈ (main m ff nolog).logs ∧
    ∀ fs, SeesOutput env m ff nolog fs → ∃ e, Read.readFile fs (inForce m ff).output = .err e := by
  obtain ⟨r, hr, he⟩ := json_outcome hm hf (.obj o)
  have hs : r = none := by
    cases r with
    | none => rfl
    | some w =>
      refine absurd ?_ hn
      rcases hr with h' | h'
      · exact ((C93_ok hT hw).1 _ h').1 rfl
      · exact ((C93_ok hT hw).2 _ h').1 rfl
  subst hs
  rcases he with ⟨w, hw, hx⟩ | ⟨_, e, hx⟩
  · cases hw
  · have hmain := main_ret (ff := ff) h
    simp only [Option.getD_some, hx, dest_file hp, output] at hmain
    have h1 : (main m ff nolog).files (inForce m ff).output = some [] := by
      rw [hmain]
      simp only [if_true]
      exact writeFile_all ⟨hW.1, hW.2, Nat.zero_le _⟩
    refine ⟨h1, ?_, fun fs hs => (read_output hs h1).2 (unmarshalMap_nil _)⟩
    rw [hmain]
    simp

/-- **C98** (generated Go file): with format `go` the constant of the written file is the JSON text of the document exactly if no text and no
key has a backquote. -/
theorem C98_go (hT : ∀ n t, env.numText n = some t → NumberText env.numOf t n) (hm : JsonMachine env m) (hf : (inForce m ff).format = b!"go") (hp : ToFile m ff)
    {o : Obj} {err : Option Err} (h : m.scan (passed m ff nolog) = .ret (some (.obj o)) err) (hw : Json.WF (.obj o)) (hu : AllTexts Unicode (.obj o))
    (hn : AllNumbers (CanWrite env) (.obj o)) (hk : ∀ k ∈ Obj.keys o, Quotable env.prn k) :
    ∃ w file, m.json (.obj o) = .ok w ∧ JsonText env.numOf w (.obj o) ∧ file = Format.goFile b!"main" w ∧ (Writable m.faults file → (main m ff nolog).files (inForce m ff).output = some file) ∧
      (firstRaw file = some (w, b!"\n") ↔ AllTexts (fun s => (96 : UInt8) ∉ s) (.obj o)) := by
  obtain ⟨⟨r, hr, he⟩, _⟩ := hm (.obj o)
  have hs : r.isSome := ((C93_ok (fun n t e => (hT n t e).1) hw).1 r hr).2 ⟨hn, hk⟩
  rcases he with ⟨w, rfl, hx⟩ | ⟨rfl, _⟩
  · refine ⟨w, Format.goFile b!"main" w, hx, (C93_text hT hw hu).1 hr, rfl, fun hW => ?_, C96_go_file (fun n t e => (hT n t e).1) _ (by decide) hr⟩
    refine (C69_output_replaced h ?_ hp hW).1
    rw [hf]
    simp only [Option.getD_some, hx]
    rfl
  · cases hs

/-! ### Truncated files -/

/-- No proper prefix of an object's text is a document. -/
theorem prefix_unreadable {f : Str → Option Int} {w : Str} {o : Obj} (h : Means (NumberText f) GoString (.value (.obj o)) w) {n : Nat} (hn : n < w.length)
    (j : Json) : unmarshal f (w.take n) ≠ some j := by
  intro hj
  have hK : ∀ k s, GoString k s → JsonText.IsKey k := Oapi.JsonText.hS_go
  have hN : ∀ t n, NumberText f t n → Number t := fun _ _ h => h.1
  obtain ⟨a, v, b, ha, hb, e, hv⟩ := (Oapi.JsonText.unmarshal_iff _ _).1 hj
  have hends : ∃ t, w = 123 :: (t ++ [125]) := by
    cases h with
    | obj0 _ => exact ⟨_, rfl⟩
    | obj _ _ => exact ⟨_, rfl⟩
  have hvalid : Oapi.JsonText.valid w = true := Oapi.JsonText.valid_doc hN hK ⟨[], w, [], nofun, nofun, by simp, h⟩
  obtain ⟨t, hw⟩ := hends
  have hsplit : w = a ++ (v ++ (b ++ w.drop n)) := by
    conv => lhs; rw [← List.take_append_drop n w, e]
    simp [List.append_assoc]
  -- the rest is not blank
  have hrest : ¬ Blank (b ++ w.drop n) := by
    intro hbl
    have h1 : w.getLast? = some 125 := by rw [hw, ← List.cons_append, List.getLast?_append]; rfl
    have h2 : (w.drop n).getLast? = some 125 := by rw [List.getLast?_drop, if_neg (by omega)]; exact h1
    exact absurd (hbl 125 (List.mem_append_right _ (List.mem_of_getLast? h2))) (by decide)
  have ha0 : a = [] := by
    cases a with
    | nil => rfl
    | cons c a =>
      rw [hw] at hsplit
      injection hsplit with h1 _
      exact absurd (ha c (by simp)) (by rw [← h1]; decide)
  subst ha0
  obtain ⟨c, v', rfl, hv1⟩ := Oapi.JsonText.value_first hN hK hv
  have hc : c = 123 := by rw [hw] at hsplit; injection hsplit with h1 _; exact h1.symm
  subst hc
  have hgo : ∀ u, v' = u ++ [125] → (∀ r, Oapi.JsonText.validGo ⟨.beginStringOrEmpty, [.key]⟩ (u ++ 125 :: r) = Oapi.JsonText.validGo ⟨.endTop, []⟩ r) → False := by
    rintro u rfl hu
    refine hrest (Oapi.JsonText.valid_end_blank ?_)
    rw [← hu]
    have : Oapi.JsonText.validGo ⟨.beginValue, []⟩ w = true := hvalid
    rw [hsplit, List.nil_append, List.cons_append, Oapi.JsonText.valid_step (Oapi.JsonText.step_brace (.inl rfl) []) (by decide)] at this
    simpa [List.append_assoc] using this
  generalize hx : What.value j = x at hv
  generalize hz : (123 : UInt8) :: v' = z at hv
  cases hv with
  | obj0 hbl =>
    injection hz with _ hz
    refine hgo _ hz fun r => ?_
    rw [Oapi.JsonText.validGo_blank (Oapi.JsonText.skips_begin (by decide) _) hbl]
    rfl
  | obj hms _ =>
    injection hz with _ hz
    exact hgo _ hz fun r => Oapi.JsonText.valid_piece hN hK hms [] r _ (.inr rfl)
  | null => cases hz
  | true_ => cases hz
  | false_ => cases hz
  | num hnum =>
    subst hz
    obtain ⟨_, _, e1, h2⟩ := Oapi.JsonText.run_number hnum.1
    injection e1 with e1 _
    subst e1
    obtain ⟨_, _, h3, _⟩ := h2 []
    cases h3
  | str hstr => obtain ⟨b, _, e1⟩ := hstr; rw [e1] at hz; cases hz
  | arr0 _ => cases hz
  | arr _ => cases hz
  | _ => cases hx

/-- **C98** (truncated files): if the old file could be removed and the new one opened but not all of the text could be written, the file cannot be
read: no part of a document passes for a document. -/
theorem C98_truncated (hT : ∀ n t, env.numText n = some t → NumberText env.numOf t n) (hm : JsonMachine env m) (hf : JsonFormat m ff) (hp : ToFile m ff)
    {o : Obj} {err : Option Err} (h : m.scan (passed m ff nolog) = .ret (some (.obj o)) err) (hw : Json.WF (.obj o)) (hu : AllTexts Unicode (.obj o))
    (hn : AllNumbers (CanWrite env) (.obj o)) (hk : ∀ k ∈ Obj.keys o, Quotable env.prn k) (hW : m.faults.removes = true ∧ m.faults.opens = true) :
    ∃ w, encoded m ff (.obj o) = .ok w ∧ JsonText env.numOf w (.obj o) ∧ (m.faults.written < w.length →
      (main m ff nolog).files (inForce m ff).output = some (w.take m.faults.written) ∧ Level.fatal ∈ (main m ff nolog).logs ∧
      ∀ fs, SeesOutput env m ff nolog fs → ∃ e, Read.readFile fs (inForce m ff).output = .err e) := by
  obtain ⟨r, hr, he⟩ := json_outcome hm hf (.obj o)
  have hs : r.isSome := by
    rcases hr with h' | h'
    · exact ((C93_ok (fun n t e => (hT n t e).1) hw).1 r h').2 ⟨hn, hk⟩
    · exact ((C93_ok (fun n t e => (hT n t e).1) hw).2 r h').2 ⟨hn, hk⟩
  rcases he with ⟨w, rfl, hx⟩ | ⟨rfl, _⟩
  · have hj := hr.elim (written_means hT hw hu).1 (written_means hT hw hu).2
    refine ⟨w, encoded_format hf _ ▸ hx, Oapi.JsonText.means_doc hj, fun hlt => ?_⟩
    have hmain := main_ret (ff := ff) h
    simp only [Option.getD_some, hx, dest_file hp, output] at hmain
    have h1 : (main m ff nolog).files (inForce m ff).output = some (w.take m.faults.written) := by
      rw [hmain]
      simp [Cli.writeFile, hW.1, hW.2]
    have hne : w ≠ [] := by rintro rfl; exact absurd hlt (Nat.not_lt_zero _)
    refine ⟨h1, ?_, fun fs hs => (read_output hs h1).2 ?_⟩
    · rw [hmain]
      simp [hW.2, hne, Nat.not_le.2 hlt]
    · have hmean : Means (NumberText env.numOf) GoString (.value (.obj o)) w := Oapi.JsonText.means_mono (fun _ _ h => Oapi.JsonText.go_json h) hj
      unfold unmarshalMap
      cases hx : unmarshal env.numOf (w.take m.faults.written) with
      | none => rfl
      | some j => exact absurd hx (prefix_unreadable hmean hlt j)
  · cases hs

/-! ### Leftovers -/

/-- Behind an object's text only white space may follow. -/
theorem followed_unreadable {f : Str → Option Int} {w r : Str} {o : Obj} (h : Means (NumberText f) GoString (.value (.obj o)) w) :
    unmarshalMap f (w ++ r) = if ∀ c ∈ r, c ∈ ([32, 9, 10, 13] : List UInt8) then some o else none := by
  have hK : ∀ k s, GoString k s → JsonText.IsKey k := Oapi.JsonText.hS_go
  have hN : ∀ t n, NumberText f t n → Number t := fun _ _ h => h.1
  split
  · rename_i hb
    exact (C94_reads o).2 (.inl ⟨[], w, r, nofun, hb, by simp, h⟩)
  · rename_i hb
    cases hx : unmarshalMap f (w ++ r) with
    | none => rfl
    | some o' =>
      exfalso
      have hv : Oapi.JsonText.validGo ⟨.beginValue, []⟩ (w ++ r) = true := by
        rcases (C94_reads o').1 hx with h' | ⟨h', _⟩
        · exact Oapi.JsonText.valid_doc hN hK h'
        · exact Oapi.JsonText.valid_doc hN hK h'
      refine hb (Oapi.JsonText.valid_end_blank ?_)
      cases h with
      | obj0 hbl =>
        rw [List.cons_append, Oapi.JsonText.valid_step (Oapi.JsonText.step_brace (.inl rfl) []) (by decide), List.append_assoc,
          Oapi.JsonText.validGo_blank (Oapi.JsonText.skips_begin (by decide) _) hbl] at hv
        exact hv
      | obj hms _ =>
        rw [List.cons_append, Oapi.JsonText.valid_step (Oapi.JsonText.step_brace (.inl rfl) []) (by decide), List.append_assoc] at hv
        exact (Oapi.JsonText.valid_piece hN hK hms [] r _ (.inr rfl)).symm.trans hv

/-- **C98** (leftovers): if the old file could not be removed but could be opened, the rest of its bytes stays behind the new text; the file can then be
read, giving the document, exactly if there is nothing but white space there. -/
theorem C98_leftovers (hT : ∀ n t, env.numText n = some t → NumberText env.numOf t n) (hm : JsonMachine env m) (hf : JsonFormat m ff) (hp : ToFile m ff)
    {o : Obj} {err : Option Err} (h : m.scan (passed m ff nolog) = .ret (some (.obj o)) err) (hw : Json.WF (.obj o)) (hu : AllTexts Unicode (.obj o))
    (hn : AllNumbers (CanWrite env) (.obj o)) (hk : ∀ k ∈ Obj.keys o, Quotable env.prn k) (hW : m.faults.removes = false ∧ m.faults.opens = true)
    {old : Str} (hold : m.files (inForce m ff).output = some old) :
    ∃ w, encoded m ff (.obj o) = .ok w ∧ (w.length ≤ m.faults.written →
      (main m ff nolog).files (inForce m ff).output = some (w ++ old.drop w.length) ∧
      ∀ fs, SeesOutput env m ff nolog fs →
        ((∀ c ∈ old.drop w.length, c ∈ ([32, 9, 10, 13] : List UInt8)) →
          Read.readFile fs (inForce m ff).output = .ok ⟨(inForce m ff).output, .obj o⟩) ∧
        (¬ (∀ c ∈ old.drop w.length, c ∈ ([32, 9, 10, 13] : List UInt8)) → ∃ e, Read.readFile fs (inForce m ff).output = .err e)) := by
  obtain ⟨r, hr, he⟩ := json_outcome hm hf (.obj o)
  have hs : r.isSome := by
    rcases hr with h' | h'
    · exact ((C93_ok (fun n t e => (hT n t e).1) hw).1 r h').2 ⟨hn, hk⟩
    · exact ((C93_ok (fun n t e => (hT n t e).1) hw).2 r h').2 ⟨hn, hk⟩
  rcases he with ⟨w, rfl, hx⟩ | ⟨rfl, _⟩
  · have hj := Oapi.JsonText.means_mono (fun _ _ h => Oapi.JsonText.go_json h) (hr.elim (written_means hT hw hu).1 (written_means hT hw hu).2)
    refine ⟨w, encoded_format hf _ ▸ hx, fun hle => ?_⟩
    have hmain := main_ret (ff := ff) h
    simp only [Option.getD_some, hx, dest_file hp, output] at hmain
    have h1 : (main m ff nolog).files (inForce m ff).output = some (w ++ old.drop w.length) := by
      rw [hmain]
      simp [Cli.writeFile, hW.1, hW.2, hold, List.take_of_length_le hle]
    refine ⟨h1, fun fs hs => ⟨fun hb => (read_output hs h1).1 o ?_, fun hb => (read_output hs h1).2 ?_⟩⟩
    · rw [followed_unreadable hj, if_pos hb]
    · rw [followed_unreadable hj, if_neg hb]
  · cases hs

/-! ### A concrete run -/

/-- The outcome of an encoder as a result. -/
def asRes : Option Str → Res Str
  | some t => .ok t
  | none => .err .decode

theorem asRes_encodes (r : Option Str) : Encodes (asRes r) r := by
  cases r with
  | none => exact .inr ⟨rfl, _, rfl⟩
  | some t => exact .inl ⟨t, rfl, rfl⟩

/-- A machine with the modelled encoders, whose scan finds `doc`, over an older output file; `written` bytes can be written. -/
noncomputable def jsonMachine (doc : Option Json) (written : Nat) : Machine Unit where
  wd := b!"/w"
  load := fun _ => ({}, true)
  scan := fun _ => .ret doc (some .loadErr)
  yaml := fun _ => .err .decode
  json := fun d => asRes (C93_outcome exactEnv d).1.choose
  pretty := fun d => asRes (C93_outcome exactEnv d).2.choose
  void := ()
  logger := ()
  faults := ⟨true, true, written⟩
  files := fun p => if p = b!"/w/api.json" then some b!"{\"openapi\":\"3.0.0\"}" else none

theorem jsonMachine_json (doc : Option Json) (n : Nat) : JsonMachine exactEnv (jsonMachine doc n) := fun d =>
  ⟨⟨_, (C93_outcome exactEnv d).1.choose_spec, asRes_encodes _⟩, ⟨_, (C93_outcome exactEnv d).2.choose_spec, asRes_encodes _⟩⟩

theorem jsonMachine_format (doc : Option Json) (n : Nat) : JsonFormat (jsonMachine doc n) { output := b!"api.json" } := by
  right; show (inForce failing { output := b!"api.json" }).format = _; decide

theorem jsonMachine_output (doc : Option Json) (n : Nat) : (inForce (jsonMachine doc n) { output := b!"api.json" }).output = b!"/w/api.json" := by
  show (inForce failing { output := b!"api.json" }).output = _; decide

theorem jsonMachine_file (doc : Option Json) (n : Nat) : ToFile (jsonMachine doc n) { output := b!"api.json" } := by
  unfold ToFile; rw [jsonMachine_output]; decide

/-- The file system after the run. -/
noncomputable def after (doc : Option Json) (n : Nat) : Read.FS where
  lstat := fun _ => true
  names := fun _ => []
  content := (main (jsonMachine doc n) { output := b!"api.json" } true).files
  globMeta := fun _ => .ok []
  matchOther := fun _ _ => false
  json := unmarshalMap exactEnv.numOf
  yaml := fun _ => none
  sprintOther := fun _ => []

theorem after_sees (doc : Option Json) (n : Nat) : SeesOutput exactEnv (jsonMachine doc n) { output := b!"api.json" } true (after doc n) :=
  ⟨rfl, rfl, b!"api.json", by rw [jsonMachine_output]; exact ⟨by decide, .inr ⟨b!"/w", rfl⟩⟩, b!"api", rfl⟩

theorem docJ_ok : AllNumbers (CanWrite exactEnv) (.obj docJ) ∧ ∀ k ∈ Obj.keys docJ, Quotable exactEnv.prn k :=
  ((C93_ok (fun n t h => (exactEnv_number n t h).1) docJ_wf).1 _ textJ_exact).1 rfl

/-- All of `prettyJ` is written. -/
theorem docJ_encoded (n : Nat) : encoded (jsonMachine (some (.obj docJ)) n) { output := b!"api.json" } (.obj docJ) = .ok prettyJ := by
  have hf : (inForce (jsonMachine (some (.obj docJ)) n) { output := b!"api.json" }).format = b!"json:pretty" := by
    show (inForce failing { output := b!"api.json" }).format = _; decide
  unfold encoded
  rw [hf, if_neg (by decide)]
  show asRes (C93_outcome exactEnv (.obj docJ)).2.choose = .ok prettyJ
  obtain ⟨q, h1, h2⟩ := (C93_outcome exactEnv (.obj docJ)).2.choose_spec
  rw [h2, C55_json_same docJ_wf (by decide) h1 textJ_exact]
  have : (some textJ).bind JsonText.indent = some prettyJ := by decide +kernel
  rw [this]
  rfl

/-- The document of `docJ` goes through the file unchanged. -/
example : Read.readFile (after (some (.obj docJ)) 1000) b!"/w/api.json" = .ok ⟨b!"/w/api.json", .obj docJ⟩ := by
  obtain ⟨w, h0, h1, h2⟩ := C98_round_trip exactEnv_number (jsonMachine_json _ 1000) (jsonMachine_format _ 1000) (jsonMachine_file _ 1000) (nolog := true)
    (o := docJ) (err := some .loadErr) rfl docJ_wf docJ_unicode docJ_ok.1 docJ_ok.2
  rw [docJ_encoded] at h0
  cases h0
  have := (h2 ⟨rfl, rfl, by decide +kernel⟩).2 _ (after_sees _ 1000)
  rwa [jsonMachine_output] at this

/-- A failed scan. -/
example : Read.readFile (after none 1000) b!"/w/api.json" = .ok ⟨b!"/w/api.json", .obj []⟩ := by
  have := (C98_failed_scan (jsonMachine_json none 1000) (jsonMachine_format none 1000) (jsonMachine_file none 1000) (nolog := true)
    (err := some .loadErr) rfl ⟨rfl, rfl, by decide⟩).2 _ (after_sees none 1000)
  rwa [jsonMachine_output] at this

/-- NaN. -/
example : ∃ e, Read.readFile (after (some (.obj [(b!"a", .num (-99))])) 1000) b!"/w/api.json" = .err e := by
  have := (C98_unwritable (fun n t h => (exactEnv_number n t h).1) (jsonMachine_json _ 1000) (jsonMachine_format _ 1000) (jsonMachine_file _ 1000) (nolog := true)
    (o := [(b!"a", .num (-99))]) (err := some .loadErr) rfl (by simp [Json.WF, Json.WFO, Obj.Sorted, Obj.keys])
    (by rintro ⟨h, _⟩; simp [AllNumbers, AllNumbersO, CanWrite, exactEnv, intEnv] at h) ⟨rfl, rfl⟩).2.2 _ (after_sees _ 1000)
  rwa [jsonMachine_output] at this

/-- A full disk. -/
example : ∃ e, Read.readFile (after (some (.obj docJ)) 100) b!"/w/api.json" = .err e := by
  obtain ⟨w, h0, hw, h⟩ := C98_truncated exactEnv_number (jsonMachine_json _ 100) (jsonMachine_format _ 100) (jsonMachine_file _ 100) (nolog := true)
    (o := docJ) (err := some .loadErr) rfl docJ_wf docJ_unicode docJ_ok.1 docJ_ok.2 ⟨rfl, rfl⟩
  rw [docJ_encoded] at h0
  cases h0
  have := (h (by decide +kernel)).2.2 _ (after_sees _ 100)
  rwa [jsonMachine_output] at this

/-- The generated Go file. -/
example : ∃ w, JsonText Str.atoi w (.obj docJ) ∧ ∃ file,
    (main (jsonMachine (some (.obj docJ)) 1000) { output := b!"api.go", format := b!"go" } true).files b!"/w/api.go" = some file ∧
    firstRaw file = some (w, b!"\n") := by
  have hf : (inForce (jsonMachine (some (.obj docJ)) 1000) { output := b!"api.go", format := b!"go" }).format = b!"go" := by
    show (inForce failing { output := b!"api.go", format := b!"go" }).format = _
    decide
  have ho : (inForce (jsonMachine (some (.obj docJ)) 1000) { output := b!"api.go", format := b!"go" }).output = b!"/w/api.go" := by
    show (inForce failing { output := b!"api.go", format := b!"go" }).output = _
    decide
  obtain ⟨w, file, h0, h1, h2, h3, h4⟩ := C98_go exactEnv_number (jsonMachine_json _ 1000) hf (by unfold ToFile; rw [ho]; decide) (nolog := true)
    (o := docJ) (err := some .loadErr) rfl docJ_wf docJ_unicode docJ_ok.1 docJ_ok.2
  have he : w = textJ := by
    change asRes (C93_outcome exactEnv (.obj docJ)).1.choose = .ok w at h0
    rw [C55_json_same docJ_wf (by decide) (C93_outcome exactEnv (.obj docJ)).1.choose_spec textJ_exact] at h0
    cases h0
    rfl
  refine ⟨w, h1, file, ho ▸ h3 ⟨rfl, rfl, ?_⟩, h4.2 ?_⟩
  · rw [h2, he]; decide +kernel
  · simp only [docJ, AllTexts, AllTextsO, AllTextsL]
    decide

end Oapi.Props
