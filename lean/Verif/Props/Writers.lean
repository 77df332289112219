import Verif.Proofs.Writers
import Verif.Props.EndToEnd

/-! Property C122: processes of the command that write the same output file at the same time.  `text i` is what process `i` writes. -/
namespace Oapi.Props
open Spec Spec.JsonText Writers
open Spec.PtrJson (JsonString Quotable)
open JsonText (Env Marshals MarshalsIndent unmarshal unmarshalMap)

section
variable {text : Nat → Str} {old : Option Str} {s : Writers.State} {w : Str} {env : Env}

/-- No process is in the middle of its writing. -/
def AllEnded (s : Writers.State) : Prop := ∀ i, s.pc i = .ready ∨ ∃ k, s.pc i = .done k

/-- **C122** (at any time): if all processes write the same text, then at every moment, whatever was done in what order and whoever was stopped where, the
output is what it was before all of them, is missing, or is a beginning of the text. -/
theorem C122_at_any_time (ht : ∀ i, text i = w) (h : Steps text (start old) s) : s.content = old ∨ s.content = none ∨ ∃ c, s.content = some c ∧ c <+: w := by
  rcases content_of (inv_steps inv_start h) with ⟨h1, _⟩ | ⟨h1, _⟩ | ⟨k, c, h1, _, _, _, h2⟩
  · exact .inl h1
  · exact .inr (.inl h1)
  · refine .inr (.inr ⟨c, h1, ?_⟩)
    rw [List.prefix_iff_getElem?]
    intro j hj
    obtain ⟨i, _, hb⟩ := h2 j c[j] (List.getElem?_eq_getElem hj)
    rw [← ht i]; exact hb

/-- **C122** (in the end, same text): when all that began have finished, the output is the text, completely. -/
theorem C122_same_text (ht : ∀ i, text i = w) (h : Steps text (start old) s) (he : AllEnded s) (hd : ∃ i k, s.pc i = .done k) : s.content = some w := by
  obtain ⟨k, c, h1, ⟨i, hi⟩, h2, h3⟩ := content_end (inv_steps inv_start h) he hd
  have hl := h2 i hi
  rw [ht] at hl
  have hc : c <+: w := by
    rw [List.prefix_iff_getElem?]
    intro j hj
    obtain ⟨i, _, hb⟩ := h3 j c[j] (List.getElem?_eq_getElem hj)
    rw [← ht i]; exact hb
  rw [h1, hc.eq_of_length_le hl]

/-- **C122** (in the end, different texts): the output then is as long as the longest text of those that opened that file, and every byte is the one that one
of their texts has there. -/
theorem C122_different_texts (h : Steps text (start old) s) (he : AllEnded s) (hd : ∃ i k, s.pc i = .done k) :
    ∃ k c, s.content = some c ∧ (∃ i, s.pc i = .done k ∧ (text i).length = c.length) ∧ (∀ i, s.pc i = .done k → (text i).length ≤ c.length) ∧
      ∀ (j : Nat) (b : UInt8), c[j]? = some b → ∃ i, s.pc i = .done k ∧ (text i)[j]? = some b := by
  obtain ⟨k, c, h1, ⟨i, hi⟩, h2, h3⟩ := content_end (inv_steps inv_start h) he hd
  refine ⟨k, c, h1, ?_, h2, h3⟩
  cases hc : c.length with
  | zero =>
    have := h2 i hi
    exact ⟨i, hi, by omega⟩
  | succ n =>
    obtain ⟨x, hx, hb⟩ := h3 n c[n] (List.getElem?_eq_getElem (by omega))
    have h4 := (List.getElem?_eq_some_iff.1 hb).1
    have h5 := h2 x hx
    exact ⟨x, hx, by omega⟩

/-- **C122** (one writer): a file that only one of them opened has its text. -/
theorem C122_one_writer (h : Steps text (start old) s) (he : AllEnded s) (hd : ∃ i k, s.pc i = .done k)
    (h1 : ∀ i j k, s.pc i = .done k → s.pc j = .done k → i = j) : ∃ i k, s.pc i = .done k ∧ s.content = some (text i) := by
  obtain ⟨k, c, hc, ⟨i, hi, hl⟩, _, hb⟩ := C122_different_texts h he hd
  refine ⟨i, k, hi, ?_⟩
  have : c <+: text i := by
    rw [List.prefix_iff_getElem?]
    intro j hj
    obtain ⟨x, hx, hb⟩ := hb j c[j] (List.getElem?_eq_getElem hj)
    rw [h1 i x k hi hx]; exact hb
  rw [hc, this.eq_of_length_le (by omega)]

/-- **C122** (nobody waits): a process that was not stopped and has not finished can do its next step. -/
theorem C122_goes_on (h : Steps text (start old) s) {i : Nat} (ha : s.alive i = true) (hd : ∀ k, s.pc i ≠ .done k) :
    ∃ s', Step text i s s' ∧ s'.pc i ≠ s.pc i := goes_on (inv_steps inv_start h) ha hd

/-- **C122** (the run of the command): whatever the output is at any moment of a run of `Model/Process` with this output, signals and kills included, it is
what was there before, or what one of these processes can make of it, writing what the run writes. -/
theorem C122_run {L : Type} {m : Main.Machine L} {ff : Cli.Flags} {nolog : Bool} {p : Str} {acts : List Process.Act} {s : Process.State}
    (hr : m.faults.removes = true) (hp : Cli.dest (Main.fullConfig m.wd m.load ff).1.base.output = .file p)
    (h : Process.Steps m ff nolog (Process.start m) acts s) :
    s.files p = m.files p ∨ ∃ failed w ws, Process.dataFor m ff nolog failed = some w ∧ Steps (fun _ => w) (start (m.files p)) ws ∧
      ws.content = s.files p := (fits_steps hr hp h).2

/-- Process 0 writes `a`, all others `b`. -/
def twoTexts (a b : Str) : Nat → Str := fun i => if i = 0 then a else b

/-- **C122** (two texts mixed): for any two texts and any old output, two processes can finish without an error and leave the first text with the rest of the
second behind it. -/
theorem C122_mixture (old : Option Str) (a b : Str) : ∃ s, Steps (twoTexts a b) (start old) s ∧ AllEnded s ∧ (∀ i, s.alive i = true) ∧
    (∃ k, s.pc 0 = .done k ∧ s.pc 1 = .done k) ∧ s.content = some (a ++ b.drop a.length) := by
  let k := old.toList.length
  let s2 : Writers.State := { name := none, store := old.toList, pc := update (update (fun _ => .ready) 0 .removed) 1 .removed, alive := fun _ => true }
  have h2 : Steps (twoTexts a b) (start old) s2 :=
    .step (.step .refl (.remove (i := 0) rfl rfl)) (.remove (i := 1) rfl rfl)
  let s3 : Writers.State := { name := some k, store := old.toList ++ [[]], pc := update s2.pc 0 (.copying k 0), alive := fun _ => true }
  have h3 : Steps (twoTexts a b) (start old) s3 := .step h2 (.opens (i := 0) rfl rfl)
  let s4 : Writers.State := { s3 with pc := update s3.pc 1 (.copying k 0) }
  have h4 : Steps (twoTexts a b) (start old) s4 := .step h3 (.opens (i := 1) rfl rfl)
  have hk : (old.toList ++ [([] : Str)])[k]? = some [] := by simp [k]
  have h5 := copy_all (text := twoTexts a b) (i := 1) (k := k) b s4 [] [] [] rfl rfl rfl rfl hk
  have h6 := steps_trans h4 h5
  have hk' : ((old.toList ++ [([] : Str)]).set k ([] ++ b ++ ([] : Str).drop b.length))[k]? = some ([] ++ b) := by simp [k]
  have h7 := copy_all (text := twoTexts a b) (i := 0) (k := k) a
    { s4 with store := s4.store.set k ([] ++ b ++ ([] : Str).drop b.length), pc := update s4.pc 1 (.done k) } [] [] b rfl rfl rfl rfl hk'
  refine ⟨_, steps_trans h6 h7, ?_, fun _ => rfl, ⟨k, rfl, rfl⟩, ?_⟩
  · intro i
    by_cases h0 : i = 0
    · subst h0; exact .inr ⟨k, rfl⟩
    · by_cases h1 : i = 1
      · subst h1; exact .inr ⟨k, rfl⟩
      · exact .inl (by simp [s4, s3, s2, update, h0, h1])
  · simp [Writers.State.content, s4, s3, k]

/-- The text of an object as the command writes it. -/
def Writes (env : Env) (o : Obj) (w : Str) : Prop := Marshals env (.obj o) (some w) ∨ MarshalsIndent env (.obj o) (some w)

theorem writes_means (hT : ∀ n t, env.numText n = some t → NumberText env.numOf t n) {o : Obj} (hw : Json.WF (.obj o)) (hu : AllTexts Unicode (.obj o))
    (h : Writes env o w) : Means (NumberText env.numOf) GoString (.value (.obj o)) w :=
  Oapi.JsonText.means_mono (fun _ _ h => Oapi.JsonText.go_json h) (h.elim (written_means hT hw hu).1 (written_means hT hw hu).2)

/-- **C122** (readers): if all processes write the same document in the same JSON format, then whoever reads the output at any moment finds what was there
before, finds nothing, cannot read what he finds, or gets the document. -/
theorem C122_reader (hT : ∀ n t, env.numText n = some t → NumberText env.numOf t n) {o : Obj} (hw : Json.WF (.obj o)) (hu : AllTexts Unicode (.obj o))
    (hx : Writes env o w) (ht : ∀ i, text i = w) (h : Steps text (start old) s) :
    s.content = old ∨ s.content = none ∨ ∃ c, s.content = some c ∧ (unmarshalMap env.numOf c = none ∨ unmarshalMap env.numOf c = some o) := by
  have hm := writes_means hT hw hu hx
  refine (C122_at_any_time ht h).imp_right (Or.imp_right ?_)
  rintro ⟨c, h1, h2⟩
  refine ⟨c, h1, ?_⟩
  rcases Nat.lt_or_ge c.length w.length with hl | hl
  · left
    have : c = w.take c.length := List.prefix_iff_eq_take.1 h2
    unfold unmarshalMap
    cases hj : unmarshal env.numOf c with
    | none => rfl
    | some j => rw [this] at hj; exact absurd hj (prefix_unreadable hm hl j)
  · right
    rw [h2.eq_of_length_le hl]
    have := followed_unreadable (r := []) hm
    simpa using this

theorem object_ends {f : Str → Option Int} {o : Obj} (h : Means (NumberText f) GoString (.value (.obj o)) w) : ∃ t, w = t ++ [125] := by
  cases h with
  | obj0 _ => exact ⟨123 :: _, (List.cons_append ..).symm⟩
  | obj _ _ => exact ⟨123 :: _, (List.cons_append ..).symm⟩

/-- **C122** (different documents): two processes that write different documents, one text being longer than the other, can both finish without an error and
leave a file that nobody can read. -/
theorem C122_unreadable (hT : ∀ n t, env.numText n = some t → NumberText env.numOf t n) {o o' : Obj} {w' : Str} (hw : Json.WF (.obj o))
    (hu : AllTexts Unicode (.obj o)) (hw' : Json.WF (.obj o')) (hu' : AllTexts Unicode (.obj o')) (hx : Writes env o w) (hx' : Writes env o' w')
    (hl : w.length < w'.length) (old : Option Str) :
    ∃ s c, Steps (twoTexts w w') (start old) s ∧ AllEnded s ∧ (∀ i, s.alive i = true) ∧ s.content = some c ∧ unmarshalMap env.numOf c = none := by
  obtain ⟨s, h1, h2, h3, _, h4⟩ := C122_mixture old w w'
  refine ⟨s, _, h1, h2, h3, h4, ?_⟩
  rw [followed_unreadable (writes_means hT hw hu hx), if_neg]
  obtain ⟨t, ht⟩ := object_ends (writes_means hT hw' hu' hx')
  intro hb
  have h5 : 125 ∈ w'.drop w.length := by
    have h6 : (w'.drop w.length).getLast? = some 125 := by rw [List.getLast?_drop, if_neg (by omega), ht]; simp
    exact List.mem_of_getLast? h6
  exact absurd (hb 125 h5) (by decide)
end

/-! Concrete executions. -/
namespace WritersEx

/-- The mixture of `{"a":1}` and `{"abcd":12}` is none of them and no JSON. -/
example : ∃ s, Steps (twoTexts b!"{\"a\":1}" b!"{\"abcd\":12}") (start (some b!"old")) s ∧ AllEnded s ∧ s.content = some b!"{\"a\":1}:12}" := by
  obtain ⟨s, h1, h2, _, _, h3⟩ := C122_mixture (some b!"old") b!"{\"a\":1}" b!"{\"abcd\":12}"
  exact ⟨s, h1, h2, h3.trans (by decide)⟩

/-- The hypotheses of `C122_same_text`: process 7 removes the file that process 0 has written half, and both finish. -/
example : ∃ s, Steps (fun _ => b!"{}") (start none) s ∧ AllEnded s ∧ s.pc 0 = .done 0 ∧ s.pc 7 = .done 1 ∧ s.content = some b!"{}" := by
  let w : Str := b!"{}"
  let f : Nat → Str := fun _ => w
  let al : Nat → Bool := fun _ => true
  let p0 : Nat → Pc := fun _ => .ready
  let p1 := update p0 0 .removed
  let p2 := update p1 0 (.copying 0 0)
  let p3 := update p2 0 (.copying 0 1)
  let p4 := update p3 7 .removed
  let p5 := update p4 7 (.copying 1 0)
  let p6 := update p5 0 (.copying 0 2)
  let p7 := update p6 7 (.copying 1 1)
  let p8 := update p7 7 (.copying 1 2)
  let p9 := update p8 0 (.done 0)
  let p10 := update p9 7 (.done 1)
  let s0 : Writers.State := ⟨none, [], p0, al⟩
  let s1 : Writers.State := ⟨none, [], p1, al⟩
  let s2 : Writers.State := ⟨some 0, [[]], p2, al⟩
  let s3 : Writers.State := ⟨some 0, [[123]], p3, al⟩
  let s4 : Writers.State := ⟨none, [[123]], p4, al⟩
  let s5 : Writers.State := ⟨some 1, [[123], []], p5, al⟩
  let s6 : Writers.State := ⟨some 1, [[123, 125], []], p6, al⟩
  let s7 : Writers.State := ⟨some 1, [[123, 125], [123]], p7, al⟩
  let s8 : Writers.State := ⟨some 1, [[123, 125], [123, 125]], p8, al⟩
  let s9 : Writers.State := ⟨some 1, [[123, 125], [123, 125]], p9, al⟩
  let s10 : Writers.State := ⟨some 1, [[123, 125], [123, 125]], p10, al⟩
  have t1 : Step f 0 s0 s1 := .remove rfl rfl
  have t2 : Step f 0 s1 s2 := .opens (i := 0) (s := s1) rfl rfl
  have t3 : Step f 0 s2 s3 := .write (i := 0) (s := s2) (k := 0) (n := 0) (c := []) (b := 123) rfl rfl rfl rfl
  have t4 : Step f 7 s3 s4 := .remove rfl rfl
  have t5 : Step f 7 s4 s5 := .opens (i := 7) (s := s4) rfl rfl
  have t6 : Step f 0 s5 s6 := .write (i := 0) (s := s5) (k := 0) (n := 1) (c := [123]) (b := 125) rfl rfl rfl rfl
  have t7 : Step f 7 s6 s7 := .write (i := 7) (s := s6) (k := 1) (n := 0) (c := []) (b := 123) rfl rfl rfl rfl
  have t8 : Step f 7 s7 s8 := .write (i := 7) (s := s7) (k := 1) (n := 1) (c := [123]) (b := 125) rfl rfl rfl rfl
  have t9 : Step f 0 s8 s9 := .finish (i := 0) (s := s8) (k := 0) (n := 2) rfl rfl (Nat.le_refl _)
  have t10 : Step f 7 s9 s10 := .finish (i := 7) (s := s9) (k := 1) (n := 2) rfl rfl (Nat.le_refl _)
  have hs : Steps f s0 s10 := .step (.step (.step (.step (.step (.step (.step (.step (.step (.step .refl t1) t2) t3) t4) t5) t6) t7) t8) t9) t10
  have he : AllEnded s10 := fun i => by
    by_cases h0 : i = 0
    · subst h0; exact .inr ⟨0, rfl⟩
    · by_cases h7 : i = 7
      · subst h7; exact .inr ⟨1, rfl⟩
      · exact .inl (by simp [s10, p10, p9, p8, p7, p6, p5, p4, p3, p2, p1, p0, update, h0, h7])
  exact ⟨s10, hs, he, rfl, rfl, C122_same_text (w := w) (old := none) (fun _ => rfl) hs he ⟨0, 0, rfl⟩⟩

end WritersEx
end Oapi.Props
