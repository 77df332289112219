import Verif.Props.Process
import Verif.Props.SystemEx

/-! C103 and C104 apply to concrete executions. -/
namespace Oapi.Props.ProcessEx
open Spec Spec.JsonText
open JsonText (unmarshalMap)
open Main Process

set_option maxRecDepth 100000

/-- The machine of C98's examples: an old document stands in `/w/api.json`. -/
noncomputable abbrev mach : Machine Unit := jsonMachine (some (.obj docJ)) 1000
abbrev ff : Cli.Flags := { output := b!"api.json" }

/-- A signal during the reading of the configuration; the goroutine sees it while packages are loaded, and loading fails. -/
theorem interrupted_at_scan : ∃ s, Steps mach ff true (start mach) [.main, .signal, .main, .watcher, .main] s ∧ s.pc = .scanning true :=
  ⟨_, .step (.step (.step (.step (.step .refl (.main false rfl)) (.caught rfl rfl)) (.main false rfl)) (.watcher rfl rfl rfl)) (.main true rfl), rfl⟩

/-- The command goes on, ends with status 0 and leaves `null` in place of the old document. -/
example : ∃ acts s, Steps mach ff true (start mach) acts s ∧ s.pc = .ended .returns ∧ .kill ∉ acts ∧ s.files b!"/w/api.json" = some b!"null" := by
  obtain ⟨s₁, h, h1⟩ := interrupted_at_scan
  obtain ⟨n, s, e, h2, h3⟩ := C103_finishes h (by rw [h1]; simp) true
  obtain ⟨rfl, h4⟩ := C103_null (jsonMachine_json _ 1000) (jsonMachine_format _ 1000) (jsonMachine_file _ 1000) ⟨rfl, rfl, by decide⟩ h h1 h2 h3
  rw [jsonMachine_output] at h4
  refine ⟨_, s, steps_trans h h2, h3, ?_, h4⟩
  intro hc
  rcases List.mem_append.1 hc with hc | hc
  · simp at hc
  · have := List.eq_of_mem_replicate hc; cases this

/-- The same signal, but the packages get loaded anyway, or before it: the document is written. -/
example : ∃ acts s, Steps mach ff true (start mach) acts s ∧ .signal ∈ acts ∧ s.pc = .ended .returns ∧ s.files b!"/w/api.json" = some prettyJ := by
  have h : ∃ s, Steps mach ff true (start mach) [.main, .signal, .main, .watcher, .main] s ∧ s.pc = .scanning false :=
    ⟨_, .step (.step (.step (.step (.step .refl (.main false rfl)) (.caught rfl rfl)) (.main false rfl)) (.watcher rfl rfl rfl)) (.main false rfl), rfl⟩
  obtain ⟨s₁, h, h1⟩ := h
  obtain ⟨n, s, e, h2, h3⟩ := C103_finishes h (by rw [h1]; simp) true
  have h4 := C103_too_late h h1 h2 h3
  obtain ⟨w, h0, _, h5⟩ := C98_round_trip exactEnv_number (jsonMachine_json _ 1000) (jsonMachine_format _ 1000) (jsonMachine_file _ 1000) (nolog := true)
    (o := docJ) (err := some .loadErr) rfl docJ_wf docJ_unicode docJ_ok.1 docJ_ok.2
  rw [docJ_encoded] at h0
  cases h0
  have h6 := (h5 ⟨rfl, rfl, by decide +kernel⟩).1
  rw [jsonMachine_output] at h6
  have he : e = .returns := by
    have := h4.1
    rw [main_ret (m := mach) (ff := ff) (nolog := true) (doc := some (.obj docJ)) (err := some .loadErr) rfl] at this
    have hfmt := (encoded_format (jsonMachine_format (some (.obj docJ)) 1000) (.obj docJ)).trans (docJ_encoded 1000)
    simp only [Option.getD_some] at this
    rw [hfmt] at this
    simp only at this
    rw [this]
    unfold Main.output
    split <;> rfl
  subst he
  exact ⟨_, s, steps_trans h h2, by simp, h3, (congrFun h4.2.2.2 _).trans h6⟩

/-- A signal before `signal.Notify` is in force ends the process. -/
example : ∃ s, Steps mach ff true (start mach) [.signal] s ∧ s.pc = .killed := ⟨_, .step .refl (.uncaught rfl rfl), rfl⟩

theorem data_at : dataFor mach ff true false = some prettyJ := by
  have hfmt := (encoded_format (jsonMachine_format (some (.obj docJ)) 1000) (.obj docJ)).trans (docJ_encoded 1000)
  change (match Format.format (mach.yaml (.obj docJ)) (mach.json (.obj docJ)) (mach.pretty (.obj docJ)) (inForce mach ff).format with
    | .panic => none
    | r => some (dataOf r)) = _
  rw [hfmt]
  rfl

theorem dest_at : Cli.dest (fullConfig mach.wd mach.load ff).1.base.output = .file b!"/w/api.json" := by
  have := dest_file (jsonMachine_file (some (.obj docJ)) 1000)
  rw [jsonMachine_output] at this
  exact this

/-- After the scan. -/
noncomputable def atRemove : State :=
  { pc := .remove b!"/w/api.json" prettyJ, notified := true, pending := false, watcher := .waiting, cancelled := false, stdout := [], stderr := [], files := mach.files }

theorem scan_step : mainStep mach ff true true { atRemove with pc := .scanning false } = some atRemove := by
  simp only [mainStep, data_at, dest_at]
  rfl

theorem to_remove : Steps mach ff true (start mach) [.main, .main, .main, .main] atRemove :=
  .step (.step (.step (.step .refl (.main false rfl)) (.main false rfl)) (.main true rfl)) (.main true scan_step)

/-- Removed, opened and three bytes written. -/
theorem to_bytes : ∃ s, Steps mach ff true (start mach) [.main, .main, .main, .main, .main, .main, .main, .main, .main] s ∧
    s.pc = .copying b!"/w/api.json" prettyJ 3 ∧ s.files b!"/w/api.json" = some (prettyJ.take 3) :=
  ⟨_, .step (.step (.step (.step (.step to_remove (.main false rfl)) (.main false rfl)) (.main false rfl)) (.main false rfl)) (.main false rfl), rfl, by decide +kernel⟩

/-- The file system of a reader then. -/
def reader (s : State) : Read.FS where
  lstat := fun _ => true
  names := fun _ => []
  content := s.files
  globMeta := fun _ => .ok []
  matchOther := fun _ _ => false
  json := unmarshalMap exactEnv.numOf
  yaml := fun _ => none
  sprintOther := fun _ => []

theorem reader_sees (s : State) : Sees exactEnv s.files b!"/w/api.json" (reader s) :=
  ⟨rfl, rfl, b!"api.json", ⟨by decide, .inr ⟨b!"/w", rfl⟩⟩, b!"api", rfl⟩

/-- A kill there leaves a file that cannot be read; the old document is lost. -/
example : ∃ acts s, Steps mach ff true (start mach) acts s ∧ s.pc = .killed ∧ s.files b!"/w/api.json" = some (prettyJ.take 3) ∧
    ∃ e, Read.readFile (reader s) b!"/w/api.json" = .err e := by
  obtain ⟨s, h, h1, h2⟩ := to_bytes
  have hk : Steps mach ff true (start mach) ([.main, .main, .main, .main, .main, .main, .main, .main, .main] ++ [.kill]) { s with pc := .killed } :=
    h.step (.kill (by rw [h1]; rfl))
  refine ⟨_, _, hk, rfl, h2, ?_⟩
  rcases C104_reader exactEnv_number (jsonMachine_json _ 1000) (jsonMachine_format _ 1000) (jsonMachine_file _ 1000)
    (o := docJ) (err := some .loadErr) rfl docJ_wf ⟨docJ_unicode, docJ_ok.1, docJ_ok.2⟩ rfl hk with h3 | h3
  · rw [jsonMachine_output] at h3
    have h4 : some (prettyJ.take 3) = some b!"{\"openapi\":\"3.0.0\"}" := h2.symm.trans h3
    exact absurd h4 (by decide +kernel)
  · rw [jsonMachine_output] at h3
    rcases h3 _ (reader_sees _) with h3 | h3 | ⟨h3, _⟩
    · exact h3
    · obtain ⟨_, data, k, h4, h5, _⟩ := (C81_json (fs := reader { s with pc := .killed }) ⟨by decide, .inr ⟨b!"/w", rfl⟩⟩ ⟨b!"api", rfl⟩ _).1 h3
      have h6 : some data = some (prettyJ.take 3) := h4.symm.trans h2
      cases h6
      have h7 : (reader { s with pc := .killed }).json = unmarshalMap exactEnv.numOf := rfl
      rw [h7] at h5
      have : (unmarshalMap exactEnv.numOf (prettyJ.take 3)).isNone = true := by decide +kernel
      rw [h5] at this
      cases this
    · simp at h3

open SystemEx in
/-- Recovery, in the world of C100's example: a run is killed (or not) after any number of bytes; the next one with enough stack does as if it had not been. -/
example : ∃ N, ∀ (k n : Nat) (acts : List Act) (s : State), N ≤ k →
    Steps (System.machine world disk (chance n)) (flags apart) true (start (System.machine world disk (chance n))) acts s →
    (System.run world (flags apart) true s.files (chance k)).files = (System.run world (flags apart) true disk (chance k)).files := by
  obtain ⟨m, N, h1, h2⟩ := C100_repeated_runs exact_numbers (settled_at apart_in) (separate apart_in) notASpec (.inr (format_at apart_in))
  rw [input_at apart_in] at h1
  cases is_docM h1
  exact ⟨N, fun k n acts s hk h => (C104_recovery (separate apart_in) notASpec (settled_at apart_in).input (.run .first h)
    (undisturbed apart_in hk).orders rfl (h2 docM_portable [] _ (undisturbed apart_in hk)).1).2.2.2⟩

end Oapi.Props.ProcessEx
