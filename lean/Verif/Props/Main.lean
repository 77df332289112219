import Verif.Model.Main
import Verif.Props.Scan
import Verif.Props.Cli
import Verif.Props.Format
import Verif.Props.ScanEx

/-! C69–C72: the command as a whole. -/
namespace Oapi.Props
open Spec
open Main
open Cli (Flags Level Dest Faults)

variable {L : Type} {m : Machine L} {ff : Flags} {nolog : Bool}

/-- The options the command passes to the library. -/
def passed (m : Machine L) (ff : Flags) (nolog : Bool) : Options L :=
  build m.void (cmdOptions (if nolog then m.void else m.logger) (fullConfig m.wd m.load ff).1)

/-- The settings in force. -/
def inForce (m : Machine L) (ff : Flags) : Cli.Cfg := (fullConfig m.wd m.load ff).1.base

/-- The file system lets the command replace the output file. -/
def Writable (f : Faults) (data : Str) : Prop := f.removes = true ∧ f.opens = true ∧ data.length ≤ f.written

theorem writeFile_all {f : Faults} {data : Str} {old : Option Str} (h : Writable f data) : Cli.writeFile f data old = some data := by
  obtain ⟨h1, h2, h3⟩ := h
  simp [Cli.writeFile, h1, h2, List.take_of_length_le h3]

theorem dest_file {p : Str} (h : p ≠ [] ∧ p ≠ b!"stdout" ∧ p ≠ b!"stderr") : Cli.dest p = .file p := by
  simp [Cli.dest, h.1, h.2.1, h.2.2]

theorem main_ret {doc : Option Json} {err : Option Err} (h : m.scan (passed m ff nolog) = .ret doc err) :
    main m ff nolog =
      (let l₂ := (if (fullConfig m.wd m.load ff).2 then [] else [Level.fatal]) ++ (if err.isSome then [Level.fatal] else [])
       let d := doc.getD .null
       match Format.format (m.yaml d) (m.json d) (m.pretty d) (inForce m ff).format with
       | .panic => { exit := .panics, logs := l₂, files := m.files }
       | .ok s => output m.faults m.files (Cli.dest (inForce m ff).output) s l₂
       | .err _ => output m.faults m.files (Cli.dest (inForce m ff).output) [] (l₂ ++ [Level.fatal])) := by
  unfold main
  unfold passed at h
  simp only [h]
  rfl

/-! ### C69 -/

/-- C69: whatever the scan returned, a document or none, an error or none, the output file is replaced: it then holds the
formatted document, and the formatted null if there is none; nothing of the old content is left and no other file is touched. -/
theorem C69_output_replaced {doc : Option Json} {err : Option Err} {text : Str}
    (h : m.scan (passed m ff nolog) = .ret doc err)
    (hf : Format.format (m.yaml (doc.getD .null)) (m.json (doc.getD .null)) (m.pretty (doc.getD .null)) (inForce m ff).format = .ok text)
    (hp : (inForce m ff).output ≠ [] ∧ (inForce m ff).output ≠ b!"stdout" ∧ (inForce m ff).output ≠ b!"stderr")
    (hw : Writable m.faults text) :
    (main m ff nolog).files (inForce m ff).output = some text ∧
    ∀ q, q ≠ (inForce m ff).output → (main m ff nolog).files q = m.files q := by
  rw [main_ret h]
  simp only [hf, dest_file hp, output, if_true, writeFile_all hw, true_and]
  intro q hq
  rw [if_neg hq]

/-- C69: an unknown format (which a configuration file may name) empties the output file. -/
theorem C69_unknown_format_empties {doc : Option Json} {err : Option Err}
    (h : m.scan (passed m ff nolog) = .ret doc err)
    (hf : (inForce m ff).format ∉ [b!"yaml", b!"yml", b!"json", b!"json:pretty", b!"go"])
    (hp : (inForce m ff).output ≠ [] ∧ (inForce m ff).output ≠ b!"stdout" ∧ (inForce m ff).output ≠ b!"stderr")
    (hw : m.faults.removes = true ∧ m.faults.opens = true) :
    (main m ff nolog).files (inForce m ff).output = some [] := by
  rw [main_ret h]
  obtain ⟨_, hu⟩ := C56_unknown_format (m.yaml (doc.getD .null)) (m.json (doc.getD .null)) (m.pretty (doc.getD .null)) _ hf
  simp only [hu, dest_file hp, output, if_true]
  exact writeFile_all (data := []) ⟨hw.1, hw.2, Nat.zero_le _⟩

/-- C69: only a crash of the scan leaves the output alone: no file changes and nothing is printed. -/
theorem C69_crash_keeps_output (h : m.scan (passed m ff nolog) = .panic) :
    (main m ff nolog).files = m.files ∧ (main m ff nolog).stdout = [] ∧ (main m ff nolog).stderr = [] := by
  unfold main
  unfold passed at h
  simp only [h, and_self]

/-- C69: a document goes to exactly one place. -/
theorem C69_one_destination {doc : Option Json} {err : Option Err} {text : Str}
    (h : m.scan (passed m ff nolog) = .ret doc err)
    (hf : Format.format (m.yaml (doc.getD .null)) (m.json (doc.getD .null)) (m.pretty (doc.getD .null)) (inForce m ff).format = .ok text) :
    ((inForce m ff).output = [] ∨ (inForce m ff).output = b!"stdout" →
      (main m ff nolog).stdout = text ∧ (main m ff nolog).stderr = [] ∧ (main m ff nolog).files = m.files) ∧
    ((inForce m ff).output = b!"stderr" →
      (main m ff nolog).stdout = [] ∧ (main m ff nolog).stderr = text ∧ (main m ff nolog).files = m.files) ∧
    ((inForce m ff).output ≠ [] ∧ (inForce m ff).output ≠ b!"stdout" ∧ (inForce m ff).output ≠ b!"stderr" →
      (main m ff nolog).stdout = [] ∧ (main m ff nolog).stderr = []) := by
  rw [main_ret h]
  simp only [hf]
  refine ⟨fun ho => ?_, fun ho => ?_, fun ho => ?_⟩
  · have : Cli.dest (inForce m ff).output = .stdout := by
      rcases ho with ho | ho <;> simp [Cli.dest, ho]
    simp [this, output]
  · have : Cli.dest (inForce m ff).output = .stderr := by
      rw [ho]; decide
    simp [this, output]
  · simp [dest_file ho, output]

/-! ### C70 -/

/-- Encoders do not crash. -/
def SafeEncoders (m : Machine L) : Prop := ∀ d, m.yaml d ≠ .panic ∧ m.json d ≠ .panic ∧ m.pretty d ≠ .panic

theorem format_safe {y j p : Res Str} (hy : y ≠ .panic) (hj : j ≠ .panic) (hp : p ≠ .panic) (f : Str) : Format.format y j p f ≠ .panic := by
  unfold Format.format
  repeat' split
  all_goals first | assumption | simp_all

theorem output_exit {f : Faults} {files : Str → Option Str} {d : Dest} {data : Str} {l : List Level} : (output f files d data l).exit = .returns := by
  unfold output; split <;> rfl

/-- C70: the command ends with status 0 unless the scan crashes: configuration files that cannot be read, scans that fail, unknown
formats and output files that cannot be written do not show in the status. -/
theorem C70_status (hs : SafeEncoders m) : (main m ff nolog).exit = .panics ↔ m.scan (passed m ff nolog) = .panic := by
  cases h : m.scan (passed m ff nolog) with
  | panic =>
    unfold main
    unfold passed at h
    simp [h]
  | ret doc err =>
    rw [main_ret h]
    have := format_safe (hs (doc.getD .null)).1 (hs (doc.getD .null)).2.1 (hs (doc.getD .null)).2.2 (inForce m ff).format
    simp only
    split
    · contradiction
    · simp [output_exit]
    · simp [output_exit]

theorem output_logs {f : Faults} {files : Str → Option Str} {d : Dest} {data : Str} {l : List Level} : ∃ r, (output f files d data l).logs = l ++ r := by
  unfold output; split
  · exact ⟨[], by simp⟩
  · exact ⟨[], by simp⟩
  · exact ⟨_, by rw [List.append_assoc, List.append_assoc]⟩

/-- C70: with the real scan, a fatal error is logged in every run that does not crash, successful or not. -/
theorem C70_always_fatal {F : Type} (inp : Options L → Scan.Input F) (o : Scan.Orders) (fuel : Nat)
    (hm : ∀ x, m.scan x = Scan.scan (inp x) o fuel) (hs : SafeEncoders m) (hr : (main m ff nolog).exit = .returns) :
    Level.fatal ∈ (main m ff nolog).logs := by
  have hne : m.scan (passed m ff nolog) ≠ .panic := by
    intro h; rw [(C70_status hs).2 h] at hr; cases hr
  have key : ∀ doc e, m.scan (passed m ff nolog) = .ret doc (some e) → Level.fatal ∈ (main m ff nolog).logs := by
    intro doc e h
    rw [main_ret h]
    simp only
    split
    · simp
    · obtain ⟨r, hr⟩ := output_logs (f := m.faults) (files := m.files) (d := Cli.dest (inForce m ff).output)
      rw [hr]; simp
    · obtain ⟨r, hr⟩ := output_logs (f := m.faults) (files := m.files) (d := Cli.dest (inForce m ff).output)
      rw [hr]; simp
  rw [hm] at hne
  rcases C57_never_success (inp (passed m ff nolog)) o fuel with h | ⟨e, h⟩ | ⟨d, h⟩
  · exact absurd h hne
  · exact key _ _ ((hm _).trans h)
  · exact key _ _ ((hm _).trans h)

/-- C70: the command is silent exactly if nothing went wrong, and to have written a file without a message there must already have been one: the
first run that writes a file always reports a fatal error. -/
theorem C70_silent {doc : Option Json} {err : Option Err} (h : m.scan (passed m ff nolog) = .ret doc err) (hs : SafeEncoders m)
    (hp : (inForce m ff).output ≠ [] ∧ (inForce m ff).output ≠ b!"stdout" ∧ (inForce m ff).output ≠ b!"stderr") :
    (main m ff nolog).logs = [] ↔
      (fullConfig m.wd m.load ff).2 = true ∧ err = none ∧
      ∃ text, Format.format (m.yaml (doc.getD .null)) (m.json (doc.getD .null)) (m.pretty (doc.getD .null)) (inForce m ff).format = .ok text ∧
        (m.files (inForce m ff).output).isSome = true ∧ m.faults.removes = true ∧ m.faults.opens = true ∧ text.length ≤ m.faults.written := by
  rw [main_ret h]
  have := format_safe (hs (doc.getD .null)).1 (hs (doc.getD .null)).2.1 (hs (doc.getD .null)).2.2 (inForce m ff).format
  simp only
  split
  · contradiction
  · rename_i s hs'
    simp only [dest_file hp, output, List.append_eq_nil_iff]
    cases (fullConfig m.wd m.load ff).2 <;> cases err <;> cases m.faults.removes <;> cases m.faults.opens <;>
      cases (m.files (inForce m ff).output) <;> simp [hs']
    constructor
    · intro h1
      by_cases hl : m.faults.written < s.length
      · rw [h1 hl]; simp
      · omega
    · intro h1 h2; omega
  · rename_i e he
    simp only [dest_file hp, output]
    constructor
    · intro hl; simp at hl
    · rintro ⟨_, _, t, ht, _⟩; rw [he] at ht; cases ht

/-- C70: a run whose scan produced a document and one whose scan failed cannot be told apart by status and log: both depend on the
document only through the text that was written. -/
theorem C70_indistinguishable {m' : Machine L} {c : Json} {e e' : Err} {t t' : Str}
    (hsame : m'.wd = m.wd ∧ m'.load = m.load ∧ m'.faults = m.faults ∧ m'.files = m.files)
    (h : m.scan (passed m ff nolog) = .ret (some c) (some e)) (h' : m'.scan (passed m' ff nolog) = .ret none (some e'))
    (hf : Format.format (m.yaml c) (m.json c) (m.pretty c) (inForce m ff).format = .ok t)
    (hf' : Format.format (m'.yaml .null) (m'.json .null) (m'.pretty .null) (inForce m ff).format = .ok t')
    (hw : t.length ≤ m.faults.written ∧ t'.length ≤ m.faults.written) (ho : m.faults.opens = true) :
    (main m' ff nolog).exit = (main m ff nolog).exit ∧ (main m' ff nolog).logs = (main m ff nolog).logs := by
  obtain ⟨e1, e2, e3, e4⟩ := hsame
  have hin : inForce m' ff = inForce m ff := by unfold inForce; rw [e1, e2]
  rw [main_ret h, main_ret h', hin]
  simp only [Option.getD_some, Option.getD_none, hf, hf', Option.isSome_some, e1, e2, e3, e4]
  refine ⟨by rw [output_exit, output_exit], ?_⟩
  unfold output
  split
  · rfl
  · rfl
  · simp [ho, hw.1, hw.2]

/-! ### C71 -/

/-- The last value an option list gives for a setting. -/
def lastOf {α β : Type} (f : α → Option β) : List α → Option β
  | [] => none
  | x :: t => (lastOf f t).orElse fun _ => f x

/-- What an option sets. -/
def setsDir : Opt L → Option Str
  | .withDir d => some d
  | _ => none
def setsOverride : Opt L → Option (List (Str × Json))
  | .withOverride d => some d
  | _ => none
def setsDefOps : Opt L → Option (List (Str × Json))
  | .withDefOps d => some d
  | _ => none
def setsRoot : Opt L → Option Json
  | .withRootSchema d => some d
  | _ => none

theorem build_aux (void : L) (os : List (Opt L)) (r : Options L) :
    (os.foldl (apply void) r).dir = ((lastOf setsDir os).orElse fun _ => r.dir) ∧
    (os.foldl (apply void) r).override = (lastOf setsOverride os).getD r.override ∧
    (os.foldl (apply void) r).defops = (lastOf setsDefOps os).getD r.defops ∧
    (os.foldl (apply void) r).root = (lastOf setsRoot os).getD r.root := by
  induction os generalizing r with
  | nil => simp [lastOf]
  | cons x t ih =>
    obtain ⟨h1, h2, h3, h4⟩ := ih (apply void r x)
    rw [List.foldl_cons, h1, h2, h3, h4]
    simp only [lastOf]
    cases x <;>
    · refine ⟨?_, ?_, ?_, ?_⟩
      · cases lastOf setsDir t <;> simp [apply, setsDir] <;> split <;> rfl
      · cases lastOf setsOverride t <;> simp [apply, setsOverride] <;> split <;> rfl
      · cases lastOf setsDefOps t <;> simp [apply, setsDefOps] <;> split <;> rfl
      · cases lastOf setsRoot t <;> simp [apply, setsRoot] <;> split <;> rfl

/-- C71: of several options of one kind the last one counts, nothing is combined; without one the default stays: the working
directory, no overrides, no default operations, an empty root. -/
theorem C71_last_option_wins (void : L) (os : List (Opt L)) (wd : Str) :
    (build void os).path wd = (lastOf setsDir os).getD wd ∧
    (build void os).override = (lastOf setsOverride os).getD [] ∧
    (build void os).defops = (lastOf setsDefOps os).getD [] ∧
    (build void os).root = (lastOf setsRoot os).getD (.obj []) := by
  obtain ⟨h1, h2, h3, h4⟩ := build_aux void os {}
  refine ⟨?_, h2, h3, h4⟩
  unfold Options.path build
  rw [h1]
  cases lastOf setsDir os <;> rfl

/-- C71: `WithLog(nil)` leaves no logger instead of the silent one. -/
theorem C71_nil_logger_stays_nil (void : L) (os : List (Opt L)) : (build void (os ++ [.withLog none])).log = none := by
  simp [build, apply]

example : (build () [.withOverride [(b!"a", .null)], .withDir b!"/x", .withOverride [(b!"b", .null)]]).override = [(b!"b", .null)] := by
  decide

/-! ### C72 -/

/-- The settings that reach the scan, and nothing else. -/
structure Same (c c' : Config) : Prop where
  dir : c.base.dir = c'.base.dir
  info : c.info = c'.info
  servers : c.servers = c'.servers
  security : c.security = c'.security
  tags : c.tags = c'.tags
  externalDocs : c.externalDocs = c'.externalDocs
  components : c.components = c'.components
  overrides : c.overrides = c'.overrides
  operations : c.operations = c'.operations

/-- C72: `version`, `openapi` and `exclude` have no effect: configurations that agree in the other settings give the same scan. -/
theorem C72_settings_without_effect (void log : L) {c c' : Config} (h : Same c c') :
    build void (cmdOptions log c) = build void (cmdOptions log c') := by
  obtain ⟨h1, h2, h3, h4, h5, h6, h7, h8, h9⟩ := h
  unfold cmdOptions rootOf
  rw [h1, h2, h3, h4, h5, h6, h7, h8, h9]

theorem build_cmd (void log : L) (c : Config) : build void (cmdOptions log c) =
    { dir := if c.base.dir = [] then none else some c.base.dir, log := some log, override := c.overrides, defops := c.operations, root := rootOf c } := by
  have e1 : c.base.dir.length > 0 ↔ ¬ c.base.dir = [] := by cases c.base.dir <;> simp
  have e2 : c.overrides.length > 0 ↔ ¬ c.overrides = [] := by cases c.overrides <;> simp
  have e3 : c.operations.length > 0 ↔ ¬ c.operations = [] := by cases c.operations <;> simp
  unfold cmdOptions build
  by_cases h1 : c.base.dir = [] <;> by_cases h2 : c.overrides = [] <;> by_cases h3 : c.operations = [] <;>
    simp [h1, h2, h3, apply, e1, e2, e3]

theorem present_missing {k : Str} : ∀ {l : List (Str × Option Json)}, k ∉ l.map Prod.fst → Obj.lookup k (Scan.present l) = none
  | [], _ => rfl
  | (ky, none) :: s, hk => by
    simp only [List.map_cons, List.mem_cons, not_or] at hk
    show Obj.lookup k (Scan.present s) = none
    exact present_missing hk.2
  | (ky, some w) :: s, hk => by
    simp only [List.map_cons, List.mem_cons, not_or] at hk
    simp only [Scan.present, Obj.lookup, if_neg hk.1]
    exact present_missing hk.2

theorem present_lookup {k : Str} : ∀ {l : List (Str × Option Json)}, (l.map Prod.fst).Nodup → ∀ {v}, (k, v) ∈ l →
    Obj.lookup k (Scan.present l) = v
  | (k', v') :: t, hn, v, hv => by
    simp only [List.map_cons, List.nodup_cons] at hn
    rcases List.mem_cons.1 hv with hw | hw
    · obtain ⟨rfl, rfl⟩ := Prod.mk.inj hw
      cases v with
      | none =>
        show Obj.lookup k (Scan.present t) = none
        exact present_missing hn.1
      | some w => simp [Scan.present, Obj.lookup]
    · have hk : k ≠ k' := by
        intro e; subst e; exact hn.1 (List.mem_map.2 ⟨(k, v), hw, rfl⟩)
      cases v' with
      | none =>
        show Obj.lookup k (Scan.present t) = v
        exact present_lookup hn.2 hw
      | some w => simp only [Scan.present, Obj.lookup, if_neg hk]; exact present_lookup hn.2 hw

theorem present_inj {ks : List Str} (hn : ks.Nodup) {a b : List (Option Json)} (ha : a.length = ks.length) (hb : b.length = ks.length)
    (h : Scan.present (ks.zip a) = Scan.present (ks.zip b)) : a = b := by
  apply List.ext_getElem (by omega)
  intro i h1 h2
  have na : ((ks.zip a).map Prod.fst).Nodup := by rw [List.map_fst_zip (by omega)]; exact hn
  have nb : ((ks.zip b).map Prod.fst).Nodup := by rw [List.map_fst_zip (by omega)]; exact hn
  have ma : (ks[i]'(by omega), a[i]) ∈ ks.zip a := by
    rw [← List.getElem_zip (h := by simp; omega)]; exact List.getElem_mem _
  have mb : (ks[i]'(by omega), b[i]) ∈ ks.zip b := by
    rw [← List.getElem_zip (h := by simp; omega)]; exact List.getElem_mem _
  rw [← present_lookup na ma, ← present_lookup nb mb, h]

/-- C72: the other settings do reach it: what the command passes determines them. -/
theorem C72_settings_with_effect (void log : L) {c c' : Config} (h : build void (cmdOptions log c) = build void (cmdOptions log c')) : Same c c' := by
  rw [build_cmd, build_cmd] at h
  injection h with h1 _ h2 h3 h4
  have hr := present_inj (ks := [b!"components", b!"externalDocs", b!"info", b!"security", b!"servers", b!"tags"]) (by decide)
    (a := [c.components, c.externalDocs, c.info, c.security, c.servers, c.tags])
    (b := [c'.components, c'.externalDocs, c'.info, c'.security, c'.servers, c'.tags]) rfl rfl (Json.obj.inj h4)
  simp only [List.cons.injEq, and_true] at hr
  obtain ⟨r1, r2, r3, r4, r5, r6⟩ := hr
  refine ⟨?_, r3, r5, r4, r6, r2, r1, h2, h3⟩
  by_cases a : c.base.dir = [] <;> by_cases b : c'.base.dir = [] <;> simp_all

/-- C72: the logger has no effect on what is scanned either. -/
theorem C72_logger_without_effect (void log log' : L) (c : Config) :
    ({ build void (cmdOptions log c) with log := none } : Options L) = { build void (cmdOptions log' c) with log := none } := by
  rw [build_cmd, build_cmd]

example : Same { version := b!"1", openapi := b!"3.1.0", exclude := [b!"vendor"] } {} := by constructor <;> rfl

/-- C72: the settings come from the file the flag `--config` names, as seen from the working directory, and from nothing else; without the flag
nothing is set. -/
theorem C72_settings_from_the_named_file (hw : AbsPath m.wd) :
    (ff.config = [] → (passed m ff nolog).root = .obj [] ∧ (passed m ff nolog).override = [] ∧ (passed m ff nolog).defops = []) ∧
    (ff.config ≠ [] → ∃ file place, MeansIn m.wd ff.config place ∧ LeadsTo file place ∧
      (passed m ff nolog).root = rootOf (m.load file).1 ∧ (passed m ff nolog).override = (m.load file).1.overrides ∧
      (passed m ff nolog).defops = (m.load file).1.operations) := by
  constructor
  · intro h
    simp only [passed, build_cmd, fullConfig, h, ne_eq, not_true_eq_false, if_false, and_true]
    rfl
  · intro h
    obtain ⟨place, h1, h2⟩ := Cli.toAbsPath_means (p := ff.config) hw
    refine ⟨_, place, h1, h2, ?_, ?_, ?_⟩ <;> simp [passed, build_cmd, fullConfig, h, rootOf]

example : AbsPath b!"/w" := ⟨_, rfl⟩

/-! ### A concrete run -/

/-- A failing scan over an existing output file. -/
def failing : Machine Unit where
  wd := b!"/w"
  load := fun _ => ({}, true)
  scan := fun _ => .ret none (some .loadErr)
  yaml := fun _ => .err .decode
  json := fun d => if d = .null then .ok b!"null" else .ok b!"{}"
  pretty := fun d => if d = .null then .ok b!"null" else .ok b!"{}"
  void := ()
  logger := ()
  faults := ⟨true, true, 1000⟩
  files := fun p => if p = b!"/w/api.json" then some b!"{\"openapi\":\"3.0.0\"}" else none

example : (main failing { output := b!"api.json" } true).files b!"/w/api.json" = some b!"null" ∧
    (main failing { output := b!"api.json" } true).exit = .returns := by decide
example : (inForce failing { output := b!"api.json" }).output = b!"/w/api.json" ∧
    (inForce failing { output := b!"api.json" }).format = b!"json:pretty" := by decide
example : Writable failing.faults b!"null" := by unfold Writable; decide
example : SafeEncoders failing := by
  intro d; simp only [failing]; refine ⟨nofun, ?_, ?_⟩ <;> split <;> nofun

end Oapi.Props
