import Verif.Proofs.Cli
import Verif.Props.Merge

/-! C51–C53, C63, C64: the command line tool. -/
namespace Oapi.Props
open Spec
open Cli

/-! ### C51 -/

theorem exists_extends (d : Obj) : Container.existsP (.obj d) b!"extends" = (Obj.lookup b!"extends" d).isSome ∧
    Container.path (.obj d) b!"extends" = Obj.lookup b!"extends" d := by
  have e : Gabs.dotPathToSlice b!"extends" = [b!"extends"] := by decide
  have : Gabs.search [b!"extends"] (.obj d) = Obj.lookup b!"extends" d := by
    rw [Gabs.search]
    cases Obj.lookup b!"extends" d <;> rfl
  constructor
  · rw [Container.existsP, e, Gabs.existsAt, this]
  · rw [Container.path, e, this]

variable {read : Str → Res Json} {file : Str} {d : Obj}

/-- C51: a configuration that names no base is unchanged. -/
theorem C51_without_extends (hf : read file = .ok (.obj d)) (h : ∀ p, Obj.lookup b!"extends" d ≠ some (.str p)) :
    readDoc read file = .ok (.obj d) := by
  rw [readDoc, hf]
  simp only
  rw [extends_, (exists_extends d).1, (exists_extends d).2]
  cases hl : Obj.lookup b!"extends" d with
  | none => rfl
  | some v =>
    cases v with
    | str p => exact absurd hl (h p)
    | _ => rfl

theorem readDoc_extends (hf : read file = .ok (.obj d)) {p : Str} (h : Obj.lookup b!"extends" d = some (.str p)) :
    readDoc read file = match read (toAbsPath p (dirOf file)) with
      | .ok ny => Container.merge (.obj d) ny Container.mergeDefault
      | .err e => .err e
      | .panic => .panic := by
  rw [readDoc, hf]
  simp only
  rw [extends_, (exists_extends d).1, (exists_extends d).2, h]
  rfl

/-- C51: a configuration with `extends: p` is itself, with the base file filling its gaps, for every order in which the base's
maps are iterated; the base is the file `p` means in the directory of the configuration file. -/
theorem C51_extends (hd : Json.WF (.obj d)) (hf : read file = .ok (.obj d)) (hfa : AbsPath file) {p : Str}
    (h : Obj.lookup b!"extends" d = some (.str p)) :
    ∃ base, (∃ place, MeansIn (dirOf file) p place ∧ LeadsTo base place) ∧
      ∀ (b : Obj) (b' : Json), Json.WF (.obj b) → Reorder (.obj b) b' → read base = .ok b' →
        ∃ r, readDoc read file = .ok (.obj r) ∧ Json.WF (.obj r) ∧ Fills (.obj d) (.obj b) (.obj r) := by
  refine ⟨toAbsPath p (dirOf file), toAbsPath_means (dirOf_abs hfa), ?_⟩
  intro b b' hb ho hr
  rw [readDoc_extends hf h, hr]
  exact C15_default_fills hd hb ho

/-- C51: the directory of the configuration file is the place reached by its path up to the last slash. -/
theorem C51_directory (hfa : AbsPath file) :
    ∃ a b place, file = a ++ 47 :: b ∧ (47 : UInt8) ∉ b ∧ LeadsTo (a ++ [47]) place ∧ LeadsTo (dirOf file) place := by
  obtain ⟨a, b, h1, h2, place, h3, h4⟩ := dirOf_spec hfa
  exact ⟨a, b, place, h1, h2, h3, h4⟩

/-- C51: also for a configuration file named by a relative path, used in any working directory: the base is the file that `extends`
means in the directory of the configuration file. -/
theorem C51_extends_from_anywhere (hf : read file = .ok (.obj d)) {p : Str} (h : Obj.lookup b!"extends" d = some (.str p)) {cwd dir place : List Str}
    (h1 : DirReaches cwd file dir) (h2 : Reaches dir p place) :
    ∃ base, Reaches cwd base place ∧ readDoc read file = match read base with
      | .ok ny => Container.merge (.obj d) ny Container.mergeDefault
      | .err e => .err e
      | .panic => .panic :=
  ⟨toAbsPath p (dirOf file), toAbsPath_reaches (clean_ne_nil _) (dirOf_reaches h1) h2, readDoc_extends hf h⟩

example : toAbsPath b!"../../base.json" (dirOf b!"../conf/o.json") = b!"../../base.json" := by decide
theorem not_abs_dot (t : Str) : ¬ AbsPath (46 :: t) := fun ⟨_, ht⟩ => by injection ht with h; exact absurd h (by decide)

example : DirReaches [b!"w", b!"x"] b!"../conf/o.json" [b!"w", b!"conf"] ∧ Reaches [b!"w", b!"conf"] b!"../../base.json" [b!"base.json"] := by
  constructor
  · refine .inl ⟨b!"../conf", b!"o.json", rfl, by decide, .inr ⟨not_abs_dot _, ?_⟩⟩
    exact .up (.down (by decide) (by decide) (by decide) (.stay (.inl rfl) .done))
  · refine .inr ⟨not_abs_dot _, ?_⟩
    exact .up (.up (.down (by decide) (by decide) (by decide) .done))

/-- C51: a base that cannot be read is an error. -/
theorem C51_missing_base (hf : read file = .ok (.obj d)) {p : Str} (h : Obj.lookup b!"extends" d = some (.str p)) {e : Err}
    (hb : read (toAbsPath p (dirOf file)) = .err e) : readDoc read file = .err e := by
  rw [readDoc_extends hf h, hb]

/-- C51: only one level is followed: nothing but the two files matters, whatever the base itself extends. -/
theorem C51_one_level {read' : Str → Res Json} (hf : read file = .ok (.obj d)) (hf' : read' file = .ok (.obj d)) {p : Str}
    (h : Obj.lookup b!"extends" d = some (.str p)) (hb : read (toAbsPath p (dirOf file)) = read' (toAbsPath p (dirOf file))) :
    readDoc read file = readDoc read' file := by
  rw [readDoc_extends hf h, readDoc_extends hf' h, hb]

/-- The configuration `/c/o.json` extends `../base.json`, which extends another one. -/
def demoRead : Str → Res Json := fun f =>
  if f = b!"/c/o.json" then .ok (.obj [(b!"extends", .str b!"../base.json"), (b!"format", .str b!"json")])
  else if f = b!"/base.json" then
    .ok (.obj [(b!"dir", .str b!"src"), (b!"extends", .str b!"more.json"), (b!"format", .str b!"yaml")])
  else .err .notFound

example : readDoc demoRead b!"/c/o.json" =
    .ok (.obj [(b!"dir", .str b!"src"), (b!"extends", .str b!"../base.json"), (b!"format", .str b!"json")]) := by decide
example : AbsPath b!"/c/o.json" ∧ toAbsPath b!"../base.json" (dirOf b!"/c/o.json") = b!"/base.json" := ⟨⟨_, rfl⟩, by decide⟩

/-! ### C52 -/

variable {wd : Str} {load : Str → Cfg × Bool} {ff : Flags}

/-- The configuration file's settings: those of the file named by the flag, none without that flag. -/
def settings (wd : Str) (load : Str → Cfg × Bool) (ff : Flags) : Cfg :=
  if ff.config = [] then {} else (load (toAbsPath ff.config wd)).1

/-- No configuration file is named, or it is read without error and its path recorded. -/
def Loads (wd : Str) (load : Str → Cfg × Bool) (ff : Flags) : Prop :=
  ff.config ≠ [] → (load (toAbsPath ff.config wd)).2 = true ∧ (load (toAbsPath ff.config wd)).1.filePath = toAbsPath ff.config wd

theorem full_ok (h : Loads wd load ff) : full wd load ff =
    (⟨(settings wd load ff).filePath, resolveDir wd ff (settings wd load ff), resolveFormat ff (settings wd load ff),
      resolveOutput wd ff (settings wd load ff) (resolveDir wd ff (settings wd load ff))⟩, true) := by
  unfold full settings
  by_cases hc : ff.config = []
  · simp [hc]
  · simp only [ne_eq, hc, not_false_eq_true, if_true, if_false, (h hc).1]

theorem settings_path (h : Loads wd load ff) (hw : AbsPath wd) (hd : (settings wd load ff).dir ≠ []) :
    AbsPath (settings wd load ff).filePath := by
  unfold settings at hd ⊢
  by_cases hc : ff.config = []
  · rw [if_pos hc] at hd; exact absurd rfl hd
  · rw [if_neg hc, (h hc).2]; exact toAbsPath_abs hw

/-- C52: the format is the flag's, else the file's, else `json:pretty`. -/
theorem C52_format (h : Loads wd load ff) :
    (ff.format ≠ [] → (full wd load ff).1.format = ff.format) ∧
    (ff.format = [] → (settings wd load ff).format ≠ [] → (full wd load ff).1.format = (settings wd load ff).format) ∧
    (ff.format = [] → (settings wd load ff).format = [] → (full wd load ff).1.format = b!"json:pretty") := by
  rw [full_ok h]
  refine ⟨fun h1 => ?_, fun h1 h2 => ?_, fun h1 h2 => ?_⟩
  · simp [resolveFormat, h1]
  · simp [resolveFormat, h1, h2]
  · simp [resolveFormat, h1, h2]

/-- C52: the directory is the flag's, as seen from the working directory; else the file's, as seen from the place of the
configuration file; else the working directory. -/
theorem C52_dir (h : Loads wd load ff) (hw : AbsPath wd) :
    (ff.dir ≠ [] → ∃ d, MeansIn wd ff.dir d ∧ LeadsTo (full wd load ff).1.dir d) ∧
    (ff.dir = [] → (settings wd load ff).dir ≠ [] → ∃ d, MeansIn (dirOf (toAbsPath ff.config wd)) (settings wd load ff).dir d ∧
      LeadsTo (full wd load ff).1.dir d) ∧
    (ff.dir = [] → (settings wd load ff).dir = [] → (full wd load ff).1.dir = wd) := by
  rw [full_ok h]
  refine ⟨fun h1 => ?_, fun h1 h2 => ?_, fun h1 h2 => ?_⟩
  · simp only [resolveDir, ne_eq, h1, not_false_eq_true, if_true]
    exact toAbsPath_means hw
  · have hp := settings_path h hw h2
    have : (settings wd load ff).filePath = toAbsPath ff.config wd := by
      have hc : ff.config ≠ [] := by intro hc; apply h2; simp [settings, hc]
      rw [settings, if_neg hc]
      exact (h hc).2
    rw [this] at hp
    simp only [resolveDir, h1, ne_eq, not_true_eq_false, if_false, h2, not_false_eq_true, if_true, this]
    exact toAbsPath_means (dirOf_abs hp)
  · simp [resolveDir, h1, h2]

/-- C52: a flag makes the file's setting irrelevant. -/
theorem C52_flag_wins {load' : Str → Cfg × Bool} (h : Loads wd load ff) (h' : Loads wd load' ff) :
    (ff.dir ≠ [] → (full wd load ff).1.dir = (full wd load' ff).1.dir) ∧
    (ff.format ≠ [] → (full wd load ff).1.format = (full wd load' ff).1.format) := by
  rw [full_ok h, full_ok h']
  constructor
  · intro h1; simp [resolveDir, h1]
  · intro h1; simp [resolveFormat, h1]

/-- C52: a relative path in the flag is relative to the working directory (an example of what `MeansIn` says). -/
example : MeansIn b!"/home/u" b!"../x/./y" [b!"home", b!"x", b!"y"] := by
  refine Or.inr ⟨fun ⟨t, h⟩ => (by simp at h), [b!"home", b!"u"], ⟨⟨_, rfl⟩, ?_⟩, ?_⟩
  · exact .stay (Or.inl rfl) (.down (by decide) (by decide) (by decide) (.down (by decide) (by decide) (by decide) .done))
  · exact .up (.down (by decide) (by decide) (by decide) (.stay (Or.inr rfl) (.down (by decide) (by decide) (by decide) .done)))

def demoLoad : Str → Cfg × Bool := fun p =>
  if p = b!"/home/u/cfg/o.json" then ({ filePath := p, dir := b!"../src", format := b!"yaml", output := b!"out.json" }, true)
  else ({}, false)

example : Loads b!"/home/u" demoLoad { config := b!"cfg/o.json" } := fun _ => ⟨by decide, by decide⟩
example : full b!"/home/u" demoLoad { config := b!"cfg/o.json" } =
    (⟨b!"/home/u/cfg/o.json", b!"/home/u/src", b!"yaml", b!"/home/u/src/out.json"⟩, true) := by decide
example : full b!"/home/u" demoLoad { config := b!"cfg/o.json", dir := b!"/abs", format := b!"go" } =
    (⟨b!"/home/u/cfg/o.json", b!"/abs", b!"go", b!"/abs/out.json"⟩, true) := by decide

/-! ### C53 -/

theorem pick_abs {o base prior : Str} (hb : AbsPath base) (hp : prior = b!"stdout" ∨ AbsPath prior) :
    pickOutput o base prior = b!"stdout" ∨ AbsPath (pickOutput o base prior) := by
  unfold pickOutput
  by_cases h : o ≠ []
  · rw [if_pos h]
    by_cases h' : o = b!"stderr" ∨ o = b!"stdout"
    · rw [if_pos h']; exact hp
    · rw [if_neg h']; exact Or.inr (toAbsPath_abs hb)
  · rw [if_neg h]; exact hp

/-- C53: if the configuration is read without error the output goes to stdout or to an absolute path; never to stderr. -/
theorem C53_never_stderr (h : Loads wd load ff) (hw : AbsPath wd) :
    dest (full wd load ff).1.output = .stdout ∨ ∃ p, AbsPath p ∧ dest (full wd load ff).1.output = .file p := by
  have hd : AbsPath (resolveDir wd ff (settings wd load ff)) := by
    unfold resolveDir
    split
    · exact toAbsPath_abs hw
    · split
      · rename_i h2; exact toAbsPath_abs (dirOf_abs (settings_path h hw h2))
      · exact hw
  have := pick_abs (o := ff.output) hw (pick_abs (o := (settings wd load ff).output) hd (Or.inl rfl))
  rw [full_ok h]
  show dest (resolveOutput wd ff _ _) = _ ∨ _
  unfold resolveOutput
  rcases this with h1 | h1
  · rw [h1]; exact Or.inl (by decide)
  · right
    refine ⟨_, h1, ?_⟩
    obtain ⟨t, e⟩ := h1
    rw [e]
    simp [dest]

/-- C53: the value `stdout` (or `stderr`) of the output flag is ignored: a file configured in the configuration file stays in
force. -/
theorem C53_stdout_flag_ignored (h : Loads wd load ff) (hw : AbsPath wd) (hs : ff.output = b!"stdout" ∨ ff.output = b!"stderr")
    {o : Str} (ho : (settings wd load ff).output = o) (h0 : o ≠ []) (h1 : o ≠ b!"stdout") (h2 : o ≠ b!"stderr") :
    ∃ p, dest (full wd load ff).1.output = .file p ∧ ∃ d, MeansIn (full wd load ff).1.dir o d ∧ LeadsTo p d := by
  have hd : AbsPath (resolveDir wd ff (settings wd load ff)) := by
    unfold resolveDir
    split
    · exact toAbsPath_abs hw
    · split
      · rename_i h2; exact toAbsPath_abs (dirOf_abs (settings_path h hw h2))
      · exact hw
  rw [full_ok h]
  simp only
  have e : resolveOutput wd ff (settings wd load ff) (resolveDir wd ff (settings wd load ff)) =
      toAbsPath o (resolveDir wd ff (settings wd load ff)) := by
    unfold resolveOutput
    rw [ho]
    have hne : ff.output ≠ [] := by rcases hs with h | h <;> rw [h] <;> decide
    rw [pickOutput, if_pos hne, if_pos hs.symm, pickOutput, if_pos h0, if_neg (by rw [not_or]; exact ⟨h2, h1⟩)]
  rw [e]
  refine ⟨_, ?_, toAbsPath_means hd⟩
  obtain ⟨t, e⟩ := toAbsPath_abs (p := o) hd
  rw [e]
  simp [dest]

/-- C53: the same flag values have no effect at all: the outcome is as without the flag. -/
theorem C53_flag_has_no_effect (hs : ff.output = b!"stdout" ∨ ff.output = b!"stderr") :
    full wd load ff = full wd load { ff with output := [] } := by
  have hne : ff.output ≠ [] := by rcases hs with h | h <;> rw [h] <;> decide
  have e : ∀ c d, resolveOutput wd ff c d = resolveOutput wd { ff with output := [] } c d := by
    intro c d
    unfold resolveOutput
    rw [pickOutput, if_pos hne, if_pos hs.symm]
    conv => rhs; rw [pickOutput]
    simp
  unfold full
  simp only [e]
  rfl

/-- C53: after an error the configuration is used as far as it was decoded; then stderr can be selected. -/
theorem C53_after_error (hc : ff.config ≠ []) (he : (load (toAbsPath ff.config wd)).2 = false) :
    full wd load ff = ((load (toAbsPath ff.config wd)).1, false) := by
  unfold full
  simp only [ne_eq, hc, not_false_eq_true, if_true]
  rw [if_neg (by rw [he]; simp), ← he]

example : dest (full b!"/home/u" demoLoad { config := b!"cfg/o.json", output := b!"stdout" }).1.output =
    .file b!"/home/u/src/out.json" := by decide
example : dest (full b!"/home/u" demoLoad { output := b!"stderr" }).1.output = .stdout := by decide
example : dest (full b!"/home/u" (fun _ => ({ output := b!"stderr" }, false)) { config := b!"x" }).1.output = .stderr := by decide

/-! ### C63 -/

/-- C63: the eight names in any letter case, and nothing else, are levels. -/
theorem C63_parse_level (s : Str) (l : Level) : parseLevel s = .ok l ↔ ∃ name, (name, l) ∈ levelNames ∧ Spells name s := by
  have hl : ∀ name ∈ levelNames.map Prod.fst, ∀ c ∈ name, lowerLetter c := by unfold lowerLetter; decide
  have key : ∀ name ∈ levelNames.map Prod.fst, (lowerIs s name = true ↔ Spells name s) := by
    intro name hn
    rw [lowerIs, decide_eq_true_eq]
    exact lowerIs_iff name s (hl name hn)
  have inj : ∀ a b, a ∈ levelNames.map Prod.fst → b ∈ levelNames.map Prod.fst → lowerIs s a = true → lowerIs s b = true → a = b := by
    intro a b _ _ h1 h2
    rw [lowerIs, decide_eq_true_eq] at h1 h2
    rw [h1] at h2
    unfold Route.ascii at h2
    exact (List.map_inj_right (fun x y h => UInt8.toNat_inj.1 h)).1 h2
  constructor
  · intro h
    unfold parseLevel at h
    repeat' split at h
    all_goals first
      | (cases h; done)
      | skip
    all_goals cases h
    · exact ⟨b!"panic", by decide, (key _ (by decide)).1 (by assumption)⟩
    · exact ⟨b!"fatal", by decide, (key _ (by decide)).1 (by assumption)⟩
    · exact ⟨b!"error", by decide, (key _ (by decide)).1 (by assumption)⟩
    · rename_i hw
      rcases Bool.or_eq_true_iff.1 hw with hw | hw
      · exact ⟨b!"warn", by decide, (key _ (by decide)).1 hw⟩
      · exact ⟨b!"warning", by decide, (key _ (by decide)).1 hw⟩
    · exact ⟨b!"info", by decide, (key _ (by decide)).1 (by assumption)⟩
    · exact ⟨b!"debug", by decide, (key _ (by decide)).1 (by assumption)⟩
    · exact ⟨b!"trace", by decide, (key _ (by decide)).1 (by assumption)⟩
  · rintro ⟨name, hm, hs⟩
    have hn : name ∈ levelNames.map Prod.fst := List.mem_map.2 ⟨_, hm, rfl⟩
    have ht := (key name hn).2 hs
    have hf : ∀ b ∈ levelNames.map Prod.fst, b ≠ name → lowerIs s b = false := by
      intro b hb hne
      cases hx : lowerIs s b with
      | false => rfl
      | true => exact absurd (inj b name hb hn hx ht) hne
    simp only [levelNames, List.mem_cons, Prod.mk.injEq, List.not_mem_nil, or_false] at hm
    unfold parseLevel
    rcases hm with ⟨rfl, rfl⟩ | ⟨rfl, rfl⟩ | ⟨rfl, rfl⟩ | ⟨rfl, rfl⟩ | ⟨rfl, rfl⟩ | ⟨rfl, rfl⟩ | ⟨rfl, rfl⟩ | ⟨rfl, rfl⟩ <;>
      simp [ht, hf b!"panic" (by decide), hf b!"fatal" (by decide), hf b!"error" (by decide), hf b!"warn" (by decide),
        hf b!"warning" (by decide), hf b!"info" (by decide), hf b!"debug" (by decide)]

/-- C63: everything else is an error. -/
theorem C63_else_error (s : Str) (h : ∀ name l, (name, l) ∈ levelNames → ¬ Spells name s) : ∃ e, parseLevel s = .err e := by
  cases hp : parseLevel s with
  | ok l => obtain ⟨n, h1, h2⟩ := (C63_parse_level s l).1 hp; exact absurd h2 (h n l h1)
  | err e => exact ⟨e, rfl⟩
  | panic => unfold parseLevel at hp; repeat' split at hp
             all_goals cases hp

/-- C63: the documented order of severity: panic, fatal, error, warn, info, debug, trace. -/
theorem C63_severity : levelNames.Pairwise (fun a b => a.2.num < b.2.num ∨ a.2 = b.2) ∧
    ∀ a ∈ levelNames, ∀ b ∈ levelNames, a.2 = b.2 → a.1 = b.1 ∨ (a.2 = .warn) := by
  refine ⟨by decide, by decide⟩

example : Spells b!"info" b!"iNFo" :=
  .cons (f := b!"i") (by decide) (.cons (f := b!"N") (by decide) (.cons (f := b!"F") (by decide) (.cons (f := b!"o") (by decide) .nil)))
example : parseLevel b!"WARNING" = .ok .warn := by decide
example : parseLevel b!"İnfo" = .ok .info := by decide
example : parseLevel b!"warnin" = .err .syntaxErr := by decide

/-! ### C64 -/

/-- C64: if the old file is removed, or there was none, and writing is not cut short, the file holds exactly the document. -/
theorem C64_exact (fl : Faults) (data : Str) (old : Option Str) (ho : fl.opens = true) (hw : data.length ≤ fl.written)
    (hr : fl.removes = true ∨ old = none) : writeFile fl data old = some data := by
  have e : (if fl.removes then none else old) = none := by rcases hr with h | h <;> simp [h]
  simp only [writeFile, e, ho, if_true, Option.getD_none, List.drop_nil, List.append_nil]
  rw [List.take_of_length_le hw]

/-- C64: if the old file cannot be removed but still be opened, the tail of a longer old file remains behind the document. -/
theorem C64_tail_remains (fl : Faults) (data old : Str) (ho : fl.opens = true) (hw : data.length ≤ fl.written) (hr : fl.removes = false) :
    ∃ c, writeFile fl data (some old) = some c ∧
      (old.length ≤ data.length → c = data) ∧
      (data.length < old.length → ∃ tail, tail ≠ [] ∧ c = data ++ tail ∧ ∃ head, head.length = data.length ∧ old = head ++ tail) := by
  refine ⟨data ++ old.drop data.length, ?_, ?_, ?_⟩
  · simp [writeFile, ho, hr, List.take_of_length_le hw]
  · intro h; rw [List.drop_of_length_le h, List.append_nil]
  · intro h
    refine ⟨old.drop data.length, ?_, rfl, old.take data.length, by simp; omega, (List.take_append_drop ..).symm⟩
    intro he
    have := congrArg List.length he
    simp at this
    omega

/-- C64: an error while opening leaves no file if the old one was removed; an error while writing leaves a beginning of the
document. -/
theorem C64_failures (fl : Faults) (data : Str) (old : Option Str) (hr : fl.removes = true) :
    (fl.opens = false → writeFile fl data old = none) ∧
    (fl.opens = true → ∃ a b, data = a ++ b ∧ writeFile fl data old = some a) := by
  constructor
  · intro h; simp [writeFile, hr, h]
  · intro h
    refine ⟨data.take fl.written, data.drop fl.written, (List.take_append_drop ..).symm, ?_⟩
    simp [writeFile, hr, h]

example : writeFile ⟨false, true, 100⟩ b!"{}" (some b!"{\"a\":1}") = some b!"{}a\":1}" := by decide
example : writeFile ⟨true, true, 100⟩ b!"{}" (some b!"{\"a\":1}") = some b!"{}" := by decide

end Oapi.Props
