import Verif.Spec.System
import Verif.Proofs.System1
import Verif.Props.EndToEnd

/-! What a run reads after an earlier one (C100, C101). -/
namespace Oapi.System
open Spec Scan

variable {F L : Type} {w : World F L} {disk : Disk} {ff : Cli.Flags} {nolog : Bool} {out : Str} {t : Option Str}

theorem readFile_put {p : Str} (h : p ≠ out) : Read.readFile (fsOf w (put disk out t)) p = Read.readFile (fsOf w disk) p := by
  unfold Read.readFile
  have : (fsOf w (put disk out t)).content p = (fsOf w disk).content p := by simp [fsOf, put, h]
  rw [this]
  rfl

theorem lstat_put {p : Str} (h : p ≠ out) : (fsOf w (put disk out t)).lstat p = (fsOf w disk).lstat p := by
  simp [fsOf, put, h]

theorem readDoc_put {p : Str} (h : p ≠ out) : readDoc (fsOf w (put disk out t)) p = readDoc (fsOf w disk) p := by
  unfold readDoc
  rw [readFile_put h]

theorem load_put (hff : ff.config ≠ []) (h : ¬ ConfigFile w disk ff out) :
    Cli.readDoc (readDoc (fsOf w (put disk out t))) (Cli.toAbsPath ff.config w.wd) = Cli.readDoc (readDoc (fsOf w disk)) (Cli.toAbsPath ff.config w.wd) := by
  have h1 : Cli.toAbsPath ff.config w.wd ≠ out := fun e => h (e ▸ .given hff)
  unfold Cli.readDoc
  rw [readDoc_put h1]
  cases hr : readDoc (fsOf w disk) (Cli.toAbsPath ff.config w.wd) with
  | err e => rfl
  | panic => rfl
  | ok cx =>
    simp only
    unfold readDoc at hr
    cases hf : Read.readFile (fsOf w disk) (Cli.toAbsPath ff.config w.wd) with
    | err e => rw [hf] at hr; cases hr
    | panic => rw [hf] at hr; cases hr
    | ok f =>
      rw [hf] at hr
      cases hr
      rcases Props.C81_object_or_error (fs := fsOf w disk) (Cli.toAbsPath ff.config w.wd) with ⟨m, h'⟩ | ⟨e, h'⟩
      · rw [hf] at h'
        cases h'
        unfold Cli.extends_
        split
        · rfl
        · split
          · rename_i p hp
            rw [OAPI.path_key (by decide) (by decide)] at hp
            have : Obj.lookup b!"extends" m = some (.str p) := by
              cases hl : Obj.lookup b!"extends" m with
              | none => rw [hl] at hp; cases hp
              | some v => rw [hl] at hp; simp [Container.data] at hp; rw [hp]
            have hne : (if Cli.isAbs p then p else Cli.join2 (Cli.dirOf (Cli.toAbsPath ff.config w.wd)) p) ≠ out :=
              fun e => h (e ▸ ConfigFile.base hff hf rfl this)
            rw [readDoc_put hne]
          · rfl
      · rw [hf] at h'; cases h'

theorem settings_put (h : ¬ ConfigFile w disk ff out) : settings w (put disk out t) ff = settings w disk ff := by
  unfold settings Main.fullConfig Cli.full
  by_cases hff : ff.config = []
  · simp [hff]
  · have : Load.readFile w.spec (readDoc (fsOf w (put disk out t))) (Cli.toAbsPath ff.config w.wd) =
        Load.readFile w.spec (readDoc (fsOf w disk)) (Cli.toAbsPath ff.config w.wd) := by
      unfold Load.readFile
      rw [load_put hff h]
    simp only [this]

/-- After an earlier run the settings are those of before, and so are the packages. -/
theorem settings_after (h : SeparateOutput w disk ff nolog) : settings w (put disk (outputOf w disk ff) t) ff = settings w disk ff := settings_put h.config

theorem options_after (h : SeparateOutput w disk ff nolog) : options w (put disk (outputOf w disk ff) t) ff nolog = options w disk ff nolog := by
  unfold options
  rw [settings_after h]

theorem visited_some {inp : Input F} {p : Nat} (h : Visited inp p) : ∃ pkg, inp.heap[p]? = some pkg := by
  obtain ⟨_, r, _, hm, h⟩ := h
  clear hm
  induction h with
  | refl h => obtain ⟨pkg, h, _⟩ := h; exact ⟨pkg, h⟩
  | step _ _ _ ih => exact ih

theorem scanned_files {p : Nat} (h : ∃ pkg, (scanInput w disk ff nolog).heap[p]? = some pkg) : (scanInput w disk ff nolog).files p =
    Read.pkgFiles (fsOf w disk) w.gopath (missing w disk) (pathOf (scanInput w disk ff nolog).heap p) (w.mods disk ((options w disk ff nolog).path w.wd) p) := by
  obtain ⟨pkg, h⟩ := h
  have h' : (w.packages disk ((options w disk ff nolog).path w.wd)).heap[p]? = some pkg := h
  unfold scanInput inputOf
  simp only [h', pathOf, Option.map_some, Option.getD_some]

/-- The same input, but for the files. -/
theorem scanned_after (h : SeparateOutput w disk ff nolog) :
    scanInput w (put disk (outputOf w disk ff) t) ff nolog =
      withFiles (scanInput w disk ff nolog) (scanInput w (put disk (outputOf w disk ff) t) ff nolog).files := by
  have h1 := options_after (t := t) h
  have h2 := (h.packages t ((options w disk ff nolog).path w.wd)).1
  unfold scanInput inputOf withFiles
  simp only [h1, h2]

theorem pkgDir_put {pkg dir : Str} {mod : Option Read.Module} (h : PkgDirIs w.gopath (missing w disk) pkg mod dir) (hne : dir ≠ out) :
    PkgDirIs w.gopath (missing w (put disk out t)) pkg mod dir := by
  cases h with
  | inModule h1 h2 h3 h4 h5 h6 => exact .inModule h1 h2 h3 h4 h5 h6
  | inGopath h1 h2 h3 h4 h5 h6 h7 =>
    refine .inGopath h1 h2 h3 h4 h5 h6 ?_
    rename_i gs ns
    unfold missing at h7 ⊢
    rw [lstat_put hne]; exact h7

theorem mods_after (h : SeparateOutput w disk ff nolog) (p : Nat) :
    w.mods (put disk (outputOf w disk ff) t) ((options w (put disk (outputOf w disk ff) t) ff nolog).path w.wd) p =
      w.mods disk ((options w disk ff nolog).path w.wd) p := by
  rw [options_after h]
  exact (h.packages t _).2 p

/-- The files of a scanned package. -/
theorem files_dir {p : Nat} {dir : Str} (hv : Visited (scanInput w disk ff nolog) p) (hd : PackageDir w disk ff nolog p dir) :
    (scanInput w disk ff nolog).files p = Read.readAll (fsOf w disk) (Props.presentSpecs (fsOf w disk) dir) := by
  rw [scanned_files (visited_some hv), Read.pkgFiles, Props.C83_dir hd.1]
  exact Props.readDir_specs (Props.dir_plain hd.1) hd.2

theorem files_after (h : SeparateOutput w disk ff nolog) {p : Nat} {dir : Str} (hv : Visited (scanInput w disk ff nolog) p) (hd : PackageDir w disk ff nolog p dir)
    (hne : dir ≠ outputOf w disk ff) :
    (scanInput w (put disk (outputOf w disk ff) t) ff nolog).files p =
      Read.readAll (fsOf w (put disk (outputOf w disk ff) t)) (Props.presentSpecs (fsOf w (put disk (outputOf w disk ff) t)) dir) := by
  have hheap : (scanInput w (put disk (outputOf w disk ff) t) ff nolog).heap = (scanInput w disk ff nolog).heap := by rw [scanned_after h]; rfl
  rw [scanned_files (by rw [hheap]; exact visited_some hv), Read.pkgFiles, hheap, mods_after h, Props.C83_dir (pkgDir_put hd.1 hne)]
  exact Props.readDir_specs (Props.dir_plain hd.1) hd.2

theorem readAll_congr {fs fs' : Read.FS} : ∀ {l : List Str}, (∀ p ∈ l, Read.readFile fs p = Read.readFile fs' p) → Read.readAll fs l = Read.readAll fs' l
  | [], _ => rfl
  | p :: l, h => by
    have ih := readAll_congr (l := l) fun q hq => h q (List.mem_cons_of_mem _ hq)
    simp only [Read.readAll, h p (by simp), ih]

/-- If the output is none of its specification files, they are the same. -/
theorem files_unchanged (h : SeparateOutput w disk ff nolog) {p : Nat} {dir : Str} (hv : Visited (scanInput w disk ff nolog) p) (hd : PackageDir w disk ff nolog p dir)
    (hne : dir ≠ outputOf w disk ff) (hn : ∀ n ∈ specNames, dir ++ b!"/" ++ n ≠ outputOf w disk ff) :
    (scanInput w (put disk (outputOf w disk ff) t) ff nolog).files p = (scanInput w disk ff nolog).files p := by
  rw [files_after h hv hd hne, files_dir hv hd]
  have : Props.presentSpecs (fsOf w (put disk (outputOf w disk ff) t)) dir = Props.presentSpecs (fsOf w disk) dir := by
    unfold Props.presentSpecs
    congr 1
    refine List.filter_congr fun n hn' => ?_
    rw [lstat_put (hn n hn')]
  rw [this]
  refine readAll_congr fun q hq => ?_
  obtain ⟨n, hn', rfl⟩ := List.mem_map.1 hq
  exact readFile_put (hn n (List.mem_filter.1 hn').1)

/-- If the output is no specification file of any scanned package, the next scan gives the same. -/
theorem scan_after (h : SeparateOutput w disk ff nolog) (hi : InputOK (scanInput w disk ff nolog))
    (hn : NotASpec w disk ff nolog)
    {o : Orders} (ho : OrdersOK (scanInput w disk ff nolog) o) (fuel : Nat) :
    scan (scanInput w (put disk (outputOf w disk ff) t) ff nolog) o fuel = scan (scanInput w disk ff nolog) o fuel := by
  rw [scanned_after h]
  refine scan_congr hi.graph ho.heap₂ (fun p hv st => specsScanner_same ?_ st) fuel
  obtain ⟨dir, hd, hne⟩ := h.dirs p hv
  exact files_unchanged h hv hd hne (hn p dir hv hd)

/-! ### What a run does to the disk -/

/-- The log before the scan, and with the error of the scan. -/
def log₁ (w : World F L) (disk : Disk) (ff : Cli.Flags) : List Cli.Level := if (settings w disk ff).2 then [] else [Cli.Level.fatal]
def log₂ (w : World F L) (disk : Disk) (ff : Cli.Flags) (err : Option Err) : List Cli.Level := log₁ w disk ff ++ (if err.isSome then [Cli.Level.fatal] else [])

theorem run_eq (w : World F L) (disk : Disk) (ff : Cli.Flags) (nolog : Bool) (ch : Chance) :
    run w ff nolog disk ch = match scan (scanInput w disk ff nolog) ch.orders ch.depth with
      | .panic => { exit := .panics, logs := log₁ w disk ff, files := disk }
      | .ret doc err =>
        match Format.format (ch.yaml (doc.getD .null)) (ch.json (doc.getD .null)) (ch.pretty (doc.getD .null)) (formatOf w disk ff) with
        | .panic => { exit := .panics, logs := log₂ w disk ff err, files := disk }
        | .ok s => Main.output ch.faults disk (Cli.dest (outputOf w disk ff)) s (log₂ w disk ff err)
        | .err _ => Main.output ch.faults disk (Cli.dest (outputOf w disk ff)) [] (log₂ w disk ff err ++ [Cli.Level.fatal]) := rfl

theorem run_files (w : World F L) (disk : Disk) (ff : Cli.Flags) (nolog : Bool) (ch : Chance) :
    (run w ff nolog disk ch).files = disk ∨ ∃ x, (run w ff nolog disk ch).files = put disk (outputOf w disk ff) x := by
  have key : ∀ s l, (Main.output ch.faults disk (Cli.dest (outputOf w disk ff)) s l).files = disk ∨
      ∃ x, (Main.output ch.faults disk (Cli.dest (outputOf w disk ff)) s l).files = put disk (outputOf w disk ff) x := by
    intro s l
    by_cases h : outputOf w disk ff ≠ [] ∧ outputOf w disk ff ≠ b!"stdout" ∧ outputOf w disk ff ≠ b!"stderr"
    · rw [Props.dest_file h]
      exact .inr ⟨_, rfl⟩
    · left
      unfold Cli.dest Main.output
      split <;> rename_i he
      · rfl
      · rfl
      · exfalso
        split at he
        · cases he
        · split at he
          · cases he
          · rename_i h1 h2
            exact h ⟨fun e => h1 (.inr e), fun e => h1 (.inl e), h2⟩
  rw [run_eq]
  split
  · exact .inl rfl
  · split
    · exact .inl rfl
    · exact key _ _
    · exact key _ _

theorem put_put (disk : Disk) (p : Str) (x y : Option Str) : put (put disk p x) p y = put disk p y := by
  funext q
  unfold put
  split <;> rfl

theorem put_same (disk : Disk) (p : Str) : put disk p (disk p) = disk := by
  funext q
  unfold put
  split
  · rename_i h; rw [h]
  · rfl

theorem output_after (h : SeparateOutput w disk ff nolog) : outputOf w (put disk (outputOf w disk ff) t) ff = outputOf w disk ff := by
  have := settings_after (t := t) h
  exact congrArg (fun c => c.1.base.output) this

/-- The disk after any runs differs from the first one in the output only. -/
theorem runs_disk (h : SeparateOutput w disk ff nolog) (chs : List Chance) :
    ∃ x, runs w ff nolog disk chs = put disk (outputOf w disk ff) x := by
  have : ∀ (chs : List Chance) x, ∃ y, runs w ff nolog (put disk (outputOf w disk ff) x) chs = put disk (outputOf w disk ff) y := by
    intro chs
    induction chs with
    | nil => exact fun x => ⟨x, rfl⟩
    | cons ch chs ih =>
      intro x
      show ∃ y, runs w ff nolog (run w ff nolog (put disk (outputOf w disk ff) x) ch).files chs = _
      rcases run_files w (put disk (outputOf w disk ff) x) ff nolog ch with e | ⟨y, e⟩
      · rw [e]; exact ih x
      · rw [e, output_after h, put_put]; exact ih y
  have := this chs (disk (outputOf w disk ff))
  rwa [put_same] at this

/-- With the same scan and settings, a run whose old output can be removed leaves the same, whatever the old output. -/
theorem run_forgets (h : SeparateOutput w disk ff nolog) {ch : Chance}
    (hs : scan (scanInput w (put disk (outputOf w disk ff) t) ff nolog) ch.orders ch.depth = scan (scanInput w disk ff nolog) ch.orders ch.depth)
    (hr : ch.faults.removes = true) :
    (run w ff nolog (put disk (outputOf w disk ff) t) ch).exit = (run w ff nolog disk ch).exit ∧
    (run w ff nolog (put disk (outputOf w disk ff) t) ch).stdout = (run w ff nolog disk ch).stdout ∧
    (run w ff nolog (put disk (outputOf w disk ff) t) ch).stderr = (run w ff nolog disk ch).stderr ∧
    ((run w ff nolog disk ch).exit = .returns → (run w ff nolog (put disk (outputOf w disk ff) t) ch).files = (run w ff nolog disk ch).files) := by
  have e2 : ∀ s l, (Main.output ch.faults (put disk (outputOf w disk ff) t) (Cli.dest (outputOf w disk ff)) s l).exit =
        (Main.output ch.faults disk (Cli.dest (outputOf w disk ff)) s l).exit ∧
      (Main.output ch.faults (put disk (outputOf w disk ff) t) (Cli.dest (outputOf w disk ff)) s l).stdout =
        (Main.output ch.faults disk (Cli.dest (outputOf w disk ff)) s l).stdout ∧
      (Main.output ch.faults (put disk (outputOf w disk ff) t) (Cli.dest (outputOf w disk ff)) s l).stderr =
        (Main.output ch.faults disk (Cli.dest (outputOf w disk ff)) s l).stderr ∧
      (Main.output ch.faults (put disk (outputOf w disk ff) t) (Cli.dest (outputOf w disk ff)) s l).files =
        (Main.output ch.faults disk (Cli.dest (outputOf w disk ff)) s l).files := by
    intro s l
    rw [Props.dest_file h.file]
    refine ⟨rfl, rfl, rfl, ?_⟩
    funext q
    simp only [Main.output, Cli.writeFile, hr, put]
    split <;> rfl
  have e1 : formatOf w (put disk (outputOf w disk ff) t) ff = formatOf w disk ff := by unfold formatOf; rw [settings_after h]
  have e3 : ∀ err, log₂ w (put disk (outputOf w disk ff) t) ff err = log₂ w disk ff err := fun err => by
    unfold log₂ log₁; rw [settings_after h]
  rw [run_eq, run_eq, hs, e1, output_after h]
  cases scan (scanInput w disk ff nolog) ch.orders ch.depth with
  | panic => exact ⟨rfl, rfl, rfl, nofun⟩
  | ret doc err =>
    simp only [e3]
    split
    · exact ⟨rfl, rfl, rfl, nofun⟩
    · obtain ⟨a, b, c, d⟩ := e2 ‹_› (log₂ w disk ff err)
      exact ⟨a, b, c, fun _ => d⟩
    · obtain ⟨a, b, c, d⟩ := e2 [] (log₂ w disk ff err ++ [Cli.Level.fatal])
      exact ⟨a, b, c, fun _ => d⟩

end Oapi.System
