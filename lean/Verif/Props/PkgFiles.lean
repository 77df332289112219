import Verif.Props.Read

/-! C83, C84: where the specifications of a package are looked for, and what that means for a scan. -/
namespace Oapi.Props
open Spec
open Read (FS readFile readDir pkgDir pkgFiles Module specPatterns)
open Container (File)
open Scan (Input Orders prepare scan)

variable {gopath pkg dir : Str} {missing : Str → Bool} {mod : Option Module}

theorem removeFirst_prefix {p : Str} (h : p ≠ []) (r : Str) : Read.removeFirst p (p ++ r) = r := by
  cases p with
  | nil => exact absurd rfl h
  | cons c t =>
    rw [List.cons_append, Read.removeFirst, if_pos (by rw [List.isPrefixOf_iff_prefix]; exact ⟨r, rfl⟩)]
    simp

theorem join2_import {ds ns : List Str} (hne : ds ≠ []) (hd : ∀ d ∈ ds, FileName d) (hn : ns ≠ []) (hr : ∀ d ∈ ns, FileName d) :
    Cli.join2 (pathOfNames ds) (importPath ns) = pathOfNames (ds ++ ns) := by
  have habs := Read.pathOfNames_abs hne
  have hnn : pathOfNames ds ≠ [] := by obtain ⟨t, ht⟩ := habs; rw [ht]; simp
  have himp : pathOfNames ns = 47 :: importPath ns := by
    cases ns with
    | nil => exact absurd rfl hn
    | cons d t => simp [importPath, pathOfNames]
  have hsp : Str.split 47 (importPath ns) = ns := by
    have := Read.pathOfNames_split ns fun d h => (hr d h).2.2.2
    rw [himp, Str.split] at this
    simp only [if_true] at this
    injection this
  rw [Cli.join2, if_pos hnn, Cli.clean]
  have ha : Cli.isAbs (pathOfNames ds ++ 47 :: importPath ns) = true := by
    rw [Cli.isAbs_iff]; obtain ⟨t, ht⟩ := habs; exact ⟨_, by rw [ht]; rfl⟩
  rw [ha]
  simp only [if_true]
  rw [Cli.split_append, Read.pathOfNames_split ds fun d h => (hd d h).2.2.2, hsp,
    Read.fold_names _ _ (by
      intro d h
      simp only [List.mem_append, List.mem_cons] at h
      rcases h with (h | h) | h
      · exact .inl h
      · exact .inr (hd d h)
      · exact .inr (hr d h))]
  simp only [List.nil_append, List.filter_append, ne_eq, not_true_eq_false, decide_false, Bool.false_eq_true, not_false_eq_true,
    List.filter_cons_of_neg]
  rw [show (fun x : Str => decide (¬ x = [])) = (fun x => decide (x ≠ [])) from rfl, Read.names_ne hd, Read.names_ne hr]
  exact Read.join_pathOfNames _ (by simp [hne])

/-- C83: the directory of a package, if its module (or GOPATH) and its import path are written plainly. -/
theorem C83_dir (h : PkgDirIs gopath missing pkg mod dir) : pkgDir gopath missing pkg mod = .ok dir := by
  cases h with
  | inModule h0 h1 h2 h3 h4 h5 =>
    rw [pkgDir, if_neg, h4, h5, removeFirst_prefix h0, Read.join2_below h1 h2 h3]
    rw [h4]
    rename_i m ds rest
    cases ds with
    | nil => exact absurd rfl h1
    | cons d t => simp [pathOfNames]
  | inGopath h1 h2 h3 h4 h5 h6 h7 =>
    rw [pkgDir, h5, h6, join2_import h1 h2 h3 h4, h7]; rfl

/-- C83: a package whose module has no directory has none … -/
theorem C83_module_without_dir {m : Module} (h : m.dir = []) : ∃ e, pkgDir gopath missing pkg (some m) = .err e := by
  rw [pkgDir, if_pos h]; exact ⟨_, rfl⟩

/-- C83: … nor has one without a module if there is nothing below GOPATH. -/
theorem C83_gopath_missing {gs ns : List Str} (h1 : gs ≠ []) (h2 : ∀ d ∈ gs, FileName d) (h3 : ns ≠ []) (h4 : ∀ d ∈ ns, FileName d)
    (hm : missing (pathOfNames (gs ++ ns)) = true) : ∃ e, pkgDir (pathOfNames gs) missing (importPath ns) none = .err e := by
  rw [pkgDir, join2_import h1 h2 h3 h4, hm]; exact ⟨_, rfl⟩

/-- C83: the directory of a package is that of its module exactly if it is the package of the module's own path … two packages of a module
have the same directory only if they are the same. -/
theorem C83_dirs_differ {m : Module} {pkg' : Str} (h : PkgDirIs gopath missing pkg (some m) dir) (h' : PkgDirIs gopath missing pkg' (some m) dir) :
    pkg = pkg' := by
  generalize hd : dir = d at h'
  cases h with
  | inModule h0 h1 h2 h3 h4 h5 =>
    cases h' with
    | inModule g0 g1 g2 g3 g4 g5 =>
      rw [Read.pathOfNames_append, Read.pathOfNames_append, ← h4, ← g4, List.append_cancel_left_eq] at hd
      rw [h5, g5, hd]

/-! ### C84: scans of packages on disk -/

variable {F : Type} {inp : Input F} {o : Orders} {fs : FS} {mods : Nat → Option Module}

/-- The files of the packages of an input are those of a file system. -/
def OnDisk (inp : Input F) (fs : FS) (gopath : Str) (missing : Str → Bool) (mods : Nat → Option Module) : Prop :=
  ∀ p, inp.files p = pkgFiles fs gopath missing (Scan.pathOf inp.heap p) (mods p)

/-- The directory of package number `p`. -/
def DirOf (inp : Input F) (gopath : Str) (missing : Str → Bool) (mods : Nat → Option Module) (p : Nat) (dir : Str) : Prop :=
  PkgDirIs gopath missing (Scan.pathOf inp.heap p) (mods p) dir ∧ NoPattern dir

theorem dir_plain (h : PkgDirIs gopath missing pkg mod dir) : PlainDir dir := by
  cases h with
  | inModule h0 h1 h2 h3 h4 h5 => exact ⟨_, by simp [h1], fun d hd => (List.mem_append.1 hd).elim (h2 d) (h3 d), rfl⟩
  | inGopath h1 h2 h3 h4 h5 h6 h7 => exact ⟨_, by simp [h1], fun d hd => (List.mem_append.1 hd).elim (h2 d) (h4 d), rfl⟩

theorem files_dir (hf : OnDisk inp fs gopath missing mods) {p : Nat} (hd : DirOf inp gopath missing mods p dir) :
    inp.files p = readDir fs dir specPatterns := by
  rw [hf, pkgFiles, C83_dir hd.1]

/-- C84: the specifications of a scanned package are the documents with a member `openapi` in the files `oapi.yaml`, `oapi.yml` and
`oapi.json` of its directory, provided each of these that is there can be read. -/
theorem C84_specifications (hf : OnDisk inp fs gopath missing mods) {p : Nat} (hd : DirOf inp gopath missing mods p dir) (d : Json) :
    (∃ i, SpecAt inp p i d) ↔ Visited inp p ∧ IsSpec d ∧
      (∃ n ∈ specNames, fs.lstat (dir ++ b!"/" ++ n) = true ∧ readFile fs (dir ++ b!"/" ++ n) = .ok ⟨dir ++ b!"/" ++ n, d⟩) ∧
      ∀ n ∈ specNames, fs.lstat (dir ++ b!"/" ++ n) = true → ∃ f, readFile fs (dir ++ b!"/" ++ n) = .ok f := by
  have hp := dir_plain hd.1
  unfold SpecAt
  constructor
  · rintro ⟨i, hv, l, f, h1, h2, rfl, h4⟩
    rw [files_dir hf hd] at h1
    obtain ⟨h5, h6⟩ := (C80_files hp hd.2).1 h1
    refine ⟨hv, h4, ?_, ?_⟩
    · have hm := List.mem_of_getElem? h2
      have : f.path ∈ presentSpecs fs dir := by rw [← h5]; exact List.mem_map_of_mem hm
      obtain ⟨n, hn, e⟩ := List.mem_map.1 this
      rw [List.mem_filter] at hn
      refine ⟨n, hn.1, hn.2, ?_⟩
      have h7 := h6 f hm
      rw [← e] at h7
      rw [h7]
      obtain ⟨fp, fd⟩ := f
      simp only at e
      rw [e]
    · intro n hn hl
      have : dir ++ b!"/" ++ n ∈ presentSpecs fs dir := List.mem_map.2 ⟨n, List.mem_filter.2 ⟨hn, hl⟩, rfl⟩
      rw [← h5] at this
      obtain ⟨g, hg, e⟩ := List.mem_map.1 this
      rw [← e]
      exact ⟨g, h6 g hg⟩
  · rintro ⟨hv, hs, ⟨n, hn, hl, hr⟩, hall⟩
    have : ∃ l, inp.files p = .ok l := by
      rw [files_dir hf hd]
      obtain ⟨h1, h2⟩ := C80_fails_iff (fs := fs) hp hd.2
      cases hx : readDir fs dir specPatterns with
      | ok l => exact ⟨l, rfl⟩
      | err e =>
        obtain ⟨n, hn, hl, e, he⟩ := h1.1 ⟨e, hx⟩
        obtain ⟨f, h⟩ := hall n hn hl
        rw [he] at h; cases h
      | panic => exact absurd hx h2
    obtain ⟨l, hx⟩ := this
    obtain ⟨h5, h6⟩ := (C80_files hp hd.2).1 ((files_dir hf hd).symm.trans hx)
    have : dir ++ b!"/" ++ n ∈ presentSpecs fs dir := List.mem_map.2 ⟨n, List.mem_filter.2 ⟨hn, hl⟩, rfl⟩
    rw [← h5] at this
    obtain ⟨g, hg, e⟩ := List.mem_map.1 this
    obtain ⟨i, hi⟩ := List.getElem?_of_mem hg
    have h7 := h6 g hg
    rw [e, hr] at h7
    injection h7 with h7
    refine ⟨i, hv, l, g, hx, hi, ?_, hs⟩
    rw [← h7]

/-- C84: a scanned package with a specification file that cannot be read … -/
theorem C84_unreadable_no_document (hi : InputOK inp) (ho : OrdersOK inp o) (hdp : DistinctPaths inp) (hf : OnDisk inp fs gopath missing mods)
    {p : Nat} (hv : Visited inp p) (hd : DirOf inp gopath missing mods p dir) {n : Str} (hn : n ∈ specNames)
    (hl : fs.lstat (dir ++ b!"/" ++ n) = true) (he : ∃ e, readFile fs (dir ++ b!"/" ++ n) = .err e) (fuel : Nat) : ¬ HasDoc (scan inp o fuel) := by
  refine C77_unprepared_no_document hi ho hdp (fun h => ?_) fuel
  obtain ⟨l, hx⟩ := h.files p hv
  rw [files_dir hf hd] at hx
  obtain ⟨e, he'⟩ := (C80_fails_iff (fs := fs) (dir_plain hd.1) hd.2).1.2 ⟨n, hn, hl, he⟩
  rw [hx] at he'; cases he'

/-- C84: … or whose directory is not known means no document. -/
theorem C84_no_dir_no_document (hi : InputOK inp) (ho : OrdersOK inp o) (hdp : DistinctPaths inp) (hf : OnDisk inp fs gopath missing mods)
    {p : Nat} (hv : Visited inp p) (he : ∃ e, pkgDir gopath missing (Scan.pathOf inp.heap p) (mods p) = .err e) (fuel : Nat) :
    ¬ HasDoc (scan inp o fuel) := by
  refine C77_unprepared_no_document hi ho hdp (fun h => ?_) fuel
  obtain ⟨l, hx⟩ := h.files p hv
  obtain ⟨e, he⟩ := he
  rw [hf, pkgFiles, he] at hx
  cases hx

theorem readFile_path {p : Str} {f : File} (h : readFile fs p = .ok f) : f.path = p := by
  rcases C81_object_or_error (fs := fs) p with ⟨o, h'⟩ | ⟨e, h'⟩
  · rw [h] at h'; injection h' with h'; rw [h']
  · rw [h] at h'; cases h'

/-- C84: two specification files in one package, each with a version, mean no document. -/
theorem C84_two_files_no_document (hi : InputOK inp) (ho : OrdersOK inp o) (hdp : DistinctPaths inp) (hf : OnDisk inp fs gopath missing mods)
    {p : Nat} (hv : Visited inp p) (hd : DirOf inp gopath missing mods p dir) {n n' : Str} (hn : n ∈ specNames) (hn' : n' ∈ specNames) (hne : n ≠ n')
    (hl : fs.lstat (dir ++ b!"/" ++ n) = true) (hl' : fs.lstat (dir ++ b!"/" ++ n') = true) {f f' : File} {m m' : Obj} {v v' : Str}
    (hr : readFile fs (dir ++ b!"/" ++ n) = .ok f) (hr' : readFile fs (dir ++ b!"/" ++ n') = .ok f') (hm : f.doc = .obj m) (hm' : f'.doc = .obj m')
    (ho1 : Obj.lookup b!"openapi" m = some (.str v)) (ho2 : Obj.lookup b!"openapi" m' = some (.str v')) (fuel : Nat) : ¬ HasDoc (scan inp o fuel) := by
  by_cases hex : ∃ k ∈ specNames, fs.lstat (dir ++ b!"/" ++ k) = true ∧ ∃ e, readFile fs (dir ++ b!"/" ++ k) = .err e
  · obtain ⟨k, h1, h2, h3⟩ := hex
    exact C84_unreadable_no_document hi ho hdp hf hv hd h1 h2 h3 fuel
  · have hp := dir_plain hd.1
    obtain ⟨l, hx⟩ : ∃ l, readDir fs dir specPatterns = .ok l := by
      obtain ⟨h1, h2⟩ := C80_fails_iff (fs := fs) hp hd.2
      cases hx : readDir fs dir specPatterns with
      | ok l => exact ⟨l, rfl⟩
      | err e => exact absurd (h1.1 ⟨e, hx⟩) hex
      | panic => exact absurd hx h2
    obtain ⟨h5, h6⟩ := (C80_files hp hd.2).1 hx
    have key : ∀ {n : Str} {f : File}, n ∈ specNames → fs.lstat (dir ++ b!"/" ++ n) = true → readFile fs (dir ++ b!"/" ++ n) = .ok f →
        ∃ i : Nat, l[i]? = some f := by
      intro n f hn hl hr
      have : dir ++ b!"/" ++ n ∈ presentSpecs fs dir := List.mem_map.2 ⟨n, List.mem_filter.2 ⟨hn, hl⟩, rfl⟩
      rw [← h5] at this
      obtain ⟨g, hg, e⟩ := List.mem_map.1 this
      have h7 := h6 g hg
      rw [e, hr] at h7; injection h7 with h7
      subst h7
      exact List.getElem?_of_mem hg
    obtain ⟨i, hi1⟩ := key hn hl hr
    obtain ⟨j, hj1⟩ := key hn' hl' hr'
    have hij : i ≠ j := by
      rintro rfl
      rw [hi1] at hj1; injection hj1 with e
      have e1 := readFile_path hr
      have e2 := readFile_path hr'
      rw [e, e2, List.append_cancel_left_eq] at e1
      exact hne e1.symm
    have hfl := (files_dir hf hd).trans hx
    exact C78_two_specifications hi ho hdp (p := p) (i := i) (p' := p) (i' := j) ⟨hv, l, f, hfl, hi1, hm, _, _, rfl, ho1⟩ ⟨hv, l, f', hfl, hj1, hm', _, _, rfl, ho2⟩
      (fun h => hij h.2) ho1 ho2 (.inl rfl) fuel

/-- C84: nothing but these three files of a package matters: with file systems that agree on them, the scan reads the same. -/
theorem C84_only_these {inp' : Input F} {fs' : FS} (hf : OnDisk inp fs gopath missing mods) (hf' : OnDisk inp' fs' gopath missing mods)
    (hh : inp'.heap = inp.heap) {p : Nat} (hd : DirOf inp gopath missing mods p dir)
    (h : ∀ n ∈ specNames, fs.lstat (dir ++ b!"/" ++ n) = fs'.lstat (dir ++ b!"/" ++ n) ∧
      readFile fs (dir ++ b!"/" ++ n) = readFile fs' (dir ++ b!"/" ++ n)) : inp'.files p = inp.files p := by
  rw [hf', hf, hh, pkgFiles, pkgFiles, C83_dir hd.1]
  exact (C80_only_these (dir_plain hd.1) hd.2 h).symm

end Oapi.Props
