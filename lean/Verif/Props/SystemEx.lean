import Verif.Props.System
import Verif.Props.PkgFilesEx
import Verif.Props.LoadEx
import Verif.Props.Crash

/-! C100 and C101 apply to a concrete machine. -/
namespace Oapi.Props.SystemEx
open Spec Spec.JsonText
open WholeEx PrepareEx PkgFilesEx
open JsonText (Env Marshals MarshalsIndent)
open System Scan

set_option maxRecDepth 100000

/-- The specification of the example of C65, as yaml.v2 decodes it. -/
def specYaml : List (Str × Read.Yaml) := [
  (b!"openapi", .str b!"3.0.0"),
  (b!"paths", .map [(.str b!"/n", .map [(.str b!"get", .map [
    (.str b!"schema", .map [(.str refKey, .str b!"go://#/Node")]),
    (.str b!"also", .map [(.str refKey, .str b!"http://ex.org/s#/Y")])])]),
    (.str b!"/v1.0", .map [(.str b!"get", .map [(.str b!"summary", .str b!"s")])])])]

/-- The configuration, with what that example passes as options. -/
def confText : Str := b!"{\"info\":{\"title\":\"T\"},\"operations\":{\"*\":{\"deprecated\":true}},\"overrides\":{\"http://ex.org/s#/Y\":{\"type\":\"string\"}}}"

/-- A machine on which package `ex.org/p` is in `/src/p`. -/
def world : World Int Unit where
  wd := b!"/w"
  dirs _ := false
  names _ _ := []
  globMeta _ _ := .ok []
  matchOther _ _ := false
  yaml d := if d = b!"Y" then some specYaml else none
  sprintOther _ := b!"?"
  text := exactEnv
  spec := demoEnv
  gopath := b!"/go"
  packages _ _ := inp
  mods _ _ _ := some module_
  void := ()
  logger := ()

def disk : Disk := fun p => if p = b!"/w/c.json" then some confText else if p = b!"/src/p/oapi.yaml" then some b!"Y" else none

/-- The output is either apart, or the file `oapi.json` of the package. -/
def flags (out : Str) : Cli.Flags := { config := b!"c.json", output := out }
def apart : Str := b!"/w/api.json"
def own : Str := b!"/src/p/oapi.json"

def outs : List Str := [apart, own]

theorem out_at {out : Str} (h : out ∈ outs) : outputOf world disk (flags out) = out := by
  revert h; revert out; decide +kernel
theorem format_at {out : Str} (h : out ∈ outs) : formatOf world disk (flags out) = b!"json:pretty" := by
  revert h; revert out; decide +kernel
theorem options_at {out : Str} (h : out ∈ outs) : (options world disk (flags out) true).override = inp.override ∧
    (options world disk (flags out) true).defops = inp.defops ∧ (options world disk (flags out) true).root = inp.root := by
  revert h; revert out; decide +kernel

/-- The files of package number `p`. -/
def files (p : Nat) : Res (List Container.File) := if p = 0 then .ok [⟨b!"/src/p/oapi.yaml", spec b!"go://#/Node"⟩] else .ok []

def files0 : List Container.File → Bool
  | [f] => decide (f.path = b!"/src/p/oapi.yaml") && decide (f.doc = spec b!"go://#/Node")
  | _ => false
def isFiles : Res (List Container.File) → Bool
  | .ok l => files0 l
  | _ => false
theorem isFiles_sound {r : Res (List Container.File)} (h : isFiles r = true) : r = .ok [⟨b!"/src/p/oapi.yaml", spec b!"go://#/Node"⟩] := by
  cases r with
  | ok l =>
    match l, h with
    | [⟨a, b⟩], h =>
      simp only [isFiles, files0, Bool.and_eq_true, decide_eq_true_eq] at h
      rw [h.1, h.2]
  | err e => cases h
  | panic => cases h

/-- What is scanned is the example of C65, with the file read from the disk. -/
theorem input_at {out : Str} (h : out ∈ outs) : scanInput world disk (flags out) true = withFiles inp files := by
  obtain ⟨h1, h2, h3⟩ := options_at h
  have h4 : (fun p => match inp.heap[p]? with
      | some pkg => Read.pkgFiles (fsOf world disk) world.gopath (missing world disk) pkg.path (some module_)
      | none => .ok []) = files := by
    funext p
    cases p with
    | zero => exact isFiles_sound (by decide +kernel)
    | succ p => rfl
  show ({ inp with files := (fun p => match inp.heap[p]? with
      | some pkg => Read.pkgFiles (fsOf world disk) world.gopath (missing world disk) pkg.path (some module_)
      | none => .ok []), override := (options world disk (flags out) true).override, defops := (options world disk (flags out) true).defops, root := (options world disk (flags out) true).root } : Input Int) = _
  rw [h1, h2, h3, h4]
  rfl

abbrev inpS : Input Int := withFiles inp files

theorem inputS_ok : InputOK inpS where
  graph := input_ok.graph
  paths := input_ok.paths
  prog := input_ok.prog
  files := by
    intro p fs h f hf he
    change (if p = 0 then Res.ok [_] else .ok []) = .ok fs at h
    split at h
    · cases h
      rw [List.mem_singleton] at hf
      subst hf
      exact input_ok.files 0 _ rfl ⟨b!"/src/p/openapi.yaml", spec b!"go://#/Node"⟩ (by simp) he
    · cases h; cases hf
  commands := input_ok.commands

theorem ordersS {o : Orders} (h : OrdersOK inp o) : OrdersOK inpS o :=
  ⟨h.heap₁, h.heap₂, h.heap₃, h.exports, h.commands, h.refs, h.sort, h.pointers, h.types, h.pick, h.resolver, h.ops, h.defops⟩

theorem resolvable_files {F : Type} {i : Input F} {o : Orders} {pre : Prepared} (h : Resolvable i o pre) (f : Nat → Res (List Container.File)) :
    Resolvable (withFiles i f) o pre :=
  ⟨h.names, h.apart, h.receives, ⟨h.doc.tidy, h.doc.bare, h.doc.parses, h.doc.known⟩, fun e he => let r := h.overrides e he; ⟨r.tidy, r.bare, r.parses, r.known⟩,
    fun p u h1 h2 h3 => let r := h.types p u h1 h2 h3; ⟨r.1, r.2, r.3⟩, h.cycles⟩

theorem defaults_files {F : Type} {i : Input F} {c : Json} (h : DefaultsOK i c) (f : Nat → Res (List Container.File)) : DefaultsOK (withFiles i f) c :=
  ⟨h.items, h.plain, h.defs, h.nodots, h.answers, h.objects, h.agree⟩

theorem preparedS : prepare inpS ScanEx.orders = .ok pre := ScanEx.same_sound (by decide +kernel)

theorem settledS : Settled inpS ScanEx.orders pre where
  input := inputS_ok
  schemas := ⟨schemas_ok.tags, schemas_ok.std, schemas_ok.zero, schemas_ok.nums, schemas_ok.ints⟩
  orders := ordersS orders_ok
  prepared := preparedS
  resolvable := resolvable_files resolvable files
  shortest := one_shortest
  defaults := defaults_files defaults_ok files

theorem distinctS : DistinctPaths inpS := distinct
theorem soundS : Sound inpS := CrashEx.sound_of (by decide) (fun p => by show (if p = 0 then Res.ok _ else .ok []) ≠ .panic; split <;> simp) rfl rfl rfl

theorem dirS {out : Str} (h : out ∈ outs) : PackageDir world disk (flags out) true 0 b!"/src/p" := by
  unfold PackageDir
  rw [input_at h]
  exact ⟨.inModule (m := module_) (ds := [b!"src"]) (rest := [b!"p"]) (by decide) (by decide) (names (by decide)) (names (by decide)) rfl rfl,
    by unfold NoPattern; decide⟩

theorem separate {out : Str} (h : out ∈ outs) : SeparateOutput world disk (flags out) true where
  file := by rw [out_at h]; revert h; revert out; decide
  config := by
    rw [out_at h]
    have h1 : ∀ out ∈ outs, Cli.toAbsPath (flags out).config world.wd ≠ out := by decide +kernel
    have h2 : Read.readFile (fsOf world disk) (Cli.toAbsPath (flags out).config world.wd) = .ok ⟨b!"/w/c.json", .obj [(b!"info", .obj [(b!"title", .str b!"T")]),
        (b!"operations", .obj [(b!"*", .obj [(b!"deprecated", .bool true)])]),
        (b!"overrides", .obj [(b!"http://ex.org/s#/Y", .obj [(b!"type", .str b!"string")])])]⟩ := by
      rw [show Cli.toAbsPath (flags out).config world.wd = b!"/w/c.json" from rfl]
      refine (C81_json (n := b!"c.json") ⟨by decide, .inr ⟨b!"/w", rfl⟩⟩ ⟨b!"c", rfl⟩ _).2 ⟨rfl, confText, _, rfl, ?_, rfl⟩
      show JsonText.unmarshalMap exactEnv.numOf confText = _
      decide +kernel
    have key : ∀ q, ConfigFile world disk (flags out) q → q = Cli.toAbsPath (flags out).config world.wd := by
      intro q hc
      cases hc with
      | given _ => rfl
      | base _ h3 h4 h5 =>
        rw [h2] at h3
        cases h3
        cases h4
        exact absurd h5 (by simp [Obj.lookup])
    exact fun hc => h1 out h (key out hc).symm
  packages := fun _ _ => ⟨rfl, fun _ => rfl⟩
  dirs := by
    intro p hv
    rw [input_at h] at hv
    have : p = 0 := visited hv
    subst this
    exact ⟨_, dirS h, by rw [out_at h]; revert h; revert out; decide⟩

/-! ### The document -/

def xRef : Str := b!"#/components/schemas/Node"
def docM : Obj := [
  (b!"components", .obj [(b!"schemas", .obj [(b!"Node", .obj [
    (b!"properties", .obj [
      (b!"Items", .obj [
        (b!"items", .obj [
          (b!"properties", .obj [(b!"ID", .obj [(b!"type", .str b!"integer")]), (b!"Owner", refObj xRef)]),
          (b!"type", .str b!"object")]),
        (b!"nullable", .bool true),
        (b!"type", .str b!"array")]),
      (b!"Next", .obj [(b!"oneOf", .arr [refObj xRef, .obj [(b!"nullable", .bool true), (b!"type", .str b!"object")]])])]),
    (b!"type", .str b!"object")])])]),
  (b!"info", .obj [(b!"title", .str b!"T"), (b!"version", .str [])]),
  (b!"openapi", .str b!"3.0.0"),
  (b!"paths", .obj [(b!"/n", .obj [(b!"get", .obj [(b!"also", .obj [(b!"type", .str b!"string")]), (b!"deprecated", .bool true), (b!"schema", refObj xRef)])]),
    (b!"/v1.0", .obj [(b!"get", .obj [(b!"summary", .str b!"s")])])])]

def isM : Outcome → Bool
  | .ret (some c) (some .decode) => decide (c = .obj docM)
  | _ => false
theorem isM_sound {r : Outcome} (h : isM r = true) : r = .ret (some (.obj docM)) (some .decode) := by
  unfold isM at h
  split at h
  · rw [of_decide_eq_true h]
  · cases h

theorem scanM : scan inpS ScanEx.orders 6 = .ret (some (.obj docM)) (some .decode) := isM_sound (by decide +kernel)

/-- It is the document of C100 and C101. -/
theorem is_docM {m : Obj} {N : Nat} (h : ∀ o', OrdersOK inpS o' → ∀ fuel, N ≤ fuel → scan inpS o' fuel = .ret (some (.obj m)) (some .decode)) : m = docM := by
  have := (h _ (ordersS orders_ok) (max N 6) (Nat.le_max_left _ _)).symm.trans (C65_more_stack (Nat.le_max_right N 6) scanM)
  cases this
  rfl

theorem docM_wf : Json.WF (.obj docM) := wfB_sound _ (by decide)

def itemsM : List Format.Item := docM.map fun p => ⟨p.1, p.2, if p.1 = b!"openapi" then 0 else if p.1 = b!"info" then 1 else if p.1 = b!"components" then 2 else 3⟩
def sortedM : List Format.Item := match itemsM with
  | [c, i, o, p] => [o, i, c, p]
  | l => l

theorem sortedM_members : Format.Members Format.order docM sortedM := by
  refine ⟨pairs sortedM, sortedM, ?_, ⟨.refl _, by decide⟩, ⟨.refl _, by decide⟩⟩
  have : List.isPerm (pairs sortedM) docM = true := by decide +kernel
  exact List.isPerm_iff.1 this

def textM : Str := b!"{\"openapi\":\"3.0.0\",\"info\":{\"title\":\"T\",\"version\":\"\"},\"components\":{\"schemas\":{\"Node\":{\"properties\":{\"Items\":{\"items\":{\"properties\":{\"ID\":{\"type\":\"integer\"},\"Owner\":{\"$ref\":\"#/components/schemas/Node\"}},\"type\":\"object\"},\"nullable\":true,\"type\":\"array\"},\"Next\":{\"oneOf\":[{\"$ref\":\"#/components/schemas/Node\"},{\"nullable\":true,\"type\":\"object\"}]}},\"type\":\"object\"}}},\"paths\":{\"/n\":{\"get\":{\"also\":{\"type\":\"string\"},\"deprecated\":true,\"schema\":{\"$ref\":\"#/components/schemas/Node\"}}},\"/v1.0\":{\"get\":{\"summary\":\"s\"}}}}"

theorem textM_exact : Marshals exactEnv (.obj docM) (some textM) := ⟨sortedM, sortedM_members, by decide +kernel⟩

theorem docM_unicode : AllTexts Unicode (.obj docM) := by
  simp only [docM, refObj, AllTexts, AllTextsO, AllTextsL, and_true]
  repeat' apply And.intro
  all_goals first
    | exact trivial
    | exact ascii_unicode (by decide)

theorem docM_portable : Portable exactEnv docM :=
  let h := ((C93_ok (fun n t h => (exactEnv_number n t h).1) docM_wf).1 _ textM_exact).1 rfl
  ⟨docM_unicode, h.1, h.2⟩

theorem docM_spec : SpecFileOK (.obj docM) := by
  refine ⟨⟨_, rfl⟩, docM_wf, routedB_sound (pb := fun _ => true) docM_wf (fun _ _ => rfl) (by decide), ?_⟩
  intro x hx
  have := hasRef_mem hx
  rw [show refsB (.obj docM) = [xRef, xRef, xRef] by decide] at this
  have : x = xRef := by simpa using this
  subst this
  exact ⟨[], _, nofun, .inr rfl⟩

/-! ### Undisturbed runs -/

/-- A run with a given depth of the stack. -/
noncomputable def chance (n : Nat) : Chance where
  orders := ScanEx.orders
  depth := n
  yaml _ := .err .decode
  json d := asRes (C93_outcome exactEnv d).1.choose
  pretty d := asRes (C93_outcome exactEnv d).2.choose
  faults := ⟨true, true, 10000⟩

theorem undisturbed {out : Str} (ho : out ∈ outs) {N n : Nat} (h : N ≤ n) : Undisturbed world disk (flags out) true N (.obj docM) (chance n) where
  orders := by rw [input_at ho]; exact ordersS orders_ok
  depth := h
  encoders d := ⟨⟨_, (C93_outcome exactEnv d).1.choose_spec, asRes_encodes _⟩, ⟨_, (C93_outcome exactEnv d).2.choose_spec, asRes_encodes _⟩⟩
  writes := ⟨rfl, rfl⟩
  room t := by
    rintro (h | h | rfl)
    · change asRes (C93_outcome exactEnv (.obj docM)).1.choose = .ok t at h
      rw [C55_json_same docM_wf (by decide) (C93_outcome exactEnv (.obj docM)).1.choose_spec textM_exact] at h
      cases h
      show textM.length ≤ 10000
      decide +kernel
    · change asRes (C93_outcome exactEnv (.obj docM)).2.choose = .ok t at h
      obtain ⟨q, h1, h2⟩ := (C93_outcome exactEnv (.obj docM)).2.choose_spec
      rw [h2, C55_json_same docM_wf (by decide) h1 textM_exact] at h
      have h3 : ∀ u, (some textM).bind JsonText.indent = some u → u.length ≤ 10000 := by
        have : ((some textM).bind JsonText.indent).all (fun u => decide (u.length ≤ 10000)) = true := by decide +kernel
        intro u hu
        rw [hu] at this
        exact of_decide_eq_true this
      cases hq : (some textM).bind JsonText.indent with
      | none => rw [hq] at h; cases h
      | some u =>
        rw [hq] at h
        cases h
        exact h3 _ hq
    · show 4 ≤ 10000
      decide

theorem exact_numbers : ∀ n t, world.text.numText n = some t → NumberText world.text.numOf t n := exactEnv_number

/-! ### C100: the output is apart -/

theorem settled_at {out : Str} (h : out ∈ outs) : Settled (scanInput world disk (flags out) true) ScanEx.orders pre := by
  rw [input_at h]; exact settledS

theorem apart_in : apart ∈ outs := by decide
theorem own_in : own ∈ outs := by decide

theorem notASpec : NotASpec world disk (flags apart) true := by
  intro p dir hv hd n hn
  rw [input_at apart_in] at hv
  have : p = 0 := visited hv
  subst this
  have e : dir = b!"/src/p" := by
    have h1 := C83_dir hd.1
    have h2 := C83_dir (dirS apart_in).1
    exact Res.ok.inj (h1.symm.trans h2)
  subst e
  rw [out_at apart_in]
  revert hn; revert n; decide

/-- Whatever happened before, after one more run the document can be read from the output file. -/
example : ∃ N, ∀ chs n, N ≤ n →
    Read.readFile (fsOf world (runs world (flags apart) true disk (chs ++ [chance n]))) apart = .ok ⟨apart, .obj docM⟩ := by
  obtain ⟨m, N, h1, h2⟩ := C100_repeated_runs exact_numbers (settled_at apart_in) (separate apart_in) notASpec (.inr (format_at apart_in))
  rw [input_at apart_in] at h1
  cases is_docM h1
  refine ⟨N, fun chs n hn => ?_⟩
  obtain ⟨_, t, _, _, h⟩ := h2 docM_portable chs (chance n) (undisturbed apart_in hn)
  rw [out_at apart_in] at h
  exact h ⟨b!"api.json", ⟨by decide, .inr ⟨b!"/w", rfl⟩⟩, b!"api", rfl⟩

/-- All such runs leave the same disk. -/
example : ∃ N, ∀ chs chs' n n', N ≤ n → N ≤ n' →
    runs world (flags apart) true disk (chs ++ [chance n]) = runs world (flags apart) true disk (chs' ++ [chance n']) := by
  obtain ⟨m, N, h1, _⟩ := C100_repeated_runs exact_numbers (settled_at apart_in) (separate apart_in) notASpec (.inr (format_at apart_in))
  have h1' := h1
  rw [input_at apart_in] at h1'
  cases is_docM h1'
  exact ⟨N, fun chs chs' n n' hn hn' => C100_same_bytes exact_numbers (settled_at apart_in) (separate apart_in) notASpec (.inr (format_at apart_in)) h1
    docM_portable (by decide) chs chs' (undisturbed apart_in hn) (undisturbed apart_in hn')⟩

/-- The specification is never touched. -/
example (chs : List Chance) : runs world (flags apart) true disk chs b!"/src/p/oapi.yaml" = some b!"Y" :=
  C100_other_files (separate apart_in) chs (by rw [out_at apart_in]; decide)

/-! ### C101: the output is `oapi.json` of the package -/

theorem ownSpec : OwnSpec world disk (flags own) true 0 b!"/src/p" where
  visited := by rw [input_at own_in]; exact visited0
  place := dirS own_in
  output := by rw [out_at own_in]; decide
  absent := by rw [out_at own_in]; decide
  only q hv _ := by rw [input_at own_in] at hv; exact visited hv

example : ∃ N, ∀ k n, N ≤ n →
    (k % 2 = 1 → runs world (flags own) true disk (List.replicate k (chance n) ++ [chance n]) own = some b!"null") ∧
    (k % 2 = 0 → ∃ t, runs world (flags own) true disk (List.replicate k (chance n) ++ [chance n]) own = some t ∧ JsonText Str.atoi t (.obj docM)) := by
  obtain ⟨m, N, h1, h2⟩ := C101_alternation exact_numbers (settled_at own_in) (by rw [input_at own_in]; exact distinctS) (by rw [input_at own_in]; exact soundS)
    (separate own_in) ownSpec (.inr (format_at own_in)) (q := 0) (i := 0) (d := _) (v := .str b!"3.0.0")
    (by rw [input_at own_in]; exact ⟨visited0, _, _, rfl, rfl, rfl, _, _, rfl, rfl⟩) rfl rfl
  rw [input_at own_in] at h1
  cases is_docM h1
  refine ⟨N, fun k n hn => ?_⟩
  obtain ⟨_, h3, h4⟩ := h2 docM_portable docM_spec (List.replicate k (chance n)) (chance n) (fun c hc => by
    rcases List.mem_append.1 hc with h | h
    · rw [List.eq_of_mem_replicate h]; exact undisturbed own_in hn
    · rw [List.mem_singleton.1 h]; exact undisturbed own_in hn)
  rw [out_at own_in] at h3 h4
  rw [List.length_append, List.length_replicate] at h3 h4
  exact ⟨fun h => h4 (by simp; omega), fun h => h3 (by simp; omega)⟩

/-! ### A directory `/src/p/oapi.json` -/

def blocked : World Int Unit := { world with dirs := fun p => decide (p = b!"/src/p/oapi.json") }

def inpB : Input Int := scanInput blocked disk (flags apart) true

theorem inpB_files : (∃ e, inpB.files 0 = .err e) ∧ ∀ p, inpB.files (p + 1) = .ok [] := by
  refine ⟨?_, fun p => rfl⟩
  have : (match inpB.files 0 with | .err _ => true | _ => false) = true := by decide +kernel
  cases h : inpB.files 0 with
  | err e => exact ⟨e, rfl⟩
  | ok l => rw [h] at this; cases this
  | panic => rw [h] at this; cases this

example (fuel : Nat) : ¬ HasDoc (scan inpB ScanEx.orders fuel) := by
  have hin : InputOK inpB := by
    refine ⟨input_ok.graph, input_ok.paths, input_ok.prog, ?_, input_ok.commands⟩
    intro p fs h f hf he
    cases p with
    | zero => obtain ⟨e, h'⟩ := inpB_files.1; rw [h'] at h; cases h
    | succ p => rw [inpB_files.2 p] at h; cases h; cases hf
  have h := orders_ok
  have hor : OrdersOK inpB ScanEx.orders :=
    ⟨h.heap₁, h.heap₂, h.heap₃, h.exports, h.commands, h.refs, h.sort, h.pointers, h.types, h.pick, h.resolver, h.ops, h.defops⟩
  refine C100_directory_in_the_way (w := blocked) (disk := disk) (ff := flags apart) (nolog := true) hin hor distinct (p := 0) (dir := b!"/src/p") visited0
    ⟨.inModule (m := module_) (ds := [b!"src"]) (rest := [b!"p"]) (by decide) (by decide) (names (by decide)) (names (by decide)) rfl rfl,
      by unfold NoPattern; decide⟩ (n := b!"oapi.json") (by decide) (by decide) (by decide) fuel

end Oapi.Props.SystemEx
