import Verif.Props.PkgFiles
import Verif.Props.PrepareEx

/-! C83 and C84 apply to a concrete file system. -/
namespace Oapi.Props
open Spec
open Read (FS readFile readDir pkgDir pkgFiles Module specPatterns)
open Container (File)
open Scan (Input Orders prepare scan)

namespace PkgFilesEx
open WholeEx PrepareEx

/-- A module whose package `ex.org/p` has an `oapi.json`, and an `oapi.yaml` for the given content. -/
def disk (y : Option Str) : FS where
  lstat p := p = b!"/src/p/oapi.json" || (p = b!"/src/p/oapi.yaml" && y.isSome)
  names _ := []
  content p := if p = b!"/src/p/oapi.json" then some b!"J" else if p = b!"/src/p/oapi.yaml" then y else none
  globMeta _ := .ok []
  matchOther _ _ := false
  json d := if d = b!"J" then some [(b!"openapi", .str b!"3.0.0"),
    (b!"paths", .obj [(b!"/n", .obj [(b!"get", .obj [(b!"also", refObj b!"http://ex.org/s#/Y"), (b!"schema", refObj b!"go://#/Node")])]),
      (b!"/v1.0", .obj [(b!"get", .obj [(b!"summary", .str b!"s")])])])] else none
  yaml d := if d = b!"Y" then some [(b!"openapi", .str b!"3.0.1")] else none
  sprintOther _ := b!"?"

def module_ : Module := ⟨b!"ex.org", b!"/src"⟩

def onDisk (y : Option Str) : Input Int := { inp with
  files := fun p => pkgFiles (disk y) b!"/go" (fun _ => true) (Scan.pathOf inp.heap p) (some module_) }

theorem names {l : List Str} (h : (l.all fun n => decide (n ≠ [] ∧ n ≠ b!"." ∧ n ≠ b!".." ∧ (47 : UInt8) ∉ n)) = true) : ∀ d ∈ l, FileName d :=
  fun d hd => (of_decide_eq_true (List.all_eq_true.1 h d hd) : d ≠ [] ∧ d ≠ b!"." ∧ d ≠ b!".." ∧ (47 : UInt8) ∉ d)

theorem dir_p : DirOf (onDisk y) b!"/go" (fun _ => true) (fun _ => some module_) 0 b!"/src/p" :=
  ⟨.inModule (m := module_) (ds := [b!"src"]) (rest := [b!"p"]) (by decide) (by decide) (names (by decide)) (names (by decide)) rfl rfl,
    by unfold NoPattern; decide⟩

theorem on_disk : OnDisk (onDisk y) (disk y) b!"/go" (fun _ => true) (fun _ => some module_) := fun _ => rfl

theorem doc_of {y : Option Str} {p : Str} {f : File} (h : readFile (disk y) p = .ok f) :
    f.doc = WholeEx.spec b!"go://#/Node" ∨ f.doc = .obj [(b!"openapi", .str b!"3.0.1")] := by
  unfold readFile at h
  cases hc : (disk y).content p with
  | none => rw [hc] at h; cases h
  | some data =>
    rw [hc] at h
    simp only at h
    by_cases h1 : Read.ext p = b!".yaml" ∨ Read.ext p = b!".yml"
    · rw [if_pos h1, Read.readYAML] at h
      by_cases hd : data = b!"Y"
      · subst hd
        right
        injection h with h; rw [← h]; rfl
      · rw [show (disk y).yaml data = none from if_neg hd] at h; cases h
    · rw [if_neg h1] at h
      by_cases h2 : Read.ext p = b!".json"
      · rw [if_pos h2, Read.readJSON] at h
        by_cases hd : data = b!"J"
        · subst hd
          left
          injection h with h; rw [← h]; rfl
        · rw [show (disk y).json data = none from if_neg hd] at h; cases h
      · rw [if_neg h2] at h; cases h

theorem onDisk_ok (y : Option Str) : InputOK (onDisk y) where
  graph := input_ok.graph
  paths := input_ok.paths
  prog := input_ok.prog
  files := by
    intro p fs h f hf he
    have hr : readFile (disk y) f.path = .ok f := by
      simp only [onDisk, pkgFiles] at h
      split at h
      · cases h
      · cases h
      · unfold readDir at h
        split at h
        · cases h
        · cases h
        · exact ((readAll_iff _).1 h).2 f hf
    rcases doc_of hr with h1 | h1
    · rw [h1]
      have h0 := input_ok.files 0 _ rfl ⟨b!"/src/p/openapi.yaml", WholeEx.spec b!"go://#/Node"⟩ (by simp)
      exact h0 (h1 ▸ he)
    · rw [h1]
      refine ⟨⟨_, rfl⟩, wfB_sound _ (by decide), routed_of_safe _ (safeB_sound (by decide)), ?_⟩
      intro x hx
      have := hasRef_mem hx
      rw [show refsB (.obj [(b!"openapi", .str b!"3.0.1")]) = [] by decide] at this
      cases this
  commands := input_ok.commands

theorem onDisk_orders (y : Option Str) : OrdersOK (onDisk y) ScanEx.orders :=
  ⟨orders_ok.heap₁, orders_ok.heap₂, orders_ok.heap₃, orders_ok.exports, orders_ok.commands, orders_ok.refs, orders_ok.sort, orders_ok.pointers,
    orders_ok.types, orders_ok.pick, orders_ok.resolver, orders_ok.ops, orders_ok.defops⟩

theorem read_json (y : Option Str) : readFile (disk y) b!"/src/p/oapi.json" = .ok ⟨b!"/src/p/oapi.json", WholeEx.spec b!"go://#/Node"⟩ :=
  (C81_json (n := b!"oapi.json") ⟨by decide, .inr ⟨b!"/src/p", rfl⟩⟩ ⟨b!"oapi", rfl⟩ _).2 ⟨rfl, b!"J", _, rfl, rfl, rfl⟩

theorem read_yaml : readFile (disk (some b!"Y")) b!"/src/p/oapi.yaml" = .ok ⟨b!"/src/p/oapi.yaml", .obj [(b!"openapi", .str b!"3.0.1")]⟩ :=
  (C81_yaml (n := b!"oapi.yaml") ⟨by decide, .inr ⟨b!"/src/p", rfl⟩⟩ (.inl ⟨b!"oapi", rfl⟩) _).2 ⟨rfl, b!"Y", _, rfl, rfl, rfl⟩

/-- The JSON file is a specification of the package … -/
example : ∃ i, SpecAt (onDisk none) 0 i (WholeEx.spec b!"go://#/Node") := by
  rw [C84_specifications on_disk dir_p]
  refine ⟨visited0, ⟨_, _, rfl, rfl⟩, ⟨b!"oapi.json", by decide, by decide, read_json _⟩, ?_⟩
  intro n hn hl
  simp only [specNames, List.mem_cons, List.not_mem_nil, or_false] at hn
  rcases hn with rfl | rfl | rfl
  · exact absurd hl (by decide)
  · exact absurd hl (by decide)
  · exact ⟨_, read_json _⟩

/-- … with a YAML file beside it that cannot be decoded no scan returns a document … -/
example (fuel : Nat) : ¬ HasDoc (scan (onDisk (some b!"broken")) ScanEx.orders fuel) :=
  C84_unreadable_no_document (onDisk_ok _) (onDisk_orders _) distinct on_disk visited0 dir_p (n := b!"oapi.yaml") (by decide) (by decide)
    ⟨.decode, rfl⟩ fuel

/-- … nor with a second specification … -/
example (fuel : Nat) : ¬ HasDoc (scan (onDisk (some b!"Y")) ScanEx.orders fuel) :=
  C84_two_files_no_document (onDisk_ok _) (onDisk_orders _) distinct on_disk visited0 dir_p (n := b!"oapi.yaml") (n' := b!"oapi.json") (by decide) (by decide)
    (by decide) (by decide) (by decide) read_yaml (read_json _) rfl rfl rfl rfl fuel

/-- … nor without a module and GOPATH. -/
def lost : Input Int := { inp with files := fun p => pkgFiles (disk none) b!"/go" (fun _ => true) (Scan.pathOf inp.heap p) none }

theorem lost_ok : InputOK lost where
  graph := input_ok.graph
  paths := input_ok.paths
  prog := input_ok.prog
  files := by
    intro p fs h
    simp [lost, pkgFiles, pkgDir] at h
  commands := input_ok.commands

theorem lost_orders : OrdersOK lost ScanEx.orders :=
  ⟨orders_ok.heap₁, orders_ok.heap₂, orders_ok.heap₃, orders_ok.exports, orders_ok.commands, orders_ok.refs, orders_ok.sort, orders_ok.pointers,
    orders_ok.types, orders_ok.pick, orders_ok.resolver, orders_ok.ops, orders_ok.defops⟩

example (fuel : Nat) : ¬ HasDoc (scan lost ScanEx.orders fuel) :=
  C84_no_dir_no_document (fs := disk none) (gopath := b!"/go") (missing := fun _ => true) (mods := fun _ => none) lost_ok lost_orders distinct (fun _ => rfl) visited0
    (C83_gopath_missing (gs := [b!"go"]) (ns := [b!"ex.org", b!"p"]) (by decide) (names (by decide)) (by decide) (names (by decide)) rfl) fuel

example : PkgDirIs b!"/go" (fun _ => false) b!"ex.org/p" none b!"/go/ex.org/p" :=
  .inGopath (gs := [b!"go"]) (ns := [b!"ex.org", b!"p"]) (by decide) (names (by decide)) (by decide) (names (by decide)) rfl rfl rfl

end PkgFilesEx
end Oapi.Props
