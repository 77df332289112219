import Verif.Proofs.Args
import Verif.Props.SystemEx

/-! C121: the command line, and what happens before anything is scanned. -/
namespace Oapi.Props
open Spec Args

section
variable {F L : Type} {w : System.World F L} {std : List Str} {file : Str → Option (List Args.Tok × Bool)} {args args' : List Str} {disk : System.Disk}
  {ch : System.Chance} {ff : Cli.Flags} {nolog : Bool}

/-- The world, with the packages of the standard library. -/
def withStd (w : System.World F L) (std : List Str) : System.World F L :=
  { w with packages := fun d dir => { w.packages d dir with stdpkg := fun p => std.contains p } }

/-- **C121** (which command lines run): without argument files, the command line is parsed exactly if it is a writing of proper settings, and the
flags are these settings. -/
theorem C121_flags_iff (ha : ∀ a ∈ args, ¬ ∃ r, a = b!"@" ++ r) :
    parse file args = .flags ff nolog ↔ ∃ s, Says args s ∧ Proper s ∧ FlagsOf s ff nolog := by
  refine parse_iff fun a h => ?_
  cases e : Str.hasPrefix a b!"@" with
  | false => rfl
  | true => exact absurd (hasPrefix_iff.1 e) (ha a h)

/-- **C121** (a proper command line runs): the process is a run of `main` with the settings as flags. -/
theorem C121_runs {s : List (Str × Str)} (h : Says args s) (hp : Proper s) (hf : FlagsOf s ff nolog) (hn : ∀ a ∈ args, ¬ ∃ r, a = b!"@" ++ r) :
    process w (some std) file args disk ch = .main (System.run (withStd w std) ff nolog disk ch) := by
  have := (C121_flags_iff (file := file) hn).2 ⟨s, h, hp, hf⟩
  unfold process
  simp only [this]
  rfl

/-- **C121** (no other does anything): any other command line ends the process before it has read or written a file: with a help text, or with a
crash. -/
theorem C121_nothing_else {std : Option (List Str)} (h : ¬ ∃ ff nolog, parse file args = .flags ff nolog) :
    (process w std file args disk ch = .help ∨ process w std file args disk ch = .panics) ∧ (process w std file args disk ch).files disk = disk := by
  unfold process
  cases std with
  | none => exact ⟨.inr rfl, rfl⟩
  | some l =>
    dsimp only
    cases hp : parse file args with
    | flags ff nolog => exact absurd ⟨ff, nolog, hp⟩ h
    | exits => exact ⟨.inl rfl, rfl⟩
    | fails => exact ⟨.inr rfl, rfl⟩

/-- **C121** (without a toolchain): if the packages of the standard library cannot be listed, every process crashes before it has read its arguments,
whatever they are, `--help` included. -/
theorem C121_no_toolchain : process w none file args disk ch = .panics ∧ (process w none file args disk ch).files disk = disk := ⟨rfl, rfl⟩

theorem gives_perm {s s' : List (Str × Str)} (h : ∀ e, e ∈ s ↔ e ∈ s') {n d v : Str} : Gives s n d v ↔ Gives s' n d v := by
  unfold Gives
  simp only [h]

/-- **C121** (order and form do not matter): two writings of the same settings, in any order and form, do the same. -/
theorem C121_order_and_form {s s' : List (Str × Str)} (h : Says args s) (h' : Says args' s') (hs : s.Perm s') (hp : Proper s)
    (hn : ∀ a ∈ args, ¬ ∃ r, a = b!"@" ++ r) (hn' : ∀ a ∈ args', ¬ ∃ r, a = b!"@" ++ r) :
    process w (some std) file args disk ch = process w (some std) file args' disk ch := by
  have hp' : Proper s' := ⟨(hs.map Prod.fst).nodup_iff.1 hp.once, fun v hv => hp.level v (hs.mem_iff.2 hv), fun v hv => hp.format v (hs.mem_iff.2 hv)⟩
  have hg : ∀ n d, Gives s n d (value s n d) := fun n d => (value_gives hp.once).2 rfl
  have hf : FlagsOf s { config := value s b!"config" [], dir := value s b!"dir" [], format := value s b!"format" [], output := value s b!"output" [] }
      (value s b!"loglevel" b!"nolog" == b!"nolog") := ⟨hg _ _, hg _ _, hg _ _, hg _ _, _, hg _ _, by simp⟩
  have hm : ∀ e, e ∈ s ↔ e ∈ s' := fun e => hs.mem_iff
  have hf' := hf
  obtain ⟨h1, h2, h3, h4, v, h5, h6⟩ := hf'
  rw [gives_perm hm] at h1 h2 h3 h4 h5
  rw [C121_runs h hp hf hn, C121_runs h' hp' ⟨h1, h2, h3, h4, v, h5, h6⟩ hn']
end

/-! Concrete command lines. -/
namespace ArgsEx

def line : List Str := [b!"--output", b!"api.json", b!"--dir=./cmd", b!"--loglevel=debug", b!"--format", b!"--", b!"json"]
def said : List (Str × Str) := [(b!"output", b!"api.json"), (b!"dir", b!"./cmd"), (b!"loglevel", b!"debug"), (b!"format", b!"json")]
def flags : Cli.Flags := { dir := b!"./cmd", format := b!"json", output := b!"api.json" }

theorem says : Says line said :=
  .apart (by decide) (by rintro c u h; cases h; decide) (.joined (n := b!"dir") (v := b!"./cmd") (by decide)
    (.joined (n := b!"loglevel") (v := b!"debug") (by decide) (.last (n := b!"format") (by decide))))

theorem proper : Proper said := valuesOk_iff.1 (by decide)

theorem plain : ∀ a ∈ line, ¬ ∃ r, a = b!"@" ++ r := by
  intro a h ⟨r, e⟩
  subst e
  revert h
  simp [line]

example (file) : parse file line = .flags flags false := by
  refine (C121_flags_iff plain).2 ⟨said, says, proper, ?_⟩
  exact ⟨.inr ⟨by simp [said], rfl⟩, .inl (by simp [said, flags]), .inl (by simp [said, flags]), .inl (by simp [said, flags]), b!"debug",
    .inl (by simp [said]), by decide⟩

/-- The settings in another order and form. -/
example {F L : Type} (w : System.World F L) (std file disk ch) : process w (some std) file line disk ch =
    process w (some std) file [b!"--format=json", b!"--output=api.json", b!"--dir", b!"./cmd", b!"--loglevel", b!"debug", b!"--"] disk ch := by
  refine C121_order_and_form says (s' := [(b!"format", b!"json"), (b!"output", b!"api.json"), (b!"dir", b!"./cmd"), (b!"loglevel", b!"debug")])
    (.joined (n := b!"format") (v := b!"json") (by decide) (.joined (n := b!"output") (v := b!"api.json") (by decide)
      (.apart (by decide) (by rintro c u h; cases h; decide) (.apart (by decide) (by rintro c u h; cases h; decide) .done)))) ?_ proper plain ?_
  · decide
  · intro a h ⟨r, e⟩
    subst e
    revert h
    simp

/-- Not parsed: an unknown flag, a flag without value, a value that looks like a flag, a flag twice, a format that does not exist. -/
example (file) : parse file [b!"--verbose"] = .fails ∧ parse file [b!"--dir"] = .fails ∧ parse file [b!"--output", b!"-"] = .fails ∧
    parse file [b!"--dir=a", b!"--dir=b"] = .fails ∧ parse file [b!"--format=xml"] = .fails ∧ parse file [b!"scan"] = .fails ∧
    parse file [b!"--help"] = .exits := ⟨rfl, rfl, rfl, rfl, rfl, rfl, rfl⟩

end ArgsEx
end Oapi.Props
