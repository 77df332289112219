import Verif.Model.Args

/-! What a command line says (C121). -/
namespace Oapi.Spec
open Args Cli

/-- The five flags. -/
def FlagNames : List Str := [b!"loglevel", b!"config", b!"dir", b!"format", b!"output"]

/-- The arguments are a writing of the settings, in this order: `--name=value`, or `--name value` if the value does not begin with '-' or '@'; after
the settings there may be a `--`, also before the value of the last one, which then may be anything. -/
inductive Says : List Str → List (Str × Str) → Prop where
  | nothing : Says [] []
  | done : Says [b!"--"] []
  | joined {n v t s} : n ∈ FlagNames → Says t s → Says ((b!"--" ++ n ++ b!"=" ++ v) :: t) ((n, v) :: s)
  | apart {n v t s} : n ∈ FlagNames → (∀ c u, v = c :: u → c ≠ 45 ∧ c ≠ 64) → Says t s → Says ((b!"--" ++ n) :: v :: t) ((n, v) :: s)
  | last {n v} : n ∈ FlagNames → Says [b!"--" ++ n, b!"--", v] [(n, v)]

/-- The settings are ones the command takes: none twice, and a level and a format that exist. -/
structure Proper (s : List (Str × Str)) : Prop where
  once : (s.map Prod.fst).Nodup
  level : ∀ v, (b!"loglevel", v) ∈ s → v ∈ [b!"nolog", b!"panic", b!"fatal", b!"error", b!"warn", b!"info", b!"debug", b!"trace"]
  format : ∀ v, (b!"format", v) ∈ s → v ∈ [b!"json", b!"yaml", b!"yml", b!"json:pretty", b!"go"]

/-- `v` is what the settings give `n`, `d` if they give nothing. -/
def Gives (s : List (Str × Str)) (n d v : Str) : Prop := (n, v) ∈ s ∨ (∀ w, (n, w) ∉ s) ∧ v = d

/-- The flags of the settings. -/
structure FlagsOf (s : List (Str × Str)) (ff : Flags) (nolog : Bool) : Prop where
  config : Gives s b!"config" [] ff.config
  dir : Gives s b!"dir" [] ff.dir
  format : Gives s b!"format" [] ff.format
  output : Gives s b!"output" [] ff.output
  level : ∃ v, Gives s b!"loglevel" b!"nolog" v ∧ (nolog = true ↔ v = b!"nolog")

end Oapi.Spec
