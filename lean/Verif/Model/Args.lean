import Verif.Model.System

/- Model of what happens before `scan` in a process of the command: the initialisation of package pkgutil (/repo/internal/pkgutil/util.go:13-22) and the
parsing of the command line, `getConfig` (/repo/cmd/oapi/config.go:22-47) with its check in main.go:24-27.  The parser is that of
github.com/alecthomas/kingpin v2.2.6 (parser.go, flags.go, app.go, which are not part of /repo), for an application without commands, arguments and
short flags.  Simplifications: negations of kingpin's own flags (`--no-help`, ...) count as errors, the environment is not looked at (no flag asks for
it), and the tokens of an argument file `@name` are a parameter. -/
namespace Oapi.Args
open Cli

/-- kingpin `Token`; values of short flags are not kept, since there are none. -/
inductive Tok where
  | long (name : Str)
  | short
  | arg (v : Str)
  | error
  deriving DecidableEq, Repr

/-- kingpin `ParseContext.Next`, until the end.  The boolean says that a `--` has been read; `file` gives the tokens of an argument file, and
whether there was a `--` in it. -/
def tokens (file : Str → Option (List Tok × Bool)) : Bool → List Str → List Tok
  | _, [] => []
  | true, a :: t => .arg a :: tokens file true t
  | false, a :: t =>
    if a = b!"--" then tokens file true t
    else if Str.hasPrefix a b!"--" then
      match Str.cut 61 (a.drop 2) with
      | (n, some v) => .long n :: .arg v :: tokens file false t
      | (n, none) => .long n :: tokens file false t
    else if Str.hasPrefix a b!"-" then .short :: tokens file false t
    else if Str.hasPrefix a b!"@" then
      match file (a.drop 1) with
      | none => [.error]
      | some (ts, o) => ts ++ tokens file o t
    else .arg a :: tokens file false t

/-- The flags with a value, config.go:28-43. -/
def valued : List Str := [b!"loglevel", b!"config", b!"dir", b!"format", b!"output"]

/-- kingpin's own flags, app.go `New`, but for the help: their actions end the process (for `completion-bash`, at the end of the parsing). -/
def ending : List Str := [b!"help-long", b!"help-man", b!"completion-bash", b!"completion-script-bash", b!"completion-script-zsh"]

/-- kingpin `parse` and `flagGroup.parse`: the flags up to the end or the first error, and whether there was no error. -/
def elements : List Tok → List (Str × Str) × Bool
  | [] => ([], true)
  | .long n :: t =>
    if n ∈ valued then
      match t with
      | .arg v :: t => (((n, v) :: (elements t).1), (elements t).2)
      | _ => ([], false)
    else if n ∈ ending ∨ n = b!"help" then (((n, []) :: (elements t).1), (elements t).2)
    else ([], false)
  | _ => ([], false)

/-- The values of an `EnumVar`, config.go:29-31 and 39-40. -/
def levels : List Str := [b!"nolog", b!"panic", b!"fatal", b!"error", b!"warn", b!"info", b!"debug", b!"trace"]
def formats : List Str := [b!"json", b!"yaml", b!"yml", b!"json:pretty", b!"go"]

/-- kingpin `setValues`: no flag twice, and enumerated values only. -/
def valuesOk : List (Str × Str) → Bool
  | [] => true
  | (n, v) :: t => !((t.map Prod.fst).contains n) && (n != b!"loglevel" || levels.contains v) && (n != b!"format" || formats.contains v) && valuesOk t

/-- How the parsing ends: with the flags (the boolean is `--loglevel nolog`, which is the default), with the process (after a help text), or with an error. -/
inductive Parsed where
  | flags (ff : Flags) (nolog : Bool)
  | exits
  | fails
  deriving DecidableEq, Repr

/-- The value of a flag, or its default. -/
def value (els : List (Str × Str)) (n d : Str) : Str := (els.lookup n).getD d

/-- kingpin `Application.Parse`, config.go:46. -/
def parse (file : Str → Option (List Tok × Bool)) (args : List Str) : Parsed :=
  let r := elements (tokens file false args)
  if r.1.any fun e => ending.contains e.1 then .exits
  else if !r.2 then .fails
  else if r.1.any fun e => e.1 == b!"help" then .exits
  else if !valuesOk r.1 then .fails
  else .flags { config := value r.1 b!"config" [], dir := value r.1 b!"dir" [], format := value r.1 b!"format" [], output := value r.1 b!"output" [] }
    (value r.1 b!"loglevel" b!"nolog" == b!"nolog")

variable {F L : Type}

/-- What a process leaves: a run of `main`, or an end before it: by `os.Exit(0)` after a help text, or by a panic (util.go:15-17, main.go:25-27). -/
inductive End where
  | main (r : Main.Run)
  | help
  | panics

/-- A process: `std` are the packages of the standard library as `packages.Load(nil, "std")` gives them, if it does. -/
def process (w : System.World F L) (std : Option (List Str)) (file : Str → Option (List Tok × Bool)) (args : List Str) (disk : System.Disk)
    (ch : System.Chance) : End :=
  match std with
  | none => .panics
  | some l => match parse file args with
    | .fails => .panics
    | .exits => .help
    | .flags ff nolog => .main (System.run { w with packages := fun d dir => { w.packages d dir with stdpkg := fun p => l.contains p } } ff nolog disk ch)

/-- The files after the process. -/
def End.files (disk : System.Disk) : End → System.Disk
  | .main r => r.files
  | .help => disk
  | .panics => disk

end Oapi.Args
