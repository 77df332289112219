import Verif.Model.Merge
import Verif.Model.Route

/- Model of /repo/cmd/oapi (config.go, main.go), /repo/internal/oapi/config and /repo/internal/logging, with the part of the
standard library's path/filepath (Unix) they use. -/
namespace Oapi.Cli

/-! ### path/filepath -/

/-- `filepath.IsAbs`. -/
def isAbs (p : Str) : Bool := Str.hasPrefix p b!"/"

/-- One component in `filepath.Clean`; `st` are the components kept so far. -/
def cleanStep (rooted : Bool) (st : List Str) (c : Str) : List Str :=
  if c = [] ∨ c = b!"." then st
  else if c = b!".." then
    if st = [] then (if rooted then [] else [b!".."])
    else if st.getLast? = some b!".." then st ++ [b!".."]
    else st.dropLast
  else st ++ [c]

/-- `filepath.Clean`, by components instead of byte by byte. -/
def clean (p : Str) : Str :=
  let l := (Str.split 47 p).foldl (cleanStep (isAbs p)) []
  if isAbs p then 47 :: Str.join 47 l
  else if l = [] then b!"." else Str.join 47 l

/-- `filepath.Join` of two elements. -/
def join2 (a b : Str) : Str :=
  if a ≠ [] then clean (a ++ 47 :: b)
  else if b ≠ [] then clean b else []

/-- The path up to and including its last slash. -/
def upToSlash (p : Str) : Str := (p.reverse.dropWhile (· ≠ 47)).reverse

/-- `filepath.Dir`. -/
def dirOf (p : Str) : Str := clean (upToSlash p)

/-! ### Configuration files -/

/-- `extends`, config.go:122-138.  `read` is `container.ReadFile` (container.go:72-91): a file that can be read, has a known
extension and decodes to a map gives a document. -/
def extends_ (read : Str → Res Json) (c : Json) (fp : Str) : Res Json :=
  if !Container.existsP c b!"extends" then .ok c
  else match Container.data (Container.path c b!"extends") with
    | .str p =>
      match read (if isAbs p then p else join2 fp p) with
      | .ok ny => Container.merge c ny Container.mergeDefault
      | .err e => .err e
      | .panic => .panic
    | _ => .ok c

/-- The document `ReadFile` decodes into the configuration, config.go:105-114. -/
def readDoc (read : Str → Res Json) (file : Str) : Res Json :=
  match read file with
  | .ok cx => extends_ read cx (dirOf file)
  | .err e => .err e
  | .panic => .panic

/-- The fields of `config.Config` (config.go:11-71) that `full` looks at. -/
structure Cfg where
  filePath : Str := []
  dir : Str := []
  format : Str := []
  output : Str := []
  deriving DecidableEq, Repr

/-- The command line flags, cmd/oapi/config.go:13-21. -/
structure Flags where
  config : Str := []
  dir : Str := []
  format : Str := []
  output : Str := []
  deriving DecidableEq, Repr

/-- `toAbsPath`, cmd/oapi/config.go:121-126. -/
def toAbsPath (path fallback : Str) : Str := if isAbs path then path else join2 fallback path

/-- cmd/oapi/config.go:77-86. -/
def resolveDir (wd : Str) (ff : Flags) (cfg : Cfg) : Str :=
  if ff.dir ≠ [] then toAbsPath ff.dir wd
  else if cfg.dir ≠ [] then toAbsPath cfg.dir (dirOf cfg.filePath)
  else wd

/-- cmd/oapi/config.go:88-94. -/
def resolveFormat (ff : Flags) (cfg : Cfg) : Str :=
  let f := if cfg.format = [] then b!"json:pretty" else cfg.format
  if ff.format ≠ [] then ff.format else f

/-- One of the two switches for the output, cmd/oapi/config.go:98-104 and 105-111. -/
def pickOutput (o base prior : Str) : Str :=
  if o ≠ [] then
    if o = b!"stderr" ∨ o = b!"stdout" then prior else toAbsPath o base
  else prior

/-- cmd/oapi/config.go:96-112; `dir` is the resolved directory. -/
def resolveOutput (wd : Str) (ff : Flags) (cfg : Cfg) (dir : Str) : Str :=
  pickOutput ff.output wd (pickOutput cfg.output dir b!"stdout")

/-- `Config.full`, cmd/oapi/config.go:64-119: the configuration, and whether there was no error.  `load` is
`config.ReadFile`; when it fails, what it had decoded so far is returned as it is. -/
def full (wd : Str) (load : Str → Cfg × Bool) (ff : Flags) : Cfg × Bool :=
  let r : Cfg × Bool := if ff.config ≠ [] then load (toAbsPath ff.config wd) else ({}, true)
  if r.2 then
    ({ r.1 with dir := resolveDir wd ff r.1, format := resolveFormat ff r.1,
                output := resolveOutput wd ff r.1 (resolveDir wd ff r.1) }, true)
  else r

/-! ### Output -/

/-- Where `main` writes to. -/
inductive Dest where
  | stdout
  | stderr
  | file (path : Str)
  deriving DecidableEq, Repr

/-- The switch of `main`, cmd/oapi/main.go:64-78. -/
def dest (output : Str) : Dest :=
  if output = b!"stdout" ∨ output = [] then .stdout
  else if output = b!"stderr" then .stderr
  else .file output

/-- What the file system does when `main` writes the file: is the old file removed, is the file opened, how many bytes are
written before an error. -/
structure Faults where
  removes : Bool
  opens : Bool
  written : Nat

/-- cmd/oapi/main.go:69-83: `os.Remove`, then `os.OpenFile` with O_CREATE but without O_TRUNC, then `io.Copy`; a failure of
one does not stop the next (`logging.Fatal`, logging.go:92-94, only prints).  `old` and the result are the content of the
file, none if there is no file. -/
def writeFile (fl : Faults) (data : Str) (old : Option Str) : Option Str :=
  let o := if fl.removes then none else old
  if fl.opens then some ((data.take fl.written) ++ (o.getD []).drop (data.take fl.written).length)
  else o

/-! ### Logging -/

/-- `Level`, logging.go:9-32. -/
inductive Level where
  | panic | fatal | error | warn | info | debug | trace
  deriving DecidableEq, Repr

def Level.num : Level → Nat
  | .panic => 0 | .fatal => 1 | .error => 2 | .warn => 3 | .info => 4 | .debug => 5 | .trace => 6

/-- `strings.ToLower(s) == name` for an ASCII name: rune by rune, as far as lower casing can give an ASCII letter. -/
def lowerIs (s name : Str) : Bool := decide ((Route.runes s).map Route.lowerRune = Route.ascii name)

/-- `ParseLevel`, logging.go:35-55. -/
def parseLevel (s : Str) : Res Level :=
  if lowerIs s b!"panic" then .ok .panic
  else if lowerIs s b!"fatal" then .ok .fatal
  else if lowerIs s b!"error" then .ok .error
  else if lowerIs s b!"warn" || lowerIs s b!"warning" then .ok .warn
  else if lowerIs s b!"info" then .ok .info
  else if lowerIs s b!"debug" then .ok .debug
  else if lowerIs s b!"trace" then .ok .trace
  else .err .syntaxErr

end Oapi.Cli
