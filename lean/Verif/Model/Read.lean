import Verif.Model.Cli
import Verif.Model.Pkgs

/- Model of the readers of /repo/internal/container/container.go (46-91, 206-242), of `mmap` in utils.go (85-123), of
/repo/internal/pkgutil/info.go and of the first lines of /repo/internal/oapi/scan/specs/scan.go, with the parts of path/filepath (Unix)
they use. -/
namespace Oapi.Read
open Cli (clean join2 upToSlash)
open Container (File)

/-! ### YAML documents -/

/-- A key of a `map[interface{}]interface{}` as yaml.v2 builds it: a string, nil, a boolean, an integer, or anything else (floats,
timestamps), numbered. -/
inductive Key where
  | str (s : Str)
  | null
  | bool (b : Bool)
  | int (n : Int)
  | other (n : Nat)
  deriving DecidableEq, Repr

/-- What yaml.v2 decodes into an `interface{}`.  A map lists its entries in the order in which Go iterates it. -/
inductive Yaml where
  | null
  | bool (b : Bool)
  | num (n : Int)
  | str (s : Str)
  | seq (l : List Yaml)
  | map (m : List (Key × Yaml))

/-- Decimal text of an integer. -/
def intText : Int → Str
  | .ofNat n => Str.itoa n
  | .negSucc n => 45 :: Str.itoa (n + 1)

/-- `fmt.Sprint(k)` (utils.go:106), and the key itself for a string (utils.go:103-104); `other` prints the remaining kinds. -/
def sprint (other : Nat → Str) : Key → Str
  | .str s => s
  | .null => b!"<nil>"
  | .bool true => b!"true"
  | .bool false => b!"false"
  | .int n => intText n
  | .other n => other n

mutual
/-- `mmap`, utils.go:97-123. -/
def mmap (other : Nat → Str) (y : Yaml) : Json :=
  match y with
  | .null => .null
  | .bool b => .bool b
  | .num n => .num n
  | .str s => .str s
  | .seq l => .arr (mmapList other l)
  | .map m => .obj (mmapMap other m [])
termination_by structural y
/-- utils.go:111-114. -/
def mmapList (other : Nat → Str) (l : List Yaml) : List Json :=
  match l with
  | [] => []
  | y :: t => mmap other y :: mmapList other t
termination_by structural l
/-- utils.go:99-109: a later entry with the same printed key overwrites an earlier one. -/
def mmapMap (other : Nat → Str) (m : List (Key × Yaml)) (acc : Obj) : Obj :=
  match m with
  | [] => acc
  | (k, v) :: t => mmapMap other t (Obj.insert (sprint other k) (mmap other v) acc)
termination_by structural m
end

/-! ### Files -/

/-- The file system and the decoders.  `lstat`: is there something at the path; `names`: the entries `Readdirnames` lists for a directory
(none if the path is no directory or cannot be opened); `content`: what `ioutil.ReadFile` reads, none if it fails; `globMeta`: what
`filepath.Glob` does for a pattern with special characters in its directory, and `matchOther` what `filepath.Match` does for patterns other
than a star and a name without special characters; `json` and `yaml`: `json.Unmarshal` and `yaml.Unmarshal` into a
`map[string]interface{}`, none on an error (a nil map is taken as an empty one). -/
structure FS where
  lstat : Str → Bool
  names : Str → List Str
  content : Str → Option Str
  globMeta : Str → Res (List Str)
  matchOther : Str → Str → Bool
  json : Str → Option Obj
  yaml : Str → Option (List (Str × Yaml))
  sprintOther : Nat → Str

/-- `filepath.Ext`. -/
def ext (p : Str) : Str :=
  let r := p.reverse.takeWhile (· ≠ 47)
  if (46 : UInt8) ∈ r then (r.takeWhile (· ≠ 46) ++ [46]).reverse else []

/-- `ReadYAML`, container.go:59-68: the keys at the top are strings already. -/
def readYAML (fs : FS) (data : Str) : Res Json :=
  match fs.yaml data with
  | none => .err .decode
  | some m => .ok (.obj (mmapMap fs.sprintOther (m.map fun e => (.str e.1, e.2)) []))

/-- `ReadJSON`, container.go:47-56. -/
def readJSON (fs : FS) (data : Str) : Res Json :=
  match fs.json data with
  | none => .err .decode
  | some m => .ok (.obj m)

/-- `ReadFile`, container.go:72-91. -/
def readFile (fs : FS) (file : Str) : Res File :=
  match fs.content file with
  | none => .err .notFound
  | some data =>
    let e := ext file
    match (if e = b!".yaml" ∨ e = b!".yml" then readYAML fs data else if e = b!".json" then readJSON fs data else .err .unsupported) with
    | .ok d => .ok ⟨file, d⟩
    | .err e => .err e
    | .panic => .panic

/-- `hasMeta` of path/filepath. -/
def hasMeta (p : Str) : Bool := p.any fun c => c == 42 || c == 63 || c == 91 || c == 92

/-- `cleanGlobPath` of path/filepath. -/
def cleanGlobPath (d : Str) : Str := if d = [] then b!"." else if d = b!"/" then d else d.dropLast

/-- `filepath.Match` for the last part of a pattern: a star followed by plain text matches the names that end with it. -/
def matchName (fs : FS) (pat name : Str) : Bool :=
  match pat with
  | [] => name.isEmpty
  | c :: lit => if c = 42 ∧ hasMeta lit = false then lit.isSuffixOf name else fs.matchOther pat name

/-- `filepath.Glob`.  The names of a directory are sorted; a directory that cannot be read has none. -/
def glob (fs : FS) (pattern : Str) : Res (List Str) :=
  if hasMeta pattern = false then .ok (if fs.lstat pattern then [pattern] else [])
  else
    let d := cleanGlobPath (upToSlash pattern)
    let file := pattern.drop (upToSlash pattern).length
    if hasMeta d then fs.globMeta pattern
    else .ok (((Pkgs.sortStrs (fs.names d)).filter (matchName fs file)).map (join2 d))

/-- The first loop of `ReadDir`, container.go:221-227. -/
def globAll (fs : FS) (dir : Str) : List Str → Res (List Str)
  | [] => .ok []
  | s :: t => match glob fs (join2 dir s) with
    | .err e => .err e
    | .panic => .panic
    | .ok xs => match globAll fs dir t with
      | .err e => .err e
      | .panic => .panic
      | .ok ys => .ok (xs ++ ys)

/-- The second loop of `ReadDir`, container.go:233-239: it stops at the first error. -/
def readAll (fs : FS) : List Str → Res (List File)
  | [] => .ok []
  | m :: t => match readFile fs m with
    | .err e => .err e
    | .panic => .panic
    | .ok c => match readAll fs t with
      | .err e => .err e
      | .panic => .panic
      | .ok cc => .ok (c :: cc)

/-- `defaultSearchPatterns`, container.go:209. -/
def defaultPatterns : List Str := [b!"*.yaml", b!"*.yml", b!"*.json"]

/-- `ReadDir`, container.go:215-242. -/
def readDir (fs : FS) (dir : Str) (patterns : List Str) : Res (List File) :=
  match globAll fs dir (if patterns = [] then defaultPatterns else patterns) with
  | .err e => .err e
  | .panic => .panic
  | .ok ff => readAll fs ff

/-! ### Directories of packages -/

/-- The fields of `packages.Module` that are read. -/
structure Module where
  path : Str
  dir : Str
  deriving DecidableEq, Repr

/-- `strings.Replace(s, old, "", 1)`. -/
def removeFirst (old : Str) : Str → Str
  | [] => []
  | c :: t => if old.isPrefixOf (c :: t) then (c :: t).drop old.length else c :: removeFirst old t

/-- `GetPkgPath` and `getPkgPath`, info.go:21-42.  `gopath` is the directory of `getGoPath` (13-19), `missing` says that `os.Stat` fails
because there is nothing. -/
def pkgDir (gopath : Str) (missing : Str → Bool) (pkg : Str) (mod : Option Module) : Res Str :=
  match mod with
  | none => if missing (join2 gopath pkg) then .err .notFound else .ok (join2 gopath pkg)
  | some m => if m.dir = [] then .err .notFound else .ok (join2 m.dir (removeFirst m.path pkg))

/-- The patterns of the specs scanner, specs/scan.go:20. -/
def specPatterns : List Str := [b!"oapi.yaml", b!"oapi.yml", b!"oapi.json"]

/-- specs/scan.go:26-34: the files read for a package. -/
def pkgFiles (fs : FS) (gopath : Str) (missing : Str → Bool) (pkg : Str) (mod : Option Module) : Res (List File) :=
  match pkgDir gopath missing pkg mod with
  | .err e => .err e
  | .panic => .panic
  | .ok dir => readDir fs dir specPatterns

end Oapi.Read
