import Verif.Base.Str
import Verif.Base.Res

/- Model of /repo/internal/pkgutil/util.go: the walk over the import graph. -/
namespace Oapi.Pkgs

/-- The fields of `packages.Package` the walk reads.  Packages are pointers: a package is its index in the heap, an index outside
the heap is a nil pointer.  `imports` lists the map `Imports` in the order in which it is iterated. -/
structure Package where
  path : Str
  imports : List (Str × Nat) := []
  errors : List Str := []
  deriving DecidableEq, Repr

abbrev Heap := List Package

/-- `sort.Strings` (util.go:50). -/
def insertStr (k : Str) : List Str → List Str
  | [] => [k]
  | h :: t => if Str.lt h k then h :: insertStr k t else k :: h :: t

def sortStrs : List Str → List Str
  | [] => []
  | h :: t => insertStr h (sortStrs t)

/-- `pkg.Imports[path]` (util.go:52): a missing key is nil. -/
def importOf (l : List (Str × Nat)) (k : Str) : Option Nat := (l.find? fun e => e.1 = k).map Prod.snd

/-- The arguments of the recursive calls of `visit`, util.go:46-53. -/
def importIds (nil : Nat) (pkg : Package) : List Nat :=
  (sortStrs (pkg.imports.map Prod.fst)).map fun k => (importOf pkg.imports k).getD nil

/-- `errors.Wrapf(err, "failed to parse pkg").Error()`, util.go:43. -/
def wrap (e : Str) : Str := b!"failed to parse pkg: " ++ e

/-- A `Scanner`, util.go:25-27: a state machine over the packages it is called with, each call with an optional error. -/
structure Scanner (σ : Type) where
  scan : σ → Nat → σ × Option Str

/-- What the walk changes: `seen` and `errs` (util.go:31-33), the scanner, and the history of the calls of `fn.Scan` with their
results. -/
structure St (σ : Type) where
  seen : List Nat := []
  errs : List Str := []
  scn : σ
  calls : List (Nat × Option Str) := []

/-- Visiting a list of packages, one after the other. -/
def visitAll {σ : Type} (v : Nat → St σ → Res (St σ)) : List Nat → St σ → Res (St σ)
  | [], s => .ok s
  | p :: t, s => match v p s with
    | .ok s' => visitAll v t s'
    | .err e => .err e
    | .panic => .panic

/-- `visit`, util.go:35-59.  `std` tells if a path is in `stdpkgs` (util.go:73-76).  The first argument bounds the depth of the
recursion; `Err.fuel` is returned when it is exceeded (it never is, see `Pkgs.scan_total`). -/
def visit {σ : Type} (std : Str → Bool) (heap : Heap) (fn : Scanner σ) : Nat → Nat → St σ → Res (St σ)
  | 0, _, _ => .err .fuel
  | n + 1, p, s =>
    if p ∈ s.seen then .ok s
    else match heap[p]? with
      | none => .panic
      | some pkg =>
        if std pkg.path then .ok s
        else
          match visitAll (visit std heap fn n) (importIds heap.length pkg)
              { s with seen := p :: s.seen, errs := s.errs ++ pkg.errors.map wrap } with
          | .err e => .err e
          | .panic => .panic
          | .ok s =>
            .ok { s with
                  scn := (fn.scan s.scn p).1
                  errs := s.errs ++ ((fn.scan s.scn p).2).toList
                  calls := s.calls ++ [(p, (fn.scan s.scn p).2)] }

/-- `strings.Join(xs, sep)`. -/
def joinWith (sep : Str) : List Str → Str
  | [] => []
  | [x] => x
  | x :: y :: r => x ++ sep ++ joinWith sep (y :: r)

/-- `newSingleError`, util.go:78-84. -/
def newSingleError (errs : List Str) : Str :=
  b!"failed to scan: \n" ++ joinWith b!"\n" (errs.map fun m => b!"\t- " ++ m)

/-- `Scan`, util.go:30-70: the state at the end and the text of the error, if any. -/
def scan {σ : Type} (std : Str → Bool) (heap : Heap) (fn : Scanner σ) (σ₀ : σ) (pkgs : List Nat) : Res (St σ × Option Str) :=
  match visitAll (visit std heap fn (heap.length + 1)) pkgs { scn := σ₀ } with
  | .err e => .err e
  | .panic => .panic
  | .ok s => .ok (s, if s.errs.length > 0 then some (newSingleError s.errs) else none)

end Oapi.Pkgs
