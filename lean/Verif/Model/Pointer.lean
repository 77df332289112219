import Verif.Model.Fragment
import Verif.Model.Url

/- Model of /repo/internal/pointer/pointer.go. -/
namespace Oapi

/-- `type Pointer struct`, pointer.go:22-25. -/
structure Pointer where
  url : Url.URL := {}
  fragment : Fragment := []
  deriving DecidableEq, Repr

namespace Pointer

/-- `Parse`, pointer.go:44-60.  With an error in the fragment Go returns the error together with the URL; callers that
look at the pointer then are modelled with `parseLoose`. -/
def parse (str : Str) : Res Pointer :=
  if str = [] ∨ str = b!"#" then .ok {}
  else match Url.Parse str with
    | none => .err .syntaxErr
    | some u => match Fragment.new u.fragment with
      | .ok f => .ok ⟨u, f⟩
      | .err e => .err e
      | .panic => .panic

/-- `NewGoPointer`, pointer.go:36-38. -/
def newGo (pkg path : Str) : Res Pointer := parse (b!"go://" ++ pkg ++ b!"#/" ++ path)

/-- The pointer value `NewGoPointer` and `Parse` leave in their result when their error is ignored (pointer.go:52-59):
nothing if the URL is malformed, the URL without fragment if only the fragment is. -/
def parseLoose (str : Str) : Pointer :=
  if str = [] ∨ str = b!"#" then {}
  else match Url.Parse str with
    | none => {}
    | some u => match Fragment.new u.fragment with
      | .ok f => ⟨u, f⟩
      | _ => ⟨u, []⟩

def newGoLoose (pkg path : Str) : Pointer := parseLoose (b!"go://" ++ pkg ++ b!"#/" ++ path)

/-- `Pointer.String`, pointer.go:91-94. -/
def toStr (p : Pointer) : Str := Url.toStr { p.url with fragment := [] } ++ 35 :: p.fragment.toStr

/-- `Pointer.PkgPath`, pointer.go:96-98. -/
def pkgPath (p : Pointer) : Str := Url.hostname p.url ++ p.url.path

/-- `Pointer.Clone`, pointer.go:100-104; a URL that does not parse again is a nil dereference. -/
def clone (p : Pointer) : Res Pointer :=
  match Url.Parse (Url.toStr p.url) with
  | none => .panic
  | some u => .ok ⟨u, p.fragment⟩

/-- `Pointer.IsExternal`, pointer.go:106-108. -/
def isExternal (p : Pointer) : Bool := decide (p.url.scheme ≠ [])

end Pointer

/-- `type Pointers map[string]Pointer`, pointer.go:110: what each key is bound to. -/
abbrev Pointers := List (Str × Pointer)

namespace Pointers

/-- Map lookup. -/
def get (k : Str) : Pointers → Option Pointer
  | [] => none
  | (k', v) :: t => if k = k' then some v else get k t

/-- Map assignment. -/
def put (k : Str) (v : Pointer) : Pointers → Pointers
  | [] => [(k, v)]
  | (k', v') :: t => if k = k' then (k, v) :: t else (k', v') :: put k v t

/-- `for k, v := range src { dst[k] = v }`, `src` listed in iteration order. -/
def copyInto (dst : Pointers) : Pointers → Pointers
  | [] => dst
  | (k, v) :: t => copyInto (put k v dst) t

/-- `Pointers.Merge`, pointer.go:121-130; the arguments list the maps in the order in which they are iterated. -/
def merge (pp px : Pointers) : Pointers := copyInto (copyInto [] pp) px

/-- `NewPointers`, pointer.go:112-118. -/
def new (pp : List Pointer) : Pointers := copyInto [] (pp.map fun p => (p.toStr, p))

end Pointers
end Oapi
