import Verif.Base.Json
import Verif.Base.Res

/- Model of /repo/internal/container/sort.go, of `Format` in /repo/oapi.go and of /repo/temp.go. -/
namespace Oapi.Format

/-- `order`, oapi.go:24-29. -/
def order : List Str := [b!"openapi", b!"info", b!"components", b!"paths"]

/-- `indexOf`, sort.go:57-64; `i` counts the elements before. -/
def indexFrom (e : Str) : Int → List Str → Int
  | _, [] => -1
  | i, v :: t => if e = v then i else indexFrom e (i + 1) t

def indexOf (e : Str) (data : List Str) : Int := indexFrom e 0 data

/-- `MapItem`, sort.go:95-99. -/
structure Item where
  key : Str
  val : Json
  index : Int
  deriving DecidableEq

/-- `sort.Sort(ms)` with `Less` comparing `Index` (sort.go:114-116): some permutation without inversions; the algorithm is
not stable and not fixed. -/
def SortedBy (a b : List Item) : Prop := b.Perm a ∧ b.Pairwise fun x y => ¬ y.index < x.index

/-- The loop of `SortMapMarhsaler`, sort.go:77-84, over the map in iteration order. -/
def items (ord : List Str) (m : List (Str × Json)) : List Item := m.map fun e => ⟨e.1, e.2, indexOf e.1 ord⟩

/-- The list of members a formatted document consists of, in order: `SortMapMarhsaler` (sort.go:68-88) and then the sorting in
`MapSlice.MarshalJSON`/`MarshalYAML` (sort.go:118-155), for a top-level map `m`: the possible outcomes. -/
def Members (ord : List Str) (m : Obj) (out : List Item) : Prop :=
  ∃ it s, it.Perm m ∧ SortedBy (items ord it) s ∧ SortedBy s out

/-- The text `MapSlice.MarshalJSON` builds, sort.go:127-143.  `quote` is the formatting verb %q and `enc` is `json.Marshal`. -/
def memberTexts (quote : Str → Str) (enc : Json → Str) : List Item → Str
  | [] => []
  | [x] => quote x.key ++ 58 :: enc x.val
  | x :: y :: t => quote x.key ++ 58 :: enc x.val ++ 44 :: memberTexts quote enc (y :: t)

def objectText (quote : Str → Str) (enc : Json → Str) (l : List Item) : Str := 123 :: memberTexts quote enc l ++ [125]

/-! ### Generated Go file -/

/-- The template before the constant's value, temp.go:9-15, with package name `pkg`. -/
def header (pkg : Str) : Str :=
  b!"// Code generated by oapi-go, DO NOT EDIT.\npackage " ++ pkg ++
  b!"\n\n// OpenAPIJsonSpec is json generated specification produced \n// by oapi-go tool.\nconst OpenAPIJsonSpec = "

/-- `produceGoFile`, temp.go:22-29: text/template inserts the strings as they are. -/
def goFile (pkg json : Str) : Str := header pkg ++ 96 :: json ++ 96 :: b!"\n"

/-- `Format`, oapi.go:207-231, given the encodings of the sorted document. -/
def format (yaml jsn pretty : Res Str) (f : Str) : Res Str :=
  if f = b!"yaml" ∨ f = b!"yml" then yaml
  else if f = b!"json" then jsn
  else if f = b!"json:pretty" then pretty
  else if f = b!"go" then match jsn with
    | .ok s => .ok (goFile b!"main" s)
    | .err e => .err e
    | .panic => .panic
  else .err .unsupported

end Oapi.Format
