import Verif.Model.Gabs

/- Model of /repo/internal/container/container.go and utils.go. -/
namespace Oapi.Container

/-- `SliceToDotPath`, utils.go:38-46. -/
def sliceToDotPath (path : List Str) : Str :=
  Str.join 46 (path.map fun v => Str.replaceAll (Str.replaceAll v b!"." b!"~1") b!"~" b!"~0")

/-- `Container.Path`, container.go:151-153. -/
def path (j : Json) (p : Str) : Option Json := Gabs.search (Gabs.dotPathToSlice p) j

/-- `Container.ExistsP`, container.go:125-127. -/
def existsP (j : Json) (p : Str) : Bool := Gabs.existsAt (Gabs.dotPathToSlice p) j

/-- `Container.SetP`, container.go:160-167 (the value is cloned first, which is the identity here). -/
def setP (j : Json) (p : Str) (v : Json) : Res Json := Gabs.set v (Gabs.dotPathToSlice p) j

/-- Data of a possibly nil container: `Container.Data`, container.go:131-133. -/
def data (j : Option Json) : Json := j.getD .null

/-- `Container.IsNil`, container.go:136-138: nil, or a nil map/slice; `reflect.Value.IsNil` panics on
strings, numbers and booleans.  Maps and slices read from files are never nil. -/
def isNil (j : Json) : Res Bool :=
  match j with
  | .null => .ok true
  | .obj _ => .ok false
  | .arr _ => .ok false
  | _ => .panic

/-- `Container.ChildrenMap`, container.go:106-122: nil gives no children, other non-objects an error. -/
def childrenMap (j : Json) : Res Obj :=
  match j with
  | .obj m => .ok m
  | .null => .ok []
  | _ => .err .notObj

/-- Last element of `strings.Split(k, ".")` equals `key`, utils.go:20-26. -/
def keyMatches (key k : Str) : Bool := (Str.split 46 k).getLast? = some key

/-- A Go map filled with the bindings `l` and then iterated (`ff`, utils.go:14-19): every key comes once, with one of the values that were
stored under it, and the order is arbitrary.  Which of several values survives depends on the order in which gabs iterates the
document's own maps, so any of them may. -/
def MapOrder (l l' : List (Str × Json)) : Prop :=
  (l'.map Prod.fst).Nodup ∧ (∀ e ∈ l', e ∈ l) ∧ ∀ e ∈ l, e.1 ∈ l'.map Prod.fst

/-- `ExtractKey`, utils.go:13-35.  The code iterates a Go map; the model lists everything that is stored in it, in document order, and
callers take a `MapOrder` of it (which overwrites bindings of the same path, if there are any). -/
def extractKey (j : Json) (key : Str) : Res (List (Str × Json)) :=
  match Gabs.flatten j with
  | .ok ff => .ok (ff.filter fun kv => keyMatches key kv.1)
  | .err e => .err e
  | .panic => .panic

end Oapi.Container
