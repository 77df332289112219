import Verif.Model.GoHeap
import Verif.Model.OAPI

/- /repo/internal/container/container.go:259-268 and /repo/internal/oapi/oapi.go:103-152 in memory: the sections of the documents are containers that look
into them. -/
namespace Oapi.GoHeap

/-- `c.Merge(src, f)`, merge.go:29-81; `ord` says in which order the maps of the source are visited. -/
def mergeIn (room : Nat) (f : Strategy) (c : Nat) (src : Option Nat) (ord : Json → Json) (h : Heap) : Heap × Res Unit :=
  merge room f c src (ord ((doc h.mem (data h src)).getD .null)) h

/-- The loop of `Containers.Merge`, container.go:261-266; `ord n` belongs to the `n`-th container. -/
def mergeFrom (room : Nat) (f : Strategy) (c : Nat) (ord : Nat → Json → Json) : Nat → List Nat → Heap → Heap × Res Unit
  | _, [], h => (h, .ok ())
  | n, x :: t, h => match mergeIn room f c (some x) (ord n) h with
    | (h', .ok _) => mergeFrom room f c ord (n + 1) t h'
    | r => r

/-- `Containers.Merge`, container.go:259-268: the new container, or the error. -/
def mergeAll (room : Nat) (f : Strategy) (ord : Nat → Json → Json) (cc : List Nat) (h : Heap) : Heap × Res Nat :=
  let c := new h
  match mergeFrom room f c.2 ord 0 cc c.1 with
  | (h', .ok _) => (h', .ok c.2)
  | (h', .err e) => (h', .err e)
  | (h', .panic) => (h', .panic)

/-- The table of sections and strategies, oapi.go:114-122. -/
def sections : List (Str × Strategy) :=
  [(b!"info", .override), (b!"components", .strict), (b!"paths", .default), (b!"externalDocs", .default), (b!"security", .default), (b!"servers", .default),
   (b!"tags", .default)]

/-- `Container.IsNil`, container.go:136-138: `reflect.Value.IsNil` panics for what cannot be nil. -/
def isNil : Val → Res Bool
  | .null => .ok true
  | .map _ => .ok false
  | .slice _ _ => .ok false
  | _ => .panic

/-- `z.IsNil() && y.IsNil()`, oapi.go:126. -/
def bothNil (z y : Val) : Res Bool :=
  match isNil z with
  | .ok true => isNil y
  | r => r

/-- `container.Make(map[string]interface{}{key: s.Data()})`, oapi.go:141-143: a copy; the error is dropped. -/
def makeOne (key : Str) (s : Nat) (h : Heap) : Heap × Option Nat :=
  match doc h.mem (data h (some s)) with
  | some j => let r := make (.obj [(key, j)]) h; (r.1, some r.2)
  | none => (h, none)

/-- oapi.go:130-148 for a section that one of the documents has, with the two sections as containers. -/
def mergeInto (room : Nat) (ord : Str → Nat → Json → Json) (c : Nat) (key : Str) (f : Strategy) (z y : Option Nat) (h : Heap) : Heap × Res Unit :=
  let s := new h
  match mergeIn room f s.2 z (ord key 0) s.1 with
  | (h1, .ok _) => match mergeIn room f s.2 y (ord key 1) h1 with
    | (h2, .ok _) => let p := makeOne key s.2 h2; mergeIn room .override c p.2 (ord key 2) p.1
    | r => r
  | r => r

/-- The body of the loop, oapi.go:123-149: `z` and `y` look into `c` and `r`. -/
def mergeSection (room : Nat) (ord : Str → Nat → Json → Json) (r c : Nat) (key : Str) (f : Strategy) (h : Heap) : Heap × Res Unit :=
  let z := path key c h
  let y := path key r z.1
  match bothNil (data y.1 z.2) (data y.1 y.2) with
  | .ok true => (y.1, .ok ())
  | .ok false => mergeInto room ord c key f z.2 y.2 y.1
  | .err e => (y.1, .err e)
  | .panic => (y.1, .panic)

/-- The loop, oapi.go:114-150. -/
def mergeSections (room : Nat) (ord : Str → Nat → Json → Json) (r c : Nat) : List (Str × Strategy) → Heap → Heap × Res Unit
  | [], h => (h, .ok ())
  | (key, f) :: t, h => match mergeSection room ord r c key f h with
    | (h', .ok _) => mergeSections room ord r c t h'
    | x => x

/-- `MergeWithRoot`, oapi.go:103-152, for the root document as JSON. -/
def mergeWithRoot (room : Nat) (ord : Str → Nat → Json → Json) (root : Json) (c : Nat) (h : Heap) : Heap × Res Unit :=
  let r := make root h
  mergeSections room ord r.2 c sections r.1

end Oapi.GoHeap
