import Verif.Model.Container

/- Model of /repo/internal/container/merge.go and of Containers.Sort/Merge (container.go:246-268). -/
namespace Oapi.Container

/-- `Merger`, merge.go:6. -/
abbrev Merger := Json → Json → Res Json

/-- `MergeStrict`, merge.go:9-11. -/
def mergeStrict : Merger := fun _ _ => .err .collision
/-- `MergeDefault`, merge.go:14-16. -/
def mergeDefault : Merger := fun dest _ => .ok dest
/-- `MergeOverride`, merge.go:19-21. -/
def mergeOverride : Merger := fun _ source => .ok source

/-- A collision, merge.go:55-63 and 64-73: the merger decides and its value is stored. -/
def collide (f : Merger) (c : Json) (newPath : List Str) (existing value : Json) : Res Json :=
  match f existing (Json.canon value) with
  | .ok xx => Gabs.set xx newPath c
  | .err e => .err e
  | .panic => .panic

mutual
/-- The loop of `recursiveFnc`, merge.go:35-76.  `kvs` is a source map in the order Go happens to iterate it,
so the source document of the model lists every object's keys in an arbitrary order.
The destination `c` is returned instead of being updated in place. -/
def mergeMap (f : Merger) (c : Json) (path : List Str) (kvs : List (Str × Json)) : Res Json :=
  match kvs with
  | [] => .ok c
  | (key, value) :: t =>
    match mergeOne f c (path ++ [key]) value with
    | .ok c' => mergeMap f c' path t
    | .err e => .err e
    | .panic => .panic
termination_by structural kvs
/-- The body of the loop, merge.go:37-74.  A value stored into the destination is a Go map, without order:
it is stored in canonical form. -/
def mergeOne (f : Merger) (c : Json) (newPath : List Str) (value : Json) : Res Json :=
  match Gabs.search newPath c with
  | none => Gabs.set (Json.canon value) newPath c
  | some existing =>
    match value with
    | .obj t =>
      match existing with
      | .obj _ => mergeMap f c newPath t
      | e => collide f c newPath e (.obj t)
    | v => collide f c newPath existing v
termination_by structural value
end

/-- `Container.Merge`, merge.go:29-81: only a source that is an object has any effect. -/
def merge (c source : Json) (f : Merger) : Res Json :=
  match source with
  | .obj kvs => mergeMap f c [] kvs
  | _ => .ok c

/-- A container with the file it was read from (`Container.path`, container.go:20). -/
structure File where
  path : Str
  doc : Json
  deriving DecidableEq

/-- `Containers.Sort`, container.go:251-256: `sort.Sort` returns some permutation that is ordered by path. -/
def SortResult (cc a : List File) : Prop :=
  a.Perm cc ∧ a.Pairwise fun x y => Str.lt y.path x.path = false

/-- The loop of `Containers.Merge`, container.go:261-266: stops at the first error. -/
def mergeFrom (f : Merger) (c : Json) : List Json → Res Json
  | [] => .ok c
  | x :: t => match merge c x f with
    | .ok c' => mergeFrom f c' t
    | .err e => .err e
    | .panic => .panic

/-- `Containers.Merge`, container.go:259-268 (starting from `New()`, the empty object). -/
def mergeAll (f : Merger) (cc : List Json) : Res Json := mergeFrom f (.obj []) cc

end Oapi.Container
