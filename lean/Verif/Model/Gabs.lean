import Verif.Base.Json

/-
Model of the parts of github.com/Jeffail/gabs/v2 (v2.6.0, see /repo/go.mod:6) that
/repo/internal/container calls.  The source of gabs is not in the sandbox; this is part of the trusted base.
-/
namespace Oapi.Gabs

/-- gabs `DotPathToSlice`: split at '.', then "~1" means '.' and "~0" means '~' in every segment. -/
def dotPathToSlice (path : Str) : List Str :=
  (Str.split 46 path).map (Str.replacer [(b!"~1", b!"."), (b!"~0", b!"~")])

/-- The index a path segment denotes in an array of length `n`: `strconv.Atoi`, non-negative, in range. -/
def arrIndex (seg : Str) (n : Nat) : Option Nat :=
  match Str.atoi seg with
  | some (Int.ofNat i) => if i < n then some i else none
  | _ => none

/-- gabs `Search` (called by `Path`, `Exists`, `ExistsP`); `none` is the nil container. -/
def search : List Str → Json → Option Json
  | [], j => some j
  | seg :: p, j =>
    match j with
    | .obj m => match Obj.lookup seg m with
      | some v => search p v
      | none => none
    | .arr xs =>
      if seg = b!"*" then
        let tmp := match p with
          | [] => xs
          | _ :: _ => xs.filterMap (fun v => search p v)
        if tmp.isEmpty then none else some (.arr tmp)
      else match arrIndex seg xs.length with
        | some i => match xs[i]? with
          | some v => search p v
          | none => none
        | none => none
    | _ => none

/-- gabs `Exists`. -/
def existsAt (p : List Str) (j : Json) : Bool := (search p j).isSome

/-- The child `Set` descends into: a missing or nil member is created as an empty object. -/
def fill : Option Json → Json
  | none => .obj []
  | some .null => .obj []
  | some c => c

/-- gabs `Set` below the root.  `root` says whether the current segment is the first one.
Objects are updated in place in Go; here the updated document is returned.
An error leaves the Go document unchanged as well: every error is reported before the first write. -/
def setGo (v : Json) : Bool → List Str → Json → Res Json
  | _, [], _ => .ok v
  | root, seg :: p, j =>
    match j with
    | .obj m =>
      match p with
      | [] => .ok (.obj (Obj.insert seg v m))
      | _ :: _ =>
        match setGo v false p (fill (Obj.lookup seg m)) with
        | .ok c => .ok (.obj (Obj.insert seg c m))
        | .err e => .err e
        | .panic => .panic
    | .arr xs =>
      if seg = b!"-" then
        if root then .err .outOfBounds
        else match p with
          | [] => .ok (.arr (xs ++ [v]))
          | _ :: _ => match setGo v false p (.obj []) with
            | .ok c => .ok (.arr (xs ++ [c]))
            | .err e => .err e
            | .panic => .panic
      else match arrIndex seg xs.length with
        | none => .err .outOfBounds
        | some i =>
          match p with
          | [] => .ok (.arr (xs.set i v))
          | _ :: _ => match xs[i]? with
            | none => .err .outOfBounds
            | some .null => .err .notFound
            | some c => match setGo v false p c with
              | .ok c' => .ok (.arr (xs.set i c'))
              | .err e => .err e
              | .panic => .panic
    | _ => .err .collision

/-- gabs `Set`: a nil root becomes an empty object first. -/
def set (v : Json) (p : List Str) (j : Json) : Res Json :=
  match p with
  | [] => .ok v
  | _ :: _ => setGo v true p (fill (some j))

/-- The path of an element during `Flatten`: the parent path, a dot, and the element's key, except that an
empty parent path contributes nothing.  Keys are not escaped. -/
def elePath (path key : Str) : Str := if path.isEmpty then key else path ++ 46 :: key

mutual
/-- gabs `walkObject` / `walkArray` on one value: leaves with their dot paths. -/
def walk (path : Str) (j : Json) : List (Str × Json) :=
  match j with
  | .obj m => walkObject path m
  | .arr xs => walkArray path 0 xs
  | .null => [(path, .null)]
  | .bool b => [(path, .bool b)]
  | .num n => [(path, .num n)]
  | .str s => [(path, .str s)]
termination_by structural j
def walkObject (path : Str) (m : List (Str × Json)) : List (Str × Json) :=
  match m with
  | [] => []
  | (k, v) :: t => walk (elePath path k) v ++ walkObject path t
termination_by structural m
def walkArray (path : Str) (i : Nat) (xs : List Json) : List (Str × Json) :=
  match xs with
  | [] => []
  | x :: t => walk (elePath path (Str.itoa i)) x ++ walkArray path (i + 1) t
termination_by structural xs
end

/-- gabs `Flatten`: a Go map from dot path to leaf; here the list of all bindings stored into it.
Paths that coincide (possible only for keys with dots or empty keys) overwrite each other; see `Container.MapOrder`. -/
def flatten (j : Json) : Res (List (Str × Json)) :=
  match j with
  | .obj m => .ok (walkObject [] m)
  | .arr xs => .ok (walkArray [] 0 xs)
  | _ => .err .notObj

end Oapi.Gabs
