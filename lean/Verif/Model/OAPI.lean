import Verif.Model.Merge

/- Model of /repo/internal/oapi/oapi.go. -/
namespace Oapi.OAPI
open Container

/-! ### MergeWithRoot -/

/-- The table of sections and strategies, oapi.go:114-122. -/
def sections : List (Str × Merger) :=
  [(b!"info", mergeOverride), (b!"components", mergeStrict), (b!"paths", mergeDefault),
   (b!"externalDocs", mergeDefault), (b!"security", mergeDefault), (b!"servers", mergeDefault),
   (b!"tags", mergeDefault)]

/-- `z.IsNil() && y.IsNil()`, oapi.go:126. -/
def bothNil (z y : Json) : Res Bool :=
  match isNil z with
  | .ok true => isNil y
  | .ok false => .ok false
  | .err e => .err e
  | .panic => .panic

/-- oapi.go:130-149 for one section: both sides are merged into a new object which then overrides the section. -/
def mergeInto (c : Json) (key : Str) (f : Merger) (z y : Json) : Res Json :=
  match merge (.obj []) z f with
  | .ok s1 => match merge s1 y f with
    | .ok s => merge c (.obj [(key, s)]) mergeOverride
    | .err e => .err e
    | .panic => .panic
  | .err e => .err e
  | .panic => .panic

/-- The body of the loop, oapi.go:123-149. -/
def mergeSection (r c : Json) (key : Str) (f : Merger) : Res Json :=
  match bothNil (data (path c key)) (data (path r key)) with
  | .ok true => .ok c
  | .ok false => mergeInto c key f (data (path c key)) (data (path r key))
  | .err e => .err e
  | .panic => .panic

/-- The loop, oapi.go:114-150. -/
def mergeSections (r : Json) : List (Str × Merger) → Json → Res Json
  | [], c => .ok c
  | (key, f) :: t, c => match mergeSection r c key f with
    | .ok c' => mergeSections r t c'
    | .err e => .err e
    | .panic => .panic

/-- `MergeWithRoot`, oapi.go:103-152.  `r` is the root document as marshalled by `container.Make`. -/
def mergeWithRoot (r c : Json) : Res Json := mergeSections r sections c

/-! ### SetPathsDefaults -/

/-- `FlattenPath`, oapi.go:10-15.  `val` is the data of `Operation`; `attached` says that it still is the map or slice inside
the document (Go aliasing), so that merging into it changes the document. -/
structure Op where
  path : Str
  method : Str
  val : Json
  attached : Bool
  deriving DecidableEq

/-- The value is a Go map or slice, so that a container made of it shares it with the document. -/
def isShared : Json → Bool
  | .obj _ => true
  | .arr _ => true
  | _ => false

/-- The inner loop of `Paths`, oapi.go:49-58. -/
def itemOps (P : Str) (m : Obj) : List Op := m.map fun kv => ⟨P, kv.1, kv.2, isShared kv.2⟩

/-- The outer loop of `Paths`, oapi.go:43-59. -/
def pathsGo : Obj → Res (List Op)
  | [] => .ok []
  | (P, item) :: t => match childrenMap item with
    | .ok m => match pathsGo t with
      | .ok l => .ok (itemOps P m ++ l)
      | .err e => .err e
      | .panic => .panic
    | .err e => .err e
    | .panic => .panic

/-- `Paths`, oapi.go:37-61.  The code ranges over Go maps, so the list is determined up to order; the model lists it in
key order and callers permute it. -/
def paths (cnt : Json) : Res (List Op) :=
  match childrenMap (data (path cnt b!"paths")) with
  | .ok m => pathsGo m
  | .err e => .err e
  | .panic => .panic

/-- `FlattenPaths.Match`, oapi.go:21-34, as positions in the list.  `mt` is `route.Match`. -/
def matching (mt : Str → Str → Str → Res Bool) (pattern : Str) : Nat → List Op → Res (List Nat)
  | _, [] => .ok []
  | i, o :: t => match mt pattern o.method o.path with
    | .ok b => match matching mt pattern (i + 1) t with
      | .ok l => .ok (if b then i :: l else l)
      | .err e => .err e
      | .panic => .panic
    | .err e => .err e
    | .panic => .panic

/-- `FlattenPath.Key`, oapi.go:54-56. -/
def opKey (o : Op) : Str := sliceToDotPath [b!"paths", o.path, o.method]

structure St where
  cnt : Json
  ops : List Op

/-- `SetP` replaces the map at the written slice: an operation that lived there no longer is part of the document. -/
def detach (written : List Str) (o : Op) : Op :=
  if [b!"paths", o.path, o.method] = written then { o with attached := false } else o

/-- oapi.go:79-95: merge the default into the operation (in place) and write a clone of it at the operation's key. -/
def applyAt (ov : Json) (st : St) (i : Nat) : Res St :=
  match st.ops[i]? with
  | none => .ok st
  | some o => match merge o.val ov mergeDefault with
    | .ok nc =>
      match (if o.attached then Gabs.set nc [b!"paths", o.path, o.method] st.cnt else .ok st.cnt) with
      | .ok cnt1 => match setP cnt1 (opKey o) nc with
        | .ok cnt2 => .ok ⟨cnt2, (st.ops.set i { o with val := nc }).map (detach (Gabs.dotPathToSlice (opKey o)))⟩
        | .err e => .err e
        | .panic => .panic
      | .err e => .err e
      | .panic => .panic
    | .err e => .err e
    | .panic => .panic

/-- oapi.go:78-96. -/
def applyAll (ov : Json) : List Nat → St → Res St
  | [], st => .ok st
  | i :: t, st => match applyAt ov st i with
    | .ok st' => applyAll ov t st'
    | .err e => .err e
    | .panic => .panic

/-- The loop over the defaults map in some order, oapi.go:72-97. -/
def applyDefaults (mt : Str → Str → Str → Res Bool) : List (Str × Json) → St → Res St
  | [], st => .ok st
  | (pattern, ov) :: t, st => match matching mt pattern 0 st.ops with
    | .ok is => match applyAll ov is st with
      | .ok st' => applyDefaults mt t st'
      | .err e => .err e
      | .panic => .panic
    | .err e => .err e
    | .panic => .panic

/-- `SetPathsDefaults`, oapi.go:66-100, for given orders of the operations and of the defaults: the new document. -/
def runDefaults (mt : Str → Str → Str → Res Bool) (cnt : Json) (ops : List Op) (defops : List (Str × Json)) : Res Json :=
  match applyDefaults mt defops ⟨cnt, ops⟩ with
  | .ok st => .ok st.cnt
  | .err e => .err e
  | .panic => .panic

/-- `SetPathsDefaults`, oapi.go:66-100: the possible outcomes, one for each iteration order of the document's maps and of
the defaults map. -/
def SetPathsDefaults (mt : Str → Str → Str → Res Bool) (cnt : Json) (defops : List (Str × Json)) (out : Res Json) : Prop :=
  match paths cnt with
  | .ok ops => ∃ ops' defops', ops'.Perm ops ∧ defops'.Perm defops ∧ out = runDefaults mt cnt ops' defops'
  | .err e => out = .err e
  | .panic => out = .panic

end Oapi.OAPI
