import Verif.Model.GoHeap
import Verif.Model.OAPI

/- /repo/internal/oapi/oapi.go:10-100 in memory: operations are containers that look into the document. -/
namespace Oapi.GoHeap

/-- `FlattenPath`, oapi.go:10-15; the operation is a container. -/
structure HOp where
  path : Str
  method : Str
  cont : Nat

/-- `Container.ChildrenMap`, container.go:106-122, as the values the children wrap. -/
def children (v : Val) (h : Mem) : Res GoMap :=
  match v with
  | .map a => .ok (h.mapAt a)
  | .null => .ok []
  | _ => .err .notObj

/-- The inner loop of `Paths`, oapi.go:49-58: a container for every child. -/
def itemOps (P : Str) : GoMap → List Val → List Val × List HOp
  | [], objs => (objs, [])
  | (m, v) :: t, objs => let r := itemOps P t (objs ++ [v]); (r.1, ⟨P, m, objs.length⟩ :: r.2)

/-- The outer loop of `Paths`, oapi.go:43-59.  (The containers of the path items are dropped: nothing refers to them later.) -/
def pathsGo (h : Mem) : GoMap → List Val → Res (List Val × List HOp)
  | [], objs => .ok (objs, [])
  | (P, item) :: t, objs => match children item h with
    | .ok kvs => match pathsGo h t (itemOps P kvs objs).1 with
      | .ok r => .ok (r.1, (itemOps P kvs objs).2 ++ r.2)
      | .err e => .err e
      | .panic => .panic
    | .err e => .err e
    | .panic => .panic

/-- `Paths`, oapi.go:37-61, in key order; callers permute the list. -/
def paths (c : Nat) (h : Heap) : Res (Heap × List HOp) :=
  match children (((search (Gabs.dotPathToSlice b!"paths") (data h (some c)) h.mem).2).getD .null) h.mem with
  | .ok kvs => match pathsGo h.mem kvs h.objs with
    | .ok r => .ok (⟨h.mem, r.1⟩, r.2)
    | .err e => .err e
    | .panic => .panic
  | .err e => .err e
  | .panic => .panic

/-- `FlattenPaths.Match`, oapi.go:21-34: it looks at methods and paths only. -/
def matching (mt : Str → Str → Str → Res Bool) (pattern : Str) (ops : List HOp) : Res (List Nat) :=
  OAPI.matching mt pattern 0 (ops.map fun o => ⟨o.path, o.method, .null, false⟩)

/-- oapi.go:79-95 for one operation: the default is merged into the operation's own map, in place; then a clone of the operation is written at its key. -/
def applyAt (room : Nat) (c : Nat) (ov : Json) (h : Heap) (o : HOp) : Res Heap :=
  let m := make (Json.canon ov) h
  match merge room .default o.cont (some m.2) ov m.1 with
  | (h2, .ok _) => setP room (Container.sliceToDotPath [b!"paths", o.path, o.method]) (data h2 (some o.cont)) c h2
  | (_, .err e) => .err e
  | (_, .panic) => .panic

/-- oapi.go:78-96. -/
def applyAll (room : Nat) (c : Nat) (ov : Json) (ops : List HOp) : List Nat → Heap → Res Heap
  | [], h => .ok h
  | i :: t, h => match ops[i]? with
    | none => applyAll room c ov ops t h
    | some o => match applyAt room c ov h o with
      | .ok h' => applyAll room c ov ops t h'
      | .err e => .err e
      | .panic => .panic

/-- The loop over the defaults, oapi.go:72-97. -/
def applyDefaults (room : Nat) (c : Nat) (mt : Str → Str → Str → Res Bool) (ops : List HOp) : List (Str × Json) → Heap → Res Heap
  | [], h => .ok h
  | (pattern, ov) :: t, h => match matching mt pattern ops with
    | .ok is => match applyAll room c ov ops is h with
      | .ok h' => applyDefaults room c mt ops t h'
      | .err e => .err e
      | .panic => .panic
    | .err e => .err e
    | .panic => .panic

/-- `SetPathsDefaults`, oapi.go:66-100, on container `c`: what memory can be after it.  The orders in which Go visits the operations and the defaults are
arbitrary; `ov` lists the members of a default in the order they are merged in. -/
def SetPathsDefaults (room : Nat) (c : Nat) (mt : Str → Str → Str → Res Bool) (defops : List (Str × Json)) (h : Heap) (out : Res Heap) : Prop :=
  match paths c h with
  | .ok (h', ops) => ∃ ops' defops', ops'.Perm ops ∧ defops'.Perm defops ∧ out = applyDefaults room c mt ops' defops' h'
  | .err e => out = .err e
  | .panic => out = .panic

end Oapi.GoHeap
