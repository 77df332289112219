import Verif.Model.GoHeap
import Verif.Model.Resolver
import Verif.Model.SliceHeap

/- /repo/internal/oapi/resolver in memory: the containers are changed in place, and the paths of pointers are Go slices whose backing arrays
are shared between the nested calls. -/
namespace Oapi.GoHeap
open Resolver (Cfg)

/-- Memory during `Resolve`: containers, the backing arrays of the paths (as pointer texts), and the number of `iterator` calls so far. -/
structure RSt where
  heap : Heap
  arrs : Oapi.Heap
  clock : Nat

/-- `cx.SetP(key, v)`; if it fails nothing is changed. -/
def setR (room : Nat) (p : Str) (v : Val) (c : Nat) (s : RSt) : RSt × Res Unit :=
  match setP room p v c s.heap with
  | .ok h => ({ s with heap := h }, .ok ())
  | .err e => (s, .err e)
  | .panic => (s, .panic)

/-- `ReplacePtr`, utils.go:49-56. -/
def replacePtr (room : Nat) (cx : Nat) (key : Str) (v : Val) (s : RSt) : RSt × Res Unit :=
  match Resolver.isref key with
  | none => (s, .err .syntaxErr)
  | some path => setR room path v cx s

/-- `ReplacePtrWithEmptyObject`, utils.go:60-62, with a new container. -/
def replaceEmpty (room : Nat) (cx : Nat) (key : Str) (s : RSt) : RSt × Res Unit :=
  let r := new s.heap
  replacePtr room cx key (data r.1 (some r.2)) { s with heap := r.1 }

/-- `UpdatePtrToLocal` and `UpdatePtr`, utils.go:65-81. -/
def updateLocal (room : Nat) (cx : Nat) (key : Str) (f : Fragment) (s : RSt) : RSt × Res Unit :=
  match Resolver.isref key with
  | none => (s, .err .syntaxErr)
  | some _ => setR room key (.str (Pointer.toStr { fragment := f })) cx s

/-- `set`, resolver.go:108-122; `con` is `r.con`, `nc` the container of the value. -/
def setRef (room : Nat) (cfg : Cfg) (con cx : Nat) (p : Pointer) (key : Str) (nc : Nat) (s : RSt) : RSt × Res Unit :=
  match Resolver.get cfg.exp p with
  | none => replacePtr room cx key (data s.heap (some nc)) s
  | some e => match setR room e.path (data s.heap (some nc)) con s with
    | (s', .ok _) => updateLocal room cx key e.fragment s'
    | r => r

/-- `setRecursive`, resolver.go:124-130. -/
def setRecursive (room : Nat) (cfg : Cfg) (cx : Nat) (p : Pointer) (key : Str) (s : RSt) : RSt × Res Unit :=
  match Resolver.get cfg.exp p with
  | some e => if e.isScheme then updateLocal room cx key e.fragment s else replaceEmpty room cx key s
  | none => replaceEmpty room cx key s

/-- The body of the loop, resolver.go:67-102; `call` is the recursive call.  `append(pp, p)` (resolver.go:93) writes behind the path in its array. -/
def visit (room : Nat) (cfg : Cfg) (con : Nat) (call : Slice → Nat → RSt → RSt × Res Unit) (pp : Slice) (cx : Nat) (key : Str) (v : Json) (s : RSt) :
    RSt × Res Unit :=
  match v with
  | .str t => match Pointer.parse t with
    | .err e => (s, .err e)
    | .panic => (s, .panic)
    | .ok p =>
      if p.isExternal = false then (s, .ok ())
      else if p.toStr ∈ Slice.view s.arrs pp then setRecursive room cfg cx p key s
      else match cfg.res p with
        | .err e => (s, .err e)
        | .panic => (s, .panic)
        | .ok nc =>
          let m := make nc s.heap
          let a := Slice.append s.arrs pp [p.toStr] room
          match call a.2 m.2 ⟨m.1, a.1, s.clock⟩ with
          | (s', .ok _) => setRef room cfg con cx p key m.2 s'
          | r => r
  | _ => (s, .ok ())

/-- The loop, resolver.go:67-103. -/
def loop (room : Nat) (cfg : Cfg) (con : Nat) (call : Slice → Nat → RSt → RSt × Res Unit) (pp : Slice) (cx : Nat) : List (Str × Json) → RSt → RSt × Res Unit
  | [], s => (s, .ok ())
  | (key, v) :: t, s => match visit room cfg con call pp cx key v s with
    | (s', .ok _) => loop room cfg con call pp cx t s'
    | r => r

/-- `ExtractKey`, utils.go:13-36, of a container: it only reads (`Flatten`, container.go:102-104). -/
def extract (c : Nat) (key : Str) (h : Heap) : Res (List (Str × Json)) :=
  match doc h.mem (data h (some c)) with
  | some j => Container.extractKey j key
  | none => .err .decode

/-- `iterator`, resolver.go:61-104, with a bound on the recursion depth. -/
def iter (room : Nat) (cfg : Cfg) (con : Nat) : Nat → Slice → Nat → RSt → RSt × Res Unit
  | 0, _, _, s => (s, .err .fuel)
  | n + 1, pp, cx, s => match extract cx b!"$ref" s.heap with
    | .err e => (s, .err e)
    | .panic => (s, .panic)
    | .ok refs => loop room cfg con (iter room cfg con n) pp cx (cfg.ord s.clock refs) { s with clock := s.clock + 1 }

/-- `Resolve`, resolver.go:42-59: it works on a copy, which is returned.  The first path is the empty slice `path{}`. -/
def resolve (room : Nat) (cfg : Cfg) (fuel : Nat) (c : Nat) (h : Heap) : Heap × Res Nat :=
  let r := cloneC (some c) h
  match iter room cfg r.2 fuel ⟨0, 0⟩ r.2 ⟨r.1, [[]], 0⟩ with
  | (s, .ok _) => (s.heap, .ok r.2)
  | (s, .err e) => (s.heap, .err e)
  | (s, .panic) => (s.heap, .panic)

end Oapi.GoHeap
