import Verif.Spec.Scan
import Verif.Spec.Cmds

/-! What a scan reads before it resolves references (C77). -/
namespace Oapi.Spec
open Types Scan Container

variable {F : Type}

/-- Package `p` is scanned: it is reached from the loaded packages through imports outside the standard library. -/
def Visited (inp : Input F) (p : Nat) : Prop := ∃ roots r, inp.load = .ok roots ∧ r ∈ roots ∧ PkgReach inp.stdpkg inp.heap r p

/-- A specification: a document with a member "openapi". -/
def IsSpec (d : Json) : Prop := ∃ m v, d = .obj m ∧ Obj.lookup b!"openapi" m = some v

/-- Document `d` is the `i`-th file of the scanned package `p`, and a specification. -/
def SpecAt (inp : Input F) (p i : Nat) (d : Json) : Prop :=
  Visited inp p ∧ ∃ (fs : List File) (f : File), inp.files p = .ok fs ∧ fs[i]? = some f ∧ f.doc = d ∧ IsSpec d

/-- The `i`-th comment of the scanned package `p` is a command that exports pointer `ptr` under a name. -/
def CommandAt (inp : Input F) (p i : Nat) (name : Str) (ptr : Pointer) : Prop :=
  Visited inp p ∧ ∃ t body, (inp.comments p).flatten[i]? = some t ∧ CommandIn t body ∧ ExportText (pathOf inp.heap p) body name ptr

/-- What reference `x` means in package `pkg`: without a package of its own, a reference of scheme go is one into `pkg`; all others mean
what they say. -/
inductive Means (pkg x : Str) : Pointer → Prop
  | here {p q : Pointer} : Pointer.parse x = .ok p → p.url.scheme = b!"go" → p.pkgPath = [] → Pointer.parse (b!"go://" ++ pkg ++ b!"#/") = .ok q →
      Means pkg x { q with fragment := p.fragment }
  | other {p : Pointer} : Pointer.parse x = .ok p → ¬ (p.url.scheme = b!"go" ∧ p.pkgPath = []) → Means pkg x p

/-- Pointer `ptr` is asked for: by a command, or by a reference in a specification. -/
def AskedFor (inp : Input F) (ptr : Pointer) : Prop :=
  (∃ p i name, CommandAt inp p i name ptr) ∨
  ∃ p i d x, SpecAt inp p i d ∧ HasRef d x ∧ Means (pathOf inp.heap p) x ptr

/-- The object `name` of type `t` that the scanned package of path `pkg` declares is asked for, or a part of it. -/
def ObjectAskedFor (inp : Input F) (pkg name : Str) (t : GoType) : Prop :=
  (∃ p, Visited inp p ∧ pathOf inp.heap p = pkg) ∧
  (∃ ptr, AskedFor inp ptr ∧ ptr.url.scheme = b!"go" ∧ ptr.pkgPath = pkg ∧ ptr.fragment.head? = some name) ∧
  inp.prog.scope pkg name = some t

/-- No two scanned packages have the same import path. -/
def DistinctPaths (inp : Input F) : Prop := ∀ p q, Visited inp p → Visited inp q → pathOf inp.heap p = pathOf inp.heap q → p = q

/-- A reference `x` of package `pkg` as it stands in the merged document: `go://pkg#…` if it is of scheme go and has no package, otherwise
the text of the pointer it is. -/
inductive Absolute (pkg x : Str) : Str → Prop
  | here {p : Pointer} : Pointer.parse x = .ok p → p.url.scheme = b!"go" → p.pkgPath = [] → Absolute pkg x (b!"go://" ++ pkg ++ b!"#" ++ p.fragment.toStr)
  | other {p : Pointer} : Pointer.parse x = .ok p → ¬ (p.url.scheme = b!"go" ∧ p.pkgPath = []) → Absolute pkg x p.toStr

/-- Document `c` is the union of all specifications, with their references made absolute. -/
structure Merged (inp : Input F) (c : Json) : Prop where
  object : ∃ m, c = .obj m
  wf : Json.WF c
  nodes : ∀ path n, path ≠ [] → (nodeAt c path = some n ↔
    ∃ p i d f, SpecAt inp p i d ∧ (∀ x, HasRef d x → Absolute (pathOf inp.heap p) x (f x)) ∧ nodeAt (mapRefs f d) path = some n)

/-- What it takes for a scan to get as far as resolving references. -/
structure Preparable (inp : Input F) : Prop where
  /-- The packages can be loaded, without errors. -/
  loads : ∃ roots, inp.load = .ok roots
  clean : ∀ p pkg, Visited inp p → inp.heap[p]? = some pkg → pkg.errors = []
  /-- Every command in every comment is well-formed, and no two commands export pointers of the same text. -/
  commands : ∀ p t body, Visited inp p → t ∈ (inp.comments p).flatten → CommandIn t body →
    (∃ name ptr, ExportText (pathOf inp.heap p) body name ptr) ∨ RootText body
  once : ∀ p i n ptr p' i' n' ptr', CommandAt inp p i n ptr → CommandAt inp p' i' n' ptr' → ptr.toStr = ptr'.toStr → p = p' ∧ i = i'
  /-- The files of every package can be read, and the references of the specifications among them. -/
  files : ∀ p, Visited inp p → ∃ fs, inp.files p = .ok fs
  refs : ∀ p i d x, SpecAt inp p i d → HasRef d x → ∃ ptr, Pointer.parse x = .ok ptr
  /-- No two specifications bind the same key path, except to objects. -/
  apart : ∀ p i d p' i' d', SpecAt inp p i d → SpecAt inp p' i' d' → Collide d d' → p = p' ∧ i = i'
  /-- No asked-for type contains the predeclared type `error`. -/
  errors : ∀ pkg name t, ObjectAskedFor inp pkg name t → ¬ MeetsError inp.prog.env (under inp.prog.env t)
  /-- The union of the specifications can be merged with the root document (see C21). -/
  root : ∀ c, Merged inp c → ∃ d, OAPI.mergeWithRoot inp.root c = .ok d

/-- Neither in a specification nor in the root document does another scalar have the printed path of location `L`. -/
def OnlyAt (inp : Input F) (L : Loc) : Prop := (∀ p i d, SpecAt inp p i d → Lone d L) ∧ Lone inp.root L

/-- Value `v` at location `L` of document `d` of package `pkg`, with references made absolute. -/
def Carries (pkg : Str) (d : Json) (L : Loc) (v : Json) : Prop :=
  getAt d L = some v ∨ ∃ L₀ x y, L = L₀ ++ [.key refKey] ∧ getAt d L = some (.str x) ∧ v = .str y ∧ Absolute pkg x y

end Oapi.Spec
