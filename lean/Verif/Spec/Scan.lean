import Verif.Model.Scan
import Verif.Spec.Merge
import Verif.Spec.OAPI
import Verif.Spec.Pkgs
import Verif.Spec.Resolver
import Verif.Spec.TypeSchema

/-! Specification vocabulary for whole scans (C57, C58, C65 and later ones). -/
namespace Oapi.Spec
open Types Scan
open Container (SortResult)

variable {F : Type}

/-- Orders in which Go may iterate its maps, and results sorting may have: each order is a permutation of what is iterated, each
sorting gives the same elements, sorted. -/
structure OrdersOK (inp : Input F) (o : Orders) : Prop where
  heap₁ : SameGraph inp.heap o.heap₁
  heap₂ : SameGraph inp.heap o.heap₂
  heap₃ : SameGraph inp.heap o.heap₃
  exports : ∀ l, (o.exports l).Perm l
  commands : ∀ l, (o.commands l).Perm l
  refs : ∀ p i l, Container.MapOrder l (o.refs p i l)
  sort : ∀ l, SortResult l (o.sort l)
  pointers : ∀ p l, (o.pointers p l).Perm l
  types : ∀ x l, (o.types x l).Perm l
  pick : ∀ x i, SortsPoints (o.pick x i)
  resolver : ∀ n l, Container.MapOrder l (o.resolver n l)
  ops : ∀ l, (o.ops l).Perm l
  defops : ∀ l, (o.defops l).Perm l

/-- The call comes back with a document, whatever error it reports besides. -/
def HasDoc : Outcome → Prop
  | .panic => False
  | .ret d _ => d ≠ none

/-- Pointer `p` is among the registered ones. -/
def Registered (m : PMap) (p : Pointer) : Prop := ∃ u qs q, (u, qs) ∈ m ∧ q ∈ qs ∧ q.toStr = p.toStr

/-- The scan cannot resolve `p`: nothing overrides it, and it has another scheme than `go` or is not registered. -/
def Unknown (inp : Input F) (m : PMap) (p : Pointer) : Prop :=
  (∀ d, (p.toStr, d) ∉ inp.override) ∧ (p.url.scheme = b!"go" → ¬ Registered m p)

/-- A pointer read from a plain reference, with any fragment put on it. -/
def PlainPointer (p : Pointer) : Prop := ∃ x p₀ f, PlainRef x ∧ Pointer.parse x = .ok p₀ ∧ p = { p₀ with fragment := f }

/-- A spec file the scan handles faithfully: an object in which dot paths lead to the references, which are plain. -/
structure SpecFileOK (d : Json) : Prop where
  object : ∃ m, d = .obj m
  wf : Json.WF d
  routed : Routed (fun _ => True) d
  refs : ∀ x, HasRef d x → PlainRef x

/-- Inputs as `packages.Load` and the Go type checker leave them, with plain references in spec files and commands. -/
structure InputOK (inp : Input F) : Prop where
  graph : ∀ roots, inp.load = .ok roots → GraphOK inp.heap roots
  paths : ∀ pkg ∈ inp.heap, GoPkg pkg.path
  prog : ProgOK inp.prog
  files : ∀ p fs, inp.files p = .ok fs → ∀ f ∈ fs, Container.existsP f.doc b!"openapi" = true → SpecFileOK f.doc
  commands : ∀ p cs, Cmds.scan (Scan.pathOf inp.heap p) (inp.comments p) = .ok cs → ∀ args name ptr, .schema args name ptr ∈ cs → PlainPointer ptr

/-- A type that contains itself through exported fields, elements and pointers. -/
def OnCycle (env : Env) (u : GoType) : Prop := ∃ c, Child u c ∧ TReach env (under env c) u

/-- The types that schemas refer to (structs and types on cycles) have one shortest pointer each. -/
def OneShortest (env : Env) (m : PMap) : Prop :=
  ∀ u p q, (∃ fs, u = .struct fs) ∨ OnCycle env u → BestPoint m u p → BestPoint m u q → p.toStr = q.toStr

/-- The default operations can be applied to the merged document `c`, and do not depend on the order: path items are objects (or null) and
not external references, no default matches an operation with a dot in its path or method, the matcher answers, defaults only match operations that are objects (or null), and no two defaults of an
operation give different values to the same field. -/
structure DefaultsOK (inp : Input F) (c : Json) : Prop where
  items : PathItemsOk c
  plain : ∀ P x p, ¬ RefAt c [.key b!"paths", .key P] x p
  defs : ∀ d ∈ inp.defops, Json.WF d.2 ∧ NamedKeys d.2
  nodots : NoDots inp.matches_ inp.defops c
  answers : ∀ d ∈ inp.defops, ∀ P M a, opAt c P M = some a → ∃ b, inp.matches_ d.1 M P = .ok b
  objects : ∀ P M a, opAt c P M = some a → (∀ d ∈ hits inp.matches_ inp.defops P M, d = .obj []) ∨ a = .null ∨ ∃ m, a = .obj m
  agree : ∀ P M a, opAt c P M = some a → (hits inp.matches_ inp.defops P M).Pairwise fun x y => ¬ Conflict x y

end Oapi.Spec

namespace Oapi.Spec
open Types Scan

variable {F : Type}

/-- The numbers of a tag can be written. -/
def FiniteTag (fin : F → Bool) (tg : TagP.Tag F) : Prop :=
  ∀ f, tg.min = some f ∨ tg.max = some f ∨ tg.emin = some f ∨ tg.emax = some f ∨ tg.mulOf = some f → fin f = true

/-- The conversion of types is set up as by the library: tags are parsed as in package tag, the schemas of known types are plain, and
numbers are written as numbers. -/
structure SchemasOK (inp : Input F) : Prop where
  tags : ∃ lib pf, inp.tagOf = TagP.parse lib pf
  std : ∀ x s, inp.std x = some s → ∃ a, s = .plain a ∧ ∀ f ∈ attrFloats a, inp.enc.finite f = true
  zero : inp.enc.finite inp.zero = true
  nums : ∀ f, ∃ n, inp.enc.num f = .num n
  ints : ∀ i, ∃ n, inp.enc.int i = .num n

/-- A type that has a schema, with property names that are usable in dot paths and numbers that can be written. -/
structure Convertible (inp : Input F) (u : GoType) : Prop where
  ok : ¬ TypeFails inp.prog.env inp.tagOf u
  names : ∀ fs x, u = .struct fs → VisibleField inp.prog.env inp.tagOf fs x → DotSafe (propName x)
  numbers : ∀ fs x, u = .struct fs → VisibleField inp.prog.env inp.tagOf fs x → FiniteTag inp.enc.finite x.tag

/-- A document whose references can be resolved: they stand alone, can be read, and are overridden or of registered Go types. -/
structure Source (inp : Input F) (m : PMap) (d : Json) : Prop where
  tidy : Tidy d
  bare : NotBare d
  parses : ∀ x, HasRef d x → ∃ p, Pointer.parse x = .ok p
  known : ∀ L x p, RefAt d L x p → ¬ Unknown inp m p

/-- The prepared scan can be resolved: exported components have usable names, different places and room in the document; the document and
the overrides are sources; the types that are needed have schemas; and whatever refers to itself is an exported schema. -/
structure Resolvable (inp : Input F) (o : Orders) (pre : Prepared) : Prop where
  names : ∀ e ∈ pre.exports, CleanName e.name
  apart : ∀ e ∈ pre.exports, ∀ e' ∈ pre.exports, compLoc e = compLoc e' → e.ptr.toStr = e'.ptr.toStr
  receives : CanReceive (cfg inp o pre) pre.doc
  doc : Source inp pre.points pre.doc
  overrides : ∀ e ∈ inp.override, Source inp pre.points e.2
  types : ∀ p u, Reach (cfg inp o pre) pre.doc p → (∀ d, (p.toStr, d) ∉ inp.override) → pre.points.findType p = some u → Convertible inp u
  cycles : CyclesExported (cfg inp o pre) pre.doc

end Oapi.Spec
