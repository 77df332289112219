import Verif.Model.Resolver
import Verif.Spec.Pointer
import Verif.Spec.Subst

/-! Specification vocabulary for reference resolution (C29–C35). -/
namespace Oapi.Spec
open Resolver

/-- The reference text `x` denotes the external pointer `p` (one with a scheme). -/
def ExtRef (x : Str) (p : Pointer) : Prop := Pointer.parse x = .ok p ∧ p.url.scheme ≠ []

/-- In document `j`, the object at `L` has the external reference `x`, denoting `p`. -/
def RefAt (j : Json) (L : Loc) (x : Str) (p : Pointer) : Prop :=
  getAt j (L ++ [.key refKey]) = some (.str x) ∧ ExtRef x p

/-- The object that refers to text `x` and contains nothing else. -/
def refObj (x : Str) : Json := .obj [(refKey, .str x)]

/-- The location of an exported component. -/
def compLoc (e : Export) : Loc := [.key b!"components", .key e.kind.key, .key e.name]

/-- The text of a local reference to an exported component. -/
def localText (e : Export) : Str := b!"#/components/" ++ e.kind.key ++ 47 :: e.name

/-- Names that are usable as keys of dot paths and as pointer tokens: not empty, no '.', '/' or '~'. -/
def CleanName (n : Str) : Prop := n ≠ [] ∧ (46 : UInt8) ∉ n ∧ (47 : UInt8) ∉ n ∧ (126 : UInt8) ∉ n

/-- A document whose external references can be rewritten in place: an object in which dot paths lead to them, and in which an object with
an external `$ref` has no other member. -/
structure Tidy (j : Json) : Prop where
  isObj : ∃ m, j = .obj m
  wf : Json.WF j
  routed : Routed (fun x => ∃ p, ExtRef x p) j
  single : ∀ L x p, RefAt j L x p → getAt j L = some (refObj x)

/-- The document is not itself just an external reference. -/
def NotBare (j : Json) : Prop := ∀ x p, ¬ RefAt j [] x p

/-- `q` is referred to by what `p` resolves to. -/
def Refers (cfg : Cfg) (p q : Pointer) : Prop := ∃ d L x, cfg.res p = .ok d ∧ RefAt d L x q

/-- `p` is referred to by the document or by what a reachable pointer resolves to. -/
inductive Reach (cfg : Cfg) (c : Json) : Pointer → Prop where
  | doc {L x p} : RefAt c L x p → Reach cfg c p
  | step {p q} : Reach cfg c p → Refers cfg p q → Reach cfg c q

/-- Exports are usable: clean names, different pointers have different component locations, and the resolver function
depends on the printed pointer only, for pointers that can be met; everything reachable from the document `c` resolves to tidy documents; the
iteration orders are those of Go maps. -/
structure GoodCfg (cfg : Cfg) (c : Json) : Prop where
  names : ∀ e ∈ cfg.exp, CleanName e.name
  apart : ∀ e ∈ cfg.exp, ∀ e' ∈ cfg.exp, compLoc e = compLoc e' → e.ptr.toStr = e'.ptr.toStr
  byString : ∀ p q, Reach cfg c p → Reach cfg c q → p.toStr = q.toStr → cfg.res p = cfg.res q
  docs : ∀ p d, Reach cfg c p → cfg.res p = .ok d → Tidy d
  ord : ∀ n l, Container.MapOrder l (cfg.ord n l)

/-- The document can receive the exported components: none of them is there yet, and the objects they go into are
objects (not references) where they exist. -/
def CanReceive (cfg : Cfg) (c : Json) : Prop :=
  ∀ e ∈ cfg.exp, getAt c (compLoc e) = none ∧
    ∀ L, L <+: compLoc e → (∀ v, getAt c L = some v → ∃ m, v = .obj m) ∧ ∀ x p, ¬ RefAt c L x p

/-- The usual setting of a resolution. -/
structure Setting (cfg : Cfg) (c : Json) : Prop where
  good : GoodCfg cfg c
  tidy : Tidy c
  receives : CanReceive cfg c
  bare : NotBare c
  bares : ∀ p d, Reach cfg c p → cfg.res p = .ok d → NotBare d

/-- A reference text of the document or of what a reachable pointer resolves to. -/
def Authored (cfg : Cfg) (c : Json) (x : Str) : Prop :=
  HasRef c x ∨ ∃ p d, Reach cfg c p ∧ cfg.res p = .ok d ∧ HasRef d x

/-- The reachable pointers are finitely many and all resolve, and all reference texts are pointers. -/
structure Solvable (cfg : Cfg) (c : Json) (U : List Str) : Prop where
  finite : ∀ p, Reach cfg c p → p.toStr ∈ U
  resolves : ∀ p, Reach cfg c p → ∃ d, cfg.res p = .ok d
  parses : ∀ x, Authored cfg c x → ∃ p, Pointer.parse x = .ok p

/-- A string in the document stored under "$ref", or under a key ending in ".$ref" (which looks the same in a dot path). -/
def RefLike (j : Json) (x : Str) : Prop :=
  ∃ L k, getAt j (L ++ [.key k]) = some (.str x) ∧ (k = refKey ∨ ∃ a, k = a ++ 46 :: refKey)

/-- The printed external pointers that can be met, in any document, are among `U`. -/
structure FiniteRefs (cfg : Cfg) (c : Json) (U : List Str) : Prop where
  wf : Json.WF c
  wfs : ∀ p d, p.toStr ∈ U → cfg.res p = .ok d → Json.WF d
  doc : ∀ x p, RefLike c x → ExtRef x p → p.toStr ∈ U
  step : ∀ p d x q, p.toStr ∈ U → cfg.res p = .ok d → RefLike d x → ExtRef x q → q.toStr ∈ U

/-- Following references from document `c`, through the pointers of the texts `pp`, all different, one arrives at document `j`. -/
inductive Walk (cfg : Cfg) (c : Json) : List Str → Json → Prop where
  | top : Walk cfg c [] c
  | step {pp j L x p d} : Walk cfg c pp j → RefAt j L x p → p.toStr ∉ pp → cfg.res p = .ok d → Walk cfg c (pp ++ [p.toStr]) d

/-- Wherever one comes back to a pointer when following references from the document, this pointer is exported, as a schema. -/
def CyclesExported (cfg : Cfg) (c : Json) : Prop :=
  ∀ pp j L x p, Walk cfg c pp j → RefAt j L x p → p.toStr ∈ pp → ∃ e, get cfg.exp p = some e ∧ e.kind = .schema

/-- The expansion of a document: every reference object of an exported pointer becomes a local reference, every other one
becomes the expansion of what it resolves to, and nothing else changes. -/
inductive Expansion (cfg : Cfg) : Json → Json → Prop where
  | mk {j : Json} (σ : Loc → Option Json) (d v : Loc → Json)
    (hother : ∀ L, (∀ x p, ¬ RefAt j L x p) → σ L = none)
    (hexp : ∀ L x p e, RefAt j L x p → get cfg.exp p = some e → σ L = some (refObj (localText e)))
    (hres : ∀ L x p, RefAt j L x p → get cfg.exp p = none → cfg.res p = .ok (d L) ∧ σ L = some (v L))
    (hrec : ∀ L x p, RefAt j L x p → get cfg.exp p = none → Expansion cfg (d L) (v L)) :
    Expansion cfg j (subst σ j)

/-- The document with a member set, creating the objects on the way. -/
def putKeys (v : Json) : List Str → Json → Json
  | [], _ => v
  | k :: p, .obj m => .obj (Obj.insert k (putKeys v p (match Obj.lookup k m with
      | none => .obj []
      | some .null => .obj []
      | some c => c)) m)
  | _ :: _, j => j

/-- The document with exported components added. -/
def addComponents (T : List (Export × Json)) (c : Json) : Json :=
  T.foldl (fun c t => putKeys t.2 [b!"components", t.1.kind.key, t.1.name] c) c

/-- The section of `components` the components of a kind are kept in, as OpenAPI 3.0 names them; headers, for which OpenAPI has a
section `headers`, are kept in `invalid`, and path items in a section OpenAPI 3.0 does not have. -/
def sectionOf (k : Kind) : Str :=
  if k = .schema then b!"schemas"
  else if k = .response then b!"responses"
  else if k = .parameter then b!"parameters"
  else if k = .example then b!"examples"
  else if k = .requestBody then b!"requestBodies"
  else if k = .securityScheme then b!"securitySchemes"
  else if k = .link then b!"links"
  else if k = .callback then b!"callbacks"
  else if k = .pathItem then b!"paths"
  else if k = .reference then b!"*"
  else b!"invalid"

end Oapi.Spec
