import Verif.Props.Settled
import Verif.Props.PrepareEx

/-! C117 applies to concrete inputs. -/
namespace Oapi.Props
open Spec
open Scan (Input Orders Prepared prepare scan)

namespace SettledEx
open WholeEx PrepareEx

/-- The text of the reference to the exported component. -/
def xL : Str := b!"#/components/schemas/Node"

/-- What the scan of the input of WholeEx returns. -/
def docOut : Json := .obj [
  (b!"components", .obj [(b!"schemas", .obj [(b!"Node", .obj [
    (b!"properties", .obj [
      (b!"Items", .obj [
        (b!"items", .obj [
          (b!"properties", .obj [(b!"ID", .obj [(b!"type", .str b!"integer")]), (b!"Owner", refObj xL)]),
          (b!"type", .str b!"object")]),
        (b!"nullable", .bool true), (b!"type", .str b!"array")]),
      (b!"Next", .obj [(b!"oneOf", .arr [refObj xL, .obj [(b!"nullable", .bool true), (b!"type", .str b!"object")]])])]),
    (b!"type", .str b!"object")])])]),
  (b!"info", .obj [(b!"title", .str b!"T"), (b!"version", .str [])]),
  (b!"openapi", .str b!"3.0.0"),
  (b!"paths", .obj [
    (b!"/n", .obj [(b!"get", .obj [(b!"also", .obj [(b!"type", .str b!"string")]), (b!"deprecated", .bool true), (b!"schema", refObj xL)])]),
    (b!"/v1.0", .obj [(b!"get", .obj [(b!"summary", .str b!"s")])])])]

set_option maxRecDepth 100000

theorem first_scan : scan inp ScanEx.orders 6 = .ret (some docOut) (some .decode) := by decide +kernel

/-- The document in the place of the specification, with a root document `r`. -/
def again (r : Json) : Input Int := { inp with
  files := fun _ => .ok [⟨b!"/src/p/openapi.yaml", docOut⟩]
  root := r }

theorem refs_out {x : Str} (h : HasRef docOut x) : x = xL := by
  have := hasRef_mem h
  rw [show refsB docOut = [xL, xL, xL] by decide] at this
  simpa using this

theorem again_ok (r : Json) : InputOK (again r) where
  graph := input_ok.graph
  paths := input_ok.paths
  prog := input_ok.prog
  files := by
    intro p fs h f hf _
    cases h
    rw [List.mem_singleton] at hf
    subst hf
    refine ⟨⟨_, rfl⟩, wfB_sound _ (by decide), routedB_sound (pb := fun _ => true) (wfB_sound _ (by decide)) (fun _ _ => rfl) (by decide), ?_⟩
    intro x hx
    rw [refs_out hx]
    exact ⟨[], b!"/components/schemas/Node", by simp, .inr rfl⟩
  commands := input_ok.commands

theorem again_orders (r : Json) : OrdersOK (again r) ScanEx.orders :=
  ⟨orders_ok.heap₁, orders_ok.heap₂, orders_ok.heap₃, orders_ok.exports, orders_ok.commands, orders_ok.refs, orders_ok.sort, orders_ok.pointers,
    orders_ok.types, orders_ok.pick, orders_ok.resolver, orders_ok.ops, orders_ok.defops⟩

theorem again_spec (r : Json) : SpecAt (again r) 0 0 docOut := ⟨visited0, _, _, rfl, rfl, rfl, _, _, rfl, rfl⟩

theorem again_one (r : Json) (p i : Nat) (d : Json) (h : SpecAt (again r) p i d) : p = 0 ∧ i = 0 := by
  obtain ⟨hv, fs, f, h1, h2, _, _⟩ := h
  cases h1
  refine ⟨visited hv, ?_⟩
  cases i with
  | zero => rfl
  | succ i => cases h2

def pre' : Prepared where
  exports := [⟨.schema, b!"Node", Pointer.newGoLoose b!"ex.org/p" b!"Node"⟩]
  doc := docOut
  points := TypesEx.points

/-- With an empty root document and with the one of the first scan. -/
theorem again_prepared : prepare (again (.obj [])) ScanEx.orders = .ok pre' := ScanEx.same_sound (by decide +kernel)
theorem root_prepared : prepare (again inp.root) ScanEx.orders = .ok pre' := ScanEx.same_sound (by decide +kernel)

theorem again_preparable : Preparable (again (.obj [])) :=
  (C77_prepared_iff (again_ok _) (again_orders _) distinct).1 ⟨pre', again_prepared⟩

theorem root_preparable : Preparable (again inp.root) :=
  (C77_prepared_iff (again_ok _) (again_orders _) distinct).1 ⟨pre', root_prepared⟩

theorem root_composite : ∀ k R, (k, R) ∈ ruleOf → Composite (section_ inp.root k) := by
  intro k R _
  by_cases hk : k = b!"info"
  · subst hk; exact .inr ⟨_, rfl, .inr rfl⟩
  · left
    simp [section_, child, Obj.lookup, hk, inp, ScanEx.input]

/-- No document of the example has a local reference. -/
theorem no_local {x : Str} {p : Pointer} (h : HasRef pre.doc x ∨ ∃ e ∈ inp.override, HasRef e.2 x) (hp : Pointer.parse x = .ok p)
    (hz : p.url.scheme = []) : p.toStr = x := by
  exfalso
  rcases h with h | ⟨e, he, h⟩
  · have := hasRef_mem h
    rw [refs_doc] at this
    simp only [List.mem_cons, List.not_mem_nil, or_false] at this
    rcases this with rfl | rfl
    · rw [parse_Y.1] at hp; cases hp; cases hz
    · rw [parse_N.1] at hp; cases hp; cases hz
  · rw [show inp.override = [_] from rfl, List.mem_singleton] at he
    subst he
    have : x ∈ refsB docY := hasRef_mem h
    rw [refs_Y] at this
    cases this

/-- The second scan returns what the first has returned, although the package still exports Node and the specification now has the
component. -/
example (n : Nat) : scan (again (.obj [])) ScanEx.orders (n + 1) = .ret (some docOut) (some .decode) := by
  obtain ⟨out, N, h1, h2⟩ := C117_scanned_again input_ok schemas_ok orders_ok distinct prepared resolvable one_shortest defaults_ok rfl
    (wfB_sound _ (by decide)) root_composite (by
      intro d hd x hx
      rw [show inp.defops = [_] from rfl, List.mem_singleton] at hd
      subst hd
      have := hasRef_mem hx
      rw [show refsB (.obj [(b!"deprecated", .bool true)]) = [] by decide] at this
      cases this) (by decide) (fun x p h => no_local h)
  have hout : out = docOut := by
    have e1 := h1 _ orders_ok (max N 6) (Nat.le_max_left _ _)
    have e2 := C65_more_stack (Nat.le_max_right N 6) first_scan
    rw [e1] at e2
    cases e2
    rfl
  subst hout
  exact h2 (again (.obj [])) ScanEx.orders 0 0 (again_ok _) (again_orders _) distinct again_preparable (again_spec _) (again_one _)
    ⟨[], rfl, wfB_sound _ (by decide), fun _ _ _ => .inl rfl⟩ rfl rfl n

theorem only_op {P M : Str} {a : Json} (h : opAt docOut P M = some a) :
    (P = b!"/n" ∧ M = b!"get" ∧ a = .obj [(b!"also", .obj [(b!"type", .str b!"string")]), (b!"deprecated", .bool true), (b!"schema", refObj xL)]) ∨
    (P = b!"/v1.0" ∧ M = b!"get" ∧ a = .obj [(b!"summary", .str b!"s")]) := by
  obtain ⟨m, ps, it, e1, e2, e3, e4⟩ := OAPI.opAt_of h
  cases e1
  cases e2
  simp only [Obj.lookup] at e3
  split at e3
  · cases e3
    simp only [Obj.lookup] at e4
    split at e4
    · cases e4; exact .inl ⟨by assumption, by assumption, rfl⟩
    · cases e4
  · split at e3
    · cases e3
      simp only [Obj.lookup] at e4
      split at e4
      · cases e4; exact .inr ⟨by assumption, by assumption, rfl⟩
      · cases e4
    · cases e3

theorem xL_stands : Standing xL :=
  C117_component_references (e := ⟨.schema, b!"Node", Pointer.newGoLoose b!"ex.org/p" b!"Node"⟩) ⟨by decide, by decide, by decide, by decide⟩ (by decide)

/-- With the same root document there is nothing left to do either: the document has what the root document says. -/
theorem settled : Complete (again inp.root) docOut where
  refs := by
    rintro x ⟨L, k, hx, rfl | ⟨a, rfl⟩⟩
    · rw [refs_out ⟨L, hx⟩]; exact xL_stands
    · exact absurd hx ((again_ok inp.root).files 0 _ rfl _ (List.mem_singleton.2 rfl) (by decide) |>.routed.plain L a x)
  sections := by
    intro k R h
    simp only [ruleOf, List.mem_cons, List.not_mem_nil, or_false, Prod.mk.injEq] at h
    rcases h with ⟨rfl, _⟩ | ⟨rfl, _⟩ | ⟨rfl, _⟩ | ⟨rfl, _⟩ | ⟨rfl, _⟩ | ⟨rfl, _⟩ | ⟨rfl, _⟩
    · exact .inr ⟨_, rfl⟩
    · exact .inr ⟨_, rfl⟩
    · exact .inr ⟨_, rfl⟩
    all_goals exact .inl (.inl rfl)
  root := by
    refine ⟨_, rfl, wfB_sound _ (by decide), ?_⟩
    intro k R h
    simp only [ruleOf, List.mem_cons, List.not_mem_nil, or_false, Prod.mk.injEq] at h
    rcases h with ⟨rfl, rfl⟩ | ⟨rfl, _⟩ | ⟨rfl, _⟩ | ⟨rfl, _⟩ | ⟨rfl, _⟩ | ⟨rfl, _⟩ | ⟨rfl, _⟩
    · exact .inr ⟨_, _, rfl, rfl, fun p => ⟨fun _ h => h, fun h _ => h, fun _ _ => rfl⟩⟩
    all_goals exact .inl (.inl rfl)
  ops := by
    intro P M a h e he
    rcases only_op h with ⟨rfl, rfl, rfl⟩ | ⟨rfl, rfl, rfl⟩
    · rw [show hits (again inp.root).matches_ (again inp.root).defops _ _ = [.obj [(b!"deprecated", .bool true)]] from rfl, List.mem_singleton] at he
      subst he
      refine .inr ⟨⟨_, rfl⟩, fun p => ⟨fun _ h => h, fun h _ => h, fun h hs => ?_⟩⟩
      rw [h]
      cases p with
      | nil => cases h
      | cons k q =>
        simp only [nodeAt, Obj.lookup]
        by_cases hk : k = b!"deprecated"
        · exact absurd ⟨[k], .bool true, ⟨q, rfl⟩, by subst hk; rfl⟩ hs
        · rw [if_neg hk]
    · cases he

theorem settled_defaults : DefaultsOK (again inp.root) docOut where
  items := by
    refine .inr ⟨_, rfl, ?_⟩
    intro P v hv
    simp only [Obj.lookup] at hv
    split at hv
    · cases hv; exact .inr ⟨_, rfl⟩
    · split at hv
      · cases hv; exact .inr ⟨_, rfl⟩
      · cases hv
  plain := by
    rintro P x p ⟨h1, h2, h3⟩
    have := refs_out (x := x) ⟨_, h1⟩
    subst this
    obtain ⟨q, g1, g2, _⟩ := xL_stands
    rw [h2] at g1; cases g1
    exact h3 g2
  defs := defaults_ok.defs
  nodots := by
    intro P M a h hh
    rcases only_op h with ⟨rfl, rfl, _⟩ | ⟨rfl, rfl, _⟩
    · decide
    · exact absurd rfl hh
  answers := fun _ _ _ _ _ _ => ⟨_, rfl⟩
  objects := by
    intro P M a h
    rcases only_op h with ⟨_, _, h⟩ | ⟨_, _, h⟩ <;> exact .inr (.inr ⟨_, h⟩)
  agree := by
    intro P M a h
    rcases only_op h with ⟨rfl, rfl, _⟩ | ⟨rfl, rfl, _⟩
    · rw [show hits (again inp.root).matches_ (again inp.root).defops _ _ = [.obj [(b!"deprecated", .bool true)]] from rfl]
      simp
    · rw [show hits (again inp.root).matches_ (again inp.root).defops _ _ = [] from rfl]
      simp

example (n : Nat) : scan (again inp.root) ScanEx.orders (n + 1) = .ret (some docOut) (some .decode) :=
  C117_unchanged (again_ok _) (again_orders _) distinct root_preparable (again_spec _) (again_one _) settled settled_defaults n

/-- A root document that defines the component too. -/
def rootNode : Obj := [(b!"components", .obj [(b!"schemas", .obj [(b!"Node", .obj [(b!"type", .str b!"object")])])])]

example (fuel : Nat) : ¬ HasDoc (scan (again (.obj rootNode)) ScanEx.orders fuel) := by
  refine C117_component_of_root (again_ok _) (again_orders _) distinct (root := rootNode) rfl (wfB_sound _ (by decide)) ?_ (again_spec _)
    (k := b!"schemas") (q := [b!"Node", b!"type"]) (x := .leaf (.str b!"object")) (y := .leaf (.str b!"object")) rfl rfl (by simp) fuel
  intro k R _
  by_cases hk : k = b!"components"
  · subst hk; exact .inr ⟨_, rfl, .inr rfl⟩
  · left
    simp [section_, child, Obj.lookup, hk, rootNode]

end SettledEx
end Oapi.Props
