import Verif.Props.WholeEx
import Verif.Props.DefRefs

/-! C73 and C75 apply to concrete scans. -/
namespace Oapi.Props.WholeEx
open Spec OAPI
open Scan (Input Orders Prepared prepare scan cfg resolveFn ctx)

/-- C73 applies to the reference to `Node`. -/
example : ∃ out N, (∀ o', OrdersOK inp o' → ∀ fuel, N ≤ fuel → scan inp o' fuel = .ret (some out) (some .decode)) ∧
    ∃ (res : Pointer → Res Json) (d v : Json), (∀ q d', res q = .ok d' → Stands inp pre.points q d') ∧ Stands inp pre.points pN d ∧
      Expansion { exp := pre.exports, res := res, ord := fun _ l => l } d v ∧
      getAt out [.key b!"components", .key b!"schemas", .key b!"Node"] = some v :=
  C73_component (L := [.key b!"paths", .key b!"/n", .key b!"get", .key b!"schema"]) (x := xN) (p := pN)
    (e := ⟨.schema, b!"Node", Pointer.newGoLoose b!"ex.org/p" b!"Node"⟩)
    input_ok schemas_ok orders_ok prepared resolvable one_shortest defaults_ok
    ⟨by decide, parse_N.1, by decide⟩ (by decide +kernel)

/-- The same scan with a default operation that refers to `Node`. -/
def inp2 : Input Int := { inp with defops := [(b!"*", .obj [(b!"responses", refObj xN)])] }

theorem defaults2_ok : DefaultsOK inp2 pre.doc where
  items := defaults_ok.items
  plain := defaults_ok.plain
  defs := by
    intro d hd
    rw [show inp2.defops = [_] from rfl, List.mem_singleton] at hd
    subst hd
    exact ⟨wfB_sound _ (by decide), _, rfl, by decide⟩
  nodots := by
    intro P M a h hh
    rcases only_op h with ⟨rfl, rfl, _⟩ | ⟨rfl, rfl, _⟩
    · decide
    · exact absurd rfl hh
  answers := fun _ _ _ _ _ _ => ⟨_, rfl⟩
  objects := fun P M a h => .inr (.inr (op_obj h))
  agree := by
    intro P M a h
    rcases only_op h with ⟨rfl, rfl, _⟩ | ⟨rfl, rfl, _⟩
    · rw [show hits inp2.matches_ inp2.defops _ _ = [.obj [(b!"responses", refObj xN)]] from rfl]
      simp
    · rw [show hits inp2.matches_ inp2.defops _ _ = [] from rfl]
      simp

theorem input2_ok : InputOK inp2 := ⟨input_ok.graph, input_ok.paths, input_ok.prog, input_ok.files, input_ok.commands⟩
theorem schemas2_ok : SchemasOK inp2 := ⟨schemas_ok.tags, schemas_ok.std, schemas_ok.zero, schemas_ok.nums, schemas_ok.ints⟩
theorem orders2_ok : OrdersOK inp2 ScanEx.orders := by
  obtain ⟨h1, h2, h3, h4, h5, h6, h7, h8, h9, h10, h11, h12, h13⟩ := orders_ok
  exact ⟨h1, h2, h3, h4, h5, h6, h7, h8, h9, h10, h11, h12, h13⟩
/-- What is resolvable does not depend on the default operations. -/
theorem resolvable_defops {inp : Input Int} {o : Orders} {pre : Prepared} (h : Resolvable inp o pre) (l : List (Str × Json)) :
    Resolvable { inp with defops := l } o pre where
  names := h.names
  apart := h.apart
  receives := h.receives
  doc := ⟨h.doc.tidy, h.doc.bare, h.doc.parses, h.doc.known⟩
  overrides := fun e he => ⟨(h.overrides e he).tidy, (h.overrides e he).bare, (h.overrides e he).parses, (h.overrides e he).known⟩
  types := fun p u h1 h2 h3 => ⟨(h.types p u h1 h2 h3).ok, (h.types p u h1 h2 h3).names, (h.types p u h1 h2 h3).numbers⟩
  cycles := h.cycles

/-- C75 applies: although `Node` is exported, the reference to it from the default operation stays external. -/
example : ∃ out N, (∀ o', OrdersOK inp2 o' → ∀ fuel, N ≤ fuel → scan inp2 o' fuel = .ret (some out) (some .decode)) ∧
    getAt out [.key b!"paths", .key b!"/n", .key b!"get", .key b!"responses", .key refKey] = some (.str b!"go://ex.org/p#/Node") :=
  C75_default_references_stay (P := b!"/n") (M := b!"get") (L := []) (k := b!"responses")
    (m := [(b!"also", refObj xY), (b!"schema", refObj xN)]) (d := .obj [(b!"responses", refObj xN)])
    input2_ok schemas2_ok orders2_ok prepared (resolvable_defops resolvable _) one_shortest defaults2_ok rfl
    (fun x p h => by
      have := h.1
      rw [show getAt pre.doc ([.key b!"paths", .key b!"/n", .key b!"get"] ++ [.key refKey]) = none by decide] at this
      cases this)
    (List.mem_singleton.2 rfl) (by decide) (by decide)

end Oapi.Props.WholeEx
