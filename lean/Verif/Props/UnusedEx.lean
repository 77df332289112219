import Verif.Props.Unused
import Verif.Props.DefRefsEx

/-! C76 applies to documents with and without a reference to an exported component. -/
namespace Oapi.Props
open Spec
open Scan (Input Orders Prepared prepare scan cfg)

namespace UnusedEx
/-- A document that refers to nothing. -/
def doc : Json := .obj [(b!"info", .obj [(b!"title", .str b!"T"), (b!"version", .str [])])]

theorem no_ref {L x p} : ¬ RefAt doc L x p := by
  intro h
  have := h.mem
  rw [show refsB doc = [] by decide] at this
  cases this

theorem no_reach {p} (h : Reach Ex.cfg doc p) : False := by
  induction h with
  | doc h => exact no_ref h
  | step _ _ ih => exact ih

theorem setting : Setting Ex.cfg doc where
  good := ⟨Ex.setting.good.names, Ex.setting.good.apart, fun p q h => (no_reach h).elim, fun p d h => (no_reach h).elim, Ex.setting.good.ord⟩
  tidy := tidy_of_checks (by decide) (by decide) (by decide)
  receives := by
    intro e he
    rw [show Ex.cfg.exp = [⟨.schema, b!"A", Ex.pA⟩] from rfl, List.mem_singleton] at he
    subst he
    refine ⟨by decide, fun L hL => ⟨fun v hv => ?_, fun x p h => no_ref h⟩⟩
    obtain ⟨t, ht⟩ := hL
    cases L with
    | nil => cases hv; exact ⟨_, rfl⟩
    | cons a L =>
      have : a = Step.key b!"components" := by
        rw [compLoc, List.cons_append] at ht; injection ht
      subst this
      simp only [doc, getAt, child, Obj.lookup] at hv
      rw [if_neg (by decide)] at hv
      cases hv
  bare := fun x p h => no_ref h
  bares := fun p d h => (no_reach h).elim

theorem solvable : Solvable Ex.cfg doc [] where
  finite := fun p h => (no_reach h).elim
  resolves := fun p h => (no_reach h).elim
  parses := by
    intro x h
    rcases h with h | ⟨p, d, h, _⟩
    · have := hasRef_mem h
      rw [show refsB doc = [] by decide] at this
      cases this
    · exact (no_reach h).elim

theorem cycles : CyclesExported Ex.cfg doc := by
  have hw : ∀ pp j, Walk Ex.cfg doc pp j → j = doc := by
    intro pp j h
    induction h with
    | top => rfl
    | step _ hr _ _ ih => subst ih; exact (no_ref hr).elim
  intro pp j L x p h hr _
  rw [hw pp j h] at hr
  exact (no_ref hr).elim
end UnusedEx

/-- The exported `A`, to which nothing refers, does not get into the document. -/
example {r : Json} (h : Resolver.resolve Ex.cfg 3 UnusedEx.doc = .ok r) : getAt r [.key b!"components", .key b!"schemas", .key b!"A"] = none := by
  have := C76_component_iff_met UnusedEx.setting UnusedEx.cycles UnusedEx.solvable h (e := ⟨.schema, b!"A", Ex.pA⟩) (List.mem_singleton.2 rfl)
  cases hv : getAt r [.key b!"components", .key b!"schemas", .key b!"A"] with
  | none => rfl
  | some v =>
    obtain ⟨p, _, hp, _⟩ := this.1 ⟨v, hv⟩
    exact (UnusedEx.no_reach hp).elim

/-- `Node`, to which a path refers, does. -/
example : ∃ out N, (∀ o', OrdersOK WholeEx.inp o' → ∀ fuel, N ≤ fuel → scan WholeEx.inp o' fuel = .ret (some out) (some .decode)) ∧
    ∃ v, getAt out [.key b!"components", .key b!"schemas", .key b!"Node"] = some v := by
  obtain ⟨out, N, h, hiff⟩ := C76_scan_has_exactly_the_components_met WholeEx.input_ok WholeEx.schemas_ok WholeEx.orders_ok WholeEx.prepared
    WholeEx.resolvable WholeEx.one_shortest WholeEx.defaults_ok (e := ⟨.schema, b!"Node", Pointer.newGoLoose b!"ex.org/p" b!"Node"⟩)
    (List.mem_singleton.2 rfl)
  refine ⟨out, N, h, hiff.2 ⟨WholeEx.pN, _, .doc (L := [.key b!"paths", .key b!"/n", .key b!"get", .key b!"schema"]) (x := WholeEx.xN)
    ⟨by decide, WholeEx.parse_N.1, by decide⟩, ?_, rfl⟩⟩
  decide +kernel

end Oapi.Props
