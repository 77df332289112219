import Verif.Props.Whole
import Verif.Proofs.Det13

/-! C76: which components a document has. -/
namespace Oapi.Props
open Spec
open Scan (Input Orders Prepared prepare scan cfg)

/-- C76: after resolving, the document has an exported component exactly if a reference, in the document or in what references stand for,
leads to a pointer exported under its name. -/
theorem C76_component_iff_met {cfg : Resolver.Cfg} {c r : Json} {n : Nat} {U : List Str} (hs : Setting cfg c) (hcyc : CyclesExported cfg c)
    (hsolv : Solvable cfg c U) (h : Resolver.resolve cfg n c = .ok r) {e : Resolver.Export} (he : e ∈ cfg.exp) :
    (∃ v, getAt r (compLoc e) = some v) ↔ ∃ p e', Reach cfg c p ∧ Resolver.get cfg.exp p = some e' ∧ compLoc e' = compLoc e :=
  Resolver.component_iff hs hcyc hsolv.resolves h he

variable {F : Type} {inp : Input F} {o : Orders} {pre : Prepared}

/-- C76: so the document of a scan lacks the components of `openapi:schema` comments that nothing refers to, and has all others. -/
theorem C76_scan_has_exactly_the_components_met (hi : InputOK inp) (hs : SchemasOK inp) (ho : OrdersOK inp o) (hp : prepare inp o = .ok pre)
    (hr : Resolvable inp o pre) (h1 : OneShortest inp.prog.env pre.points) (hd : DefaultsOK inp pre.doc) {e : Resolver.Export} (he : e ∈ pre.exports) :
    ∃ out N, (∀ o', OrdersOK inp o' → ∀ fuel, N ≤ fuel → scan inp o' fuel = .ret (some out) (some .decode)) ∧
      ((∃ v, getAt out (compLoc e) = some v) ↔
        ∃ p e', Reach (cfg inp o pre) pre.doc p ∧ Resolver.get pre.exports p = some e' ∧ compLoc e' = compLoc e) := by
  have hset := Scan.scan_setting hi ho hs hp hr
  have hsolv := Scan.scan_solvable hi ho hs hp hr
  obtain ⟨r, out, ⟨n, hn⟩, hfin, hall⟩ := Scan.finish_one hi ho hp hset hr.cycles hsolv h1 hd
  refine ⟨out, _, hall, ?_⟩
  rw [show getAt out (compLoc e) = getAt r (compLoc e) from hfin.rest _ _ (by decide)]
  exact C76_component_iff_met hset hr.cycles hsolv hn he

end Oapi.Props
