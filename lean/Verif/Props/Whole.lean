import Verif.Proofs.Fuel
import Verif.Proofs.Det11

/-! C65: whole scans. -/
namespace Oapi.Props
open Spec
open Scan (Input Orders Prepared prepare scan cfg)

variable {F : Type} {inp : Input F} {o : Orders} {pre : Prepared}

/-- C65: if the merged document, the overrides and the default operations are usable, all types that are needed have schemas and one
shortest pointer, and what refers to itself is exported, then there is one document that every scan returns, in whatever order Go iterates its
maps.  In this document every reference is a local one that an author wrote into the merged document or into an override, or a local reference
to an exported component that the document has, or comes from a default operation. -/
theorem C65_one_document (hi : InputOK inp) (hs : SchemasOK inp) (ho : OrdersOK inp o) (hp : prepare inp o = .ok pre)
    (hr : Resolvable inp o pre) (h1 : OneShortest inp.prog.env pre.points) (hd : DefaultsOK inp pre.doc) :
    ∃ out N, (∀ o', OrdersOK inp o' → ∀ fuel, N ≤ fuel → scan inp o' fuel = .ret (some out) (some .decode)) ∧
      ∀ x, HasRef out x →
        (∃ p, Pointer.parse x = .ok p ∧ p.url.scheme = [] ∧ (HasRef pre.doc x ∨ ∃ e ∈ inp.override, HasRef e.2 x)) ∨
        (∃ e ∈ pre.exports, x = localText e ∧ ∃ v, getAt out (compLoc e) = some v) ∨
        ∃ d ∈ inp.defops, HasRef d.2 x := by
  have hset := Scan.scan_setting hi ho hs hp hr
  have hsolv := Scan.scan_solvable hi ho hs hp hr
  obtain ⟨r, out, ⟨n, hn⟩, hfin, hall⟩ := Scan.finish_one hi ho hp hset hr.cycles hsolv h1 hd
  refine ⟨out, _, hall, ?_⟩
  intro x hx
  rcases hfin.refs x hx with hx | hx
  · rcases C33_no_dangling_reference hset.good hset.tidy hset.receives hn hx with ha | ⟨e, he, hxe, v, hv⟩
    · refine .inl ?_
      obtain ⟨p, hpx⟩ := hsolv.parses x ha
      obtain ⟨L, hL⟩ := hx
      have hns := C30_no_external_reference hset hn L x p hL hpx
      refine ⟨p, hpx, hns, ?_⟩
      rcases ha with ha | ⟨q, d, hR, hres, ha⟩
      · exact .inl ha
      · refine .inr ?_
        obtain ⟨runs', hsc⟩ := Scan.prepare_scanned hi ho hp
        have hinv := Types.scan_inv hi.prog hsc
        rcases Scan.known_cases hinv (Scan.reach_known hi ho hs hp hr hR) with ⟨d', k1, k2⟩ | ⟨k1, k2, u, k3⟩
        · change Scan.resolveFn inp o pre.points q = .ok d at hres
          unfold Scan.resolveFn at hres
          rw [k2] at hres
          cases hres
          exact ⟨_, k1, ha⟩
        · obtain ⟨d', m1, m2, m3, m4⟩ := Scan.resolves_fit hi ho hs hp k3 (hr.types q u hR k1 k3) k1 k2
          change Scan.resolveFn inp o pre.points q = .ok d at hres
          rw [hres] at m1
          cases m1
          obtain ⟨L', hL'⟩ := ha
          obtain ⟨_, q', ⟨v, hv⟩, rfl⟩ := m4.refs hL'
          obtain ⟨pkg, f, t, hg, _⟩ := hinv.pts v q' hv
          obtain ⟨p', a1, a2, _⟩ := hg.parses hi.prog
          rw [hpx] at a1
          cases a1
          rw [hns] at a2
          cases a2
    · refine .inr (.inl ⟨e, he, hxe, v, ?_⟩)
      rw [← hv]
      exact hfin.rest _ _ (by decide)
  · exact .inr (.inr hx)

/-- C65: so, if no default operation has an external reference, the document has none. -/
theorem C65_no_external_reference (hi : InputOK inp) (hs : SchemasOK inp) (ho : OrdersOK inp o) (hp : prepare inp o = .ok pre)
    (hr : Resolvable inp o pre) (h1 : OneShortest inp.prog.env pre.points) (hd : DefaultsOK inp pre.doc)
    (hdef : ∀ d ∈ inp.defops, ∀ x p, HasRef d.2 x → ¬ ExtRef x p) (hper : ∀ e ∈ pre.exports, (37 : UInt8) ∉ e.name) :
    ∃ out N, (∀ o', OrdersOK inp o' → ∀ fuel, N ≤ fuel → scan inp o' fuel = .ret (some out) (some .decode)) ∧
      ∀ x p, HasRef out x → Pointer.parse x = .ok p → p.url.scheme = [] := by
  obtain ⟨out, N, h, hrefs⟩ := C65_one_document hi hs ho hp hr h1 hd
  refine ⟨out, N, h, ?_⟩
  intro x p hx hpx
  rcases hrefs x hx with ⟨p', h1, h2, _⟩ | ⟨e, he, rfl, _⟩ | ⟨d, hdm, hdx⟩
  · rw [hpx] at h1; cases h1; exact h2
  · obtain ⟨p', h1, h2, _⟩ := C33_local_text_denotes_the_component (hr.names e he) (hper e he)
    rw [hpx] at h1; cases h1; exact h2
  · by_cases hz : p.url.scheme = []
    · exact hz
    · exact absurd ⟨hpx, hz⟩ (hdef d hdm x p hdx)

/-- C65: what is outside of `paths` and neither at, above or below a reference or an exported component is as it was merged. -/
theorem C65_rest_unchanged (hi : InputOK inp) (hs : SchemasOK inp) (ho : OrdersOK inp o) (hp : prepare inp o = .ok pre)
    (hr : Resolvable inp o pre) (h1 : OneShortest inp.prog.env pre.points) (hd : DefaultsOK inp pre.doc) :
    ∃ out N, (∀ o', OrdersOK inp o' → ∀ fuel, N ≤ fuel → scan inp o' fuel = .ret (some out) (some .decode)) ∧
      ∀ k L, k ≠ b!"paths" → (∀ R x p, RefAt pre.doc R x p → Apart (.key k :: L) R) → (∀ e ∈ pre.exports, Apart (.key k :: L) (compLoc e)) →
        getAt out (.key k :: L) = getAt pre.doc (.key k :: L) := by
  have hset := Scan.scan_setting hi ho hs hp hr
  obtain ⟨r, out', ⟨n, hn⟩, hfin, hall⟩ := Scan.finish_one hi ho hp hset hr.cycles (Scan.scan_solvable hi ho hs hp hr) h1 hd
  refine ⟨out', _, hall, ?_⟩
  intro k L hk hR he
  rw [hfin.rest k L hk]
  exact C32_rest_unchanged hset.good hset.tidy hset.receives hn hR he

/-- C73: the document of a scan, completely: the merged document in which every reference to something exported has become a local reference
and every other reference what stands for it (with its own references replaced likewise), with one component for each exported pointer that is
met, and with the gaps of the operations filled by the default operations that match them. -/
theorem C73_document (hi : InputOK inp) (hs : SchemasOK inp) (ho : OrdersOK inp o) (hp : prepare inp o = .ok pre)
    (hr : Resolvable inp o pre) (h1 : OneShortest inp.prog.env pre.points) (hd : DefaultsOK inp pre.doc) :
    ∃ out N, (∀ o', OrdersOK inp o' → ∀ fuel, N ≤ fuel → scan inp o' fuel = .ret (some out) (some .decode)) ∧
      ∃ (res : Pointer → Res Json) (D : Json) (T : List (Resolver.Export × Json)) (defops' : List (Str × Json)),
        let cfg : Resolver.Cfg := { exp := pre.exports, res := res, ord := fun _ l => l }
        (∀ p d, res p = .ok d → Stands inp pre.points p d) ∧
        Expansion cfg pre.doc D ∧
        (T.map fun t => compLoc t.1).Nodup ∧
        (∀ e v, (e, v) ∈ T ↔ ∃ p d, Reach cfg pre.doc p ∧ Resolver.get pre.exports p = some e ∧ res p = .ok d ∧ Expansion cfg d v) ∧
        defops'.Perm inp.defops ∧
        OpsRelated (fun P M a b => OpOutcome (hits inp.matches_ defops' P M) a b) (addComponents T D) out := by
  have hset := Scan.scan_setting hi ho hs hp hr
  have hsolv := Scan.scan_solvable hi ho hs hp hr
  obtain ⟨r, out, ⟨n, hn⟩, hfin, hall⟩ := Scan.finish_one hi ho hp hset hr.cycles hsolv h1 hd
  obtain ⟨D, T, rfl, k1, k2, k3⟩ := C31_result_is_the_expansion hset hr.cycles hn
  obtain ⟨defops', hperm, hops⟩ := hfin.ops
  refine ⟨out, _, hall, (cfg inp o pre).res, D, T, defops', fun p d h => Scan.resolveFn_stands hi ho hs hp h,
    expansion_ord' (cfg := cfg inp o pre) _ k1, k2, ?_, hperm, hops⟩
  intro e v
  rw [k3]
  constructor
  · rintro ⟨p, d, a1, a2, a3, a4⟩
    exact ⟨p, d, reach_ord' (cfg := cfg inp o pre) _ a1, a2, a3, expansion_ord' (cfg := cfg inp o pre) _ a4⟩
  · rintro ⟨p, d, a1, a2, a3, a4⟩
    exact ⟨p, d, reach_ord (cfg := cfg inp o pre) a1, a2, a3, expansion_ord (cfg := cfg inp o pre) a4⟩

/-- C73: in particular, at its place among the components the document has, for each exported pointer that is met, what stands for it, with
its references replaced. -/
theorem C73_component (hi : InputOK inp) (hs : SchemasOK inp) (ho : OrdersOK inp o) (hp : prepare inp o = .ok pre)
    (hr : Resolvable inp o pre) (h1 : OneShortest inp.prog.env pre.points) (hd : DefaultsOK inp pre.doc) {L : Loc} {x : Str} {p : Pointer}
    {e : Resolver.Export} (hx : RefAt pre.doc L x p) (he : Resolver.get pre.exports p = some e) :
    ∃ out N, (∀ o', OrdersOK inp o' → ∀ fuel, N ≤ fuel → scan inp o' fuel = .ret (some out) (some .decode)) ∧
      ∃ (res : Pointer → Res Json) (d v : Json), (∀ q d', res q = .ok d' → Stands inp pre.points q d') ∧ Stands inp pre.points p d ∧
        Expansion { exp := pre.exports, res := res, ord := fun _ l => l } d v ∧ getAt out (compLoc e) = some v := by
  have hset := Scan.scan_setting hi ho hs hp hr
  have hsolv := Scan.scan_solvable hi ho hs hp hr
  obtain ⟨r, out, ⟨n, hn⟩, hfin, hall⟩ := Scan.finish_one hi ho hp hset hr.cycles hsolv h1 hd
  refine ⟨out, _, hall, (cfg inp o pre).res, ?_⟩
  obtain ⟨d, hd'⟩ := hsolv.resolves p (.doc hx)
  obtain ⟨v, hv, hg⟩ := Resolver.component_is hset hr.cycles hn (.doc hx) he hd'
  refine ⟨d, v, fun q d' h => Scan.resolveFn_stands hi ho hs hp h, Scan.resolveFn_stands hi ho hs hp hd', expansion_ord' (cfg := cfg inp o pre) _ hv, ?_⟩
  rw [← hg]
  exact hfin.rest _ _ (by decide)

/-- C65: where the stack suffices for a document, more of it changes nothing. -/
theorem C65_more_stack {n m : Nat} (h : n ≤ m) {c : Json} {e : Option Err} (hr : scan inp o n = .ret (some c) e) : scan inp o m = .ret (some c) e :=
  Scan.scan_more h hr

end Oapi.Props
