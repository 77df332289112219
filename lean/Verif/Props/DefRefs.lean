import Verif.Props.Whole
import Verif.Proofs.Det12

/-! C75: what default operations bring into the document is not resolved. -/
namespace Oapi.Props
open Spec OAPI
open Scan (Input Orders Prepared prepare scan cfg)

/-- C75: a value of a default operation that belongs to a member the operation lacks is in the result as it is. -/
theorem C75_default_values_are_copied {mt : Str → Str → Str → Res Bool} {c : Obj} (hw : Json.WF (.obj c)) {defops : List (Str × Json)}
    (hnd : NoDots mt defops (.obj c)) (hd : ∀ d ∈ defops, Json.WF d.2 ∧ NamedKeys d.2) {out : Json}
    (h : SetPathsDefaults mt (.obj c) defops (.ok out)) {P M : Str} {m : Obj} (hop : opAt (.obj c) P M = some (.obj m))
    (hagree : (hits mt defops P M).Pairwise fun x y => ¬ Conflict x y) {d : Json} (hm : d ∈ hits mt defops P M) {k : Str}
    (hk : Obj.lookup k m = none) {L : Loc} {v : Json} (hv : getAt d (.key k :: L) = some v) (hobj : ∀ m, v ≠ .obj m) :
    getAt out ([.key b!"paths", .key P, .key M] ++ .key k :: L) = some v := by
  obtain ⟨defops', hperm, _, hops⟩ := C23_defaults_fill_gaps hw hnd hd h
  obtain ⟨b, hb, hout⟩ := opAt_related hops hop
  rw [getAt_append, show getAt out [.key b!"paths", .key P, .key M] = some b from hb]
  refine outcome_value hout (hits_perm hperm P M) (Container.getAt_WF hw hop) hm ?_ hagree hk hv hobj
  intro d hd'
  obtain ⟨k, hk⟩ := Scan.mem_hits hd'
  obtain ⟨h1, m, h2, _⟩ := hd _ hk
  exact ⟨h1, m, h2⟩

variable {F : Type} {inp : Input F} {o : Orders} {pre : Prepared}

/-- C75: so a reference that a default operation brings to an operation stays in the document of every scan as it was written, even if it
is one that the resolver would replace anywhere else. -/
theorem C75_default_references_stay (hi : InputOK inp) (hs : SchemasOK inp) (ho : OrdersOK inp o) (hp : prepare inp o = .ok pre)
    (hr : Resolvable inp o pre) (h1 : OneShortest inp.prog.env pre.points) (hd : DefaultsOK inp pre.doc) {P M : Str} {m : Obj}
    (hop : opAt pre.doc P M = some (.obj m)) (hno : ∀ x p, ¬ RefAt pre.doc [.key b!"paths", .key P, .key M] x p)
    {d : Json} (hm : d ∈ hits inp.matches_ inp.defops P M) {k : Str} (hk : Obj.lookup k m = none) {L : Loc} {x : Str}
    (hx : getAt d (.key k :: L ++ [.key refKey]) = some (.str x)) :
    ∃ out N, (∀ o', OrdersOK inp o' → ∀ fuel, N ≤ fuel → scan inp o' fuel = .ret (some out) (some .decode)) ∧
      getAt out ([.key b!"paths", .key P, .key M] ++ .key k :: L ++ [.key refKey]) = some (.str x) := by
  have hset := Scan.scan_setting hi ho hs hp hr
  have hsolv := Scan.scan_solvable hi ho hs hp hr
  obtain ⟨r, out, ⟨n, hn⟩, hfin, hall⟩ := Scan.finish_one hi ho hp hset hr.cycles hsolv h1 hd
  refine ⟨out, _, hall, ?_⟩
  obtain ⟨c, ps, it, e1, e2, e3, e4⟩ := opAt_of hop
  have hpre : ∀ p, p <+: [Step.key b!"paths", .key P, .key M] → ∀ x q, ¬ RefAt pre.doc p x q := by
    intro p hp
    obtain ⟨s, hs⟩ := hp
    match p, hs with
    | [], _ => exact hset.bare
    | [a], hs =>
      simp only [List.cons_append, List.nil_append, List.cons.injEq] at hs
      obtain ⟨rfl, _⟩ := hs
      intro x q hr
      have := hset.tidy.single _ _ _ hr
      rw [e1] at this
      simp only [getAt, child, e2] at this
      cases this
      simp only [Obj.lookup] at e3
      split at e3 <;> cases e3
    | [a, b], hs =>
      simp only [List.cons_append, List.nil_append, List.cons.injEq] at hs
      obtain ⟨rfl, rfl, _⟩ := hs
      exact hd.plain P
    | [a, b, e], hs =>
      simp only [List.cons_append, List.nil_append, List.cons.injEq] at hs
      obtain ⟨rfl, rfl, rfl, _⟩ := hs
      exact hno
    | a :: b :: e :: f :: p, hs => simp at hs
  obtain ⟨m', hr', hkeys⟩ := Resolver.resolved_op hset.good hset.tidy hset.receives hn hop hpre
  obtain ⟨defops', hperm, hops⟩ := hfin.ops
  obtain ⟨b, hb, hout⟩ := opAt_related hops hr'
  obtain ⟨_, hw⟩ := Resolver.resolved_paths hset.good hset.tidy hset.receives hset.bare hd.items hd.plain hn
  have hk' : Obj.lookup k m' = none := by
    cases hl : Obj.lookup k m' with
    | none => rfl
    | some v =>
      have := (Obj.mem_keys_iff _ _).2 ⟨_, hl⟩
      rw [hkeys] at this
      obtain ⟨v', hv'⟩ := (Obj.mem_keys_iff _ _).1 this
      rw [hk] at hv'
      cases hv'
  rw [List.append_assoc, getAt_append, show getAt out [.key b!"paths", .key P, .key M] = some b from hb]
  refine outcome_value hout (hits_perm hperm P M) (Container.getAt_WF hw hr') hm ?_ (hd.agree P M _ hop) hk' hx (by intro m h; cases h)
  intro d hd'
  obtain ⟨k, hk⟩ := Scan.mem_hits hd'
  obtain ⟨h1, m, h2, _⟩ := hd.defs _ hk
  exact ⟨h1, m, h2⟩

end Oapi.Props
