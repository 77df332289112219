import Verif.Proofs.GoWhole
import Verif.Spec.GoWhole
import Verif.Props.GoTypes
import Verif.Props.GoScan

/-! C116: whole scans with all their memory: the containers and one type scanner, which the resolver asks again and again and which changes each time. -/
namespace Oapi.Props
open Spec Scan

section
variable {F : Type} {inp : Input F} {o : Orders} {mo : GoHeap.MOrders} {pre : Prepared} {rt : GoWhole.Rt}

/-- How one pointer is resolved in memory, given that its schema is the one that the scan over values has. -/
theorem answer {m : Types.PMap} {I : GoTypes.TSt → Prop} {o' : Orders}
    (h : ∀ p st n, I st → I (GoTypes.resolve (GoWhole.conf inp rt) (rt.it n) p st).1 ∧
      (GoTypes.resolve (GoWhole.conf inp rt) (rt.it n) p st).2 = Types.resolve (ctx inp o' m p.toStr) p) (p : Pointer) (t : GoTypes.TSt × Nat) (ht : I t.1) :
    I (GoWhole.resolveFn inp rt p t).1.1 ∧ (GoWhole.resolveFn inp rt p t).2 = resolveFn inp o' m p := by
  unfold GoWhole.resolveFn resolveFn
  cases inp.override.lookup p.toStr with
  | some d => exact ⟨ht, rfl⟩
  | none =>
    simp only
    by_cases hg : p.url.scheme = b!"go"
    · simp only [if_pos hg]
      obtain ⟨h1, h2⟩ := h p t.1 t.2 ht
      rw [← h2]
      cases hr : GoTypes.resolve (GoWhole.conf inp rt) (rt.it t.2) p t.1 with
      | mk st r =>
      rw [hr] at h1
      cases r with
      | ok s => exact ⟨h1, rfl⟩
      | err e => exact ⟨h1, rfl⟩
      | panic => exact ⟨h1, rfl⟩
    · simp only [if_neg hg]
      exact ⟨ht, trivial⟩

/-- The points of a preparation in memory are those of one over values. -/
theorem points_prepared (room : Nat) (ho : OrdersOK inp o) (hm : MOrdersOK mo) (hj : DocsOK inp) {b : GoHeap.HPrepared}
    (hb : (GoHeap.prepare room inp o mo ⟨[], []⟩).2 = .ok b) : ∃ o' pre, OrdersOK inp o' ∧ prepare inp o' = .ok pre ∧ pre.points = b.points := by
  obtain ⟨srt, s1, s2⟩ := GoHeap.files_to room ho.sort hm hj
  have := GoHeap.prepare_sim room hm hj s2 o.ops
  change GoHeap.Sim GoHeap.SamePre (GoHeap.prepare room inp o mo ⟨[], []⟩) _ at this
  cases hp : prepare inp { o with sort := srt, ops := o.ops } with
  | err e => rw [hp] at this; have : _ = Res.err e := this; rw [hb] at this; cases this
  | panic => rw [hp] at this; have : _ = Res.panic := this; rw [hb] at this; cases this
  | ok pre =>
    rw [hp] at this
    obtain ⟨a, d, e, _, h1, h2, _⟩ := this
    rw [hb] at e
    cases e
    obtain ⟨k1, k2, k3, k4, k5, k6, k7, k8, k9, k10, k11, k12, k13⟩ := ho
    exact ⟨{ o with sort := srt, ops := o.ops }, pre, ⟨k1, k2, k3, k4, k5, k6, s1, k8, k9, k10, k11, k12, k13⟩, hp, h2.symm⟩

/-- C116: if the types that schemas refer to have one shortest pointer each, it is not observable that all pointers are resolved with one type
scanner, whose slices are sorted in place and whose paths share arrays: the scan returns what it returns with the points as values. -/
theorem C116_one_scanner (room : Nat) (hi : InputOK inp) (hs : SchemasOK inp) (ho : OrdersOK inp o) (hm : MOrdersOK mo) (hj : DocsOK inp) (hrt : RtOK rt)
    (h1 : ∀ o' pre, OrdersOK inp o' → prepare inp o' = .ok pre → OneShortest inp.prog.env pre.points) (fuel : Nat) :
    GoWhole.scan room inp o mo rt fuel = GoHeap.scan room inp o mo fuel := by
  refine GoWhole.scan_same room fuel rfl fun b st hb ⟨⟨runs, hsc⟩, ok, hc⟩ => ?_
  obtain ⟨o', pre, k1, k2, k3⟩ := points_prepared room ho hm hj hb
  have hone := h1 o' pre k1 k2
  rw [k3] at hone
  have hn := (Types.scan_inv hi.prog hsc).nodup
  refine ⟨fun t => GoTypes.Hist b.points t.1, ⟨ok, by rw [hc]; exact GoTypes.ent_refl _⟩, answer fun p st n hh => ?_⟩
  obtain ⟨g1, mm, s, p1, p2, p3⟩ := GoTypes.resolve_sim (cf := GoWhole.conf inp rt) hrt.srt hn (hrt.it n) p hh
  refine ⟨g1, ?_⟩
  rw [p3]
  exact one_schema (runs := runs) (cx := GoTypes.cxOf (GoWhole.conf inp rt) mm s) (cx' := ctx inp o b.points p.toStr) ⟨hi.prog, rfl, ⟨_, hsc, p1⟩, p2, hs.tags⟩ ⟨hi.prog, rfl, ⟨_, hsc, ho.types _ _⟩, ho.pick _, hs.tags⟩ hsc hone rfl rfl rfl p

/-- C116: the same if shortest pointers are not unique, but `sort.Sort` is steady (as Go's is): then a scan with all its memory returns what a scan
over values returns, for possible orders of Go's maps. -/
theorem C116_steady_sort (room : Nat) (hi : InputOK inp) (ho : OrdersOK inp o) (hm : MOrdersOK mo) (hj : DocsOK inp) (hrt : RtOK rt)
    (hst : Steady rt.srt) (fuel : Nat) : ∃ o', OrdersOK inp o' ∧ GoWhole.scan room inp o mo rt fuel = scan inp o' fuel := by
  have hsf : SortsPoints (rt.srt 0) := hrt.srt 0
  have hi2 : ∀ l, rt.srt 0 (rt.srt 0 l) = rt.srt 0 l := fun l => hst.sorted 0 _ (hsf l).2
  have ho2 : OrdersOK inp { o with types := fun _ l => l, pick := fun _ _ => rt.srt 0 } := by
    obtain ⟨k1, k2, k3, k4, k5, k6, k7, k8, k9, k10, k11, k12, k13⟩ := ho
    exact ⟨k1, k2, k3, k4, k5, k6, k7, k8, fun _ _ => .refl _, fun _ _ => hsf, k11, k12, k13⟩
  have := GoWhole.scan_same (inp := inp) (o := o) (rt := rt) room (mo := mo) fuel (o' := { o with types := fun _ l => l, pick := fun _ _ => rt.srt 0 }) rfl
    (fun b st hb ⟨⟨runs, hsc⟩, ok, hc⟩ => by
      have J := Types.scan_inv hi.prog hsc
      refine ⟨fun t => GoTypes.Still (rt.srt 0) b.points t.1, ⟨⟨ok, by rw [hc]; exact GoTypes.ent_refl _⟩, fun t => by rw [hc]⟩, answer fun p st n hh => ?_⟩
      obtain ⟨g1, mm, p1, p2⟩ := GoTypes.resolve_still (cf := GoWhole.conf inp rt) hsf hi2 (fun i => funext (hst.same i 0)) J.nodup (hrt.it n) p hh
      refine ⟨g1, ?_⟩
      rw [p2]
      unfold Types.resolve
      rw [show (GoTypes.cxOf (GoWhole.conf inp rt) mm fun _ => rt.srt 0).m.findType p = b.points.findType p from J.find_perm p1 p]
      change (match b.points.findType p with | none => _ | some t => _) = match b.points.findType p with | none => _ | some t => _
      cases b.points.findType p with
      | none => rfl
      | some t =>
        refine Types.type2schema_congr (cx := GoTypes.cxOf (GoWhole.conf inp rt) mm fun _ => rt.srt 0)
          (cx' := ctx inp { o with types := fun _ l => l, pick := fun _ _ => rt.srt 0 } b.points p.toStr) rfl rfl rfl rfl ?_ _ _ _ _ _ (by simp)
        intro i u _
        show (rt.srt 0 (mm.at u)).head? = (rt.srt 0 (b.points.at u)).head?
        rw [Types.at_perm J.nodup p1 u])
  rw [this]
  exact C112_in_memory room ho2 hm hj fuel

/-- C116: so a scan with all its memory has one document, and only the references that C65 says: however Go iterates its maps, whatever `sort.Sort` makes
of equal elements, wherever `append` finds room, and in whatever order and how often pointers are resolved. -/
theorem C116_one_document (hi : InputOK inp) (hs : SchemasOK inp) (ho : OrdersOK inp o) (hp : prepare inp o = .ok pre)
    (hr : Resolvable inp o pre) (h1 : OneShortest inp.prog.env pre.points) (hd : DefaultsOK inp pre.doc) (hj : DocsOK inp) :
    ∃ out N, (∀ room o' mo rt, OrdersOK inp o' → MOrdersOK mo → RtOK rt → ∀ fuel, N ≤ fuel →
        GoWhole.scan room inp o' mo rt fuel = .ret (some out) (some .decode)) ∧
      ∀ x, HasRef out x →
        (∃ p, Pointer.parse x = .ok p ∧ p.url.scheme = [] ∧ (HasRef pre.doc x ∨ ∃ e ∈ inp.override, HasRef e.2 x)) ∨
        (∃ e ∈ pre.exports, x = localText e ∧ ∃ v, getAt out (compLoc e) = some v) ∨
        ∃ d ∈ inp.defops, HasRef d.2 x := by
  obtain ⟨out, N, h, hx⟩ := C112_one_document hi hs ho hp hr h1 hd hj
  refine ⟨out, N, fun room o' mo rt ho' hm hrt fuel hf => ?_, hx⟩
  rw [C116_one_scanner room hi hs ho' hm hj hrt ?_ fuel]
  · exact h room o' mo ho' hm fuel hf
  · intro o2 pre2 k1 k2
    obtain ⟨pre', e, hsame⟩ := Scan.prepare_same hi ho k1 hp
    rw [k2] at e
    cases e
    obtain ⟨runs, hr1⟩ := Scan.prepare_scanned hi ho hp
    obtain ⟨runs', hr2⟩ := Scan.prepare_scanned hi k1 k2
    have J := Types.scan_inv hi.prog hr1
    intro u p q hu bp bq
    have tr : ∀ p, BestPoint pre2.points u p → BestPoint pre.points u p := by
      intro p ⟨a1, a2, _⟩
      have a := (hsame.points u p).2 a1
      exact ⟨a, fun r hr => a2 r ((hsame.points u r).1 hr), (J.find p u).2 ⟨p, a, rfl⟩⟩
    exact h1 u p q hu (tr p bp) (tr q bq)

/-- C116: a scan with all its memory does not crash where C99 says that none does (`sort.Sort` being steady). -/
theorem C116_never_crashes (room : Nat) (hi : InputOK inp) (ho : OrdersOK inp o) (hd : DistinctPaths inp) (hsc : SchemasOK inp) (hs : Sound inp)
    (h1 : ¬ AsksForError inp) (h2 : ¬ ScalarSection inp) (h3 : ∀ o' pre, OrdersOK inp o' → prepare inp o' = .ok pre → ¬ DanglingGo inp pre)
    (hm : MOrdersOK mo) (hj : DocsOK inp) (hrt : RtOK rt) (hst : Steady rt.srt) (fuel : Nat) : ∃ d e, GoWhole.scan room inp o mo rt fuel = .ret d (some e) := by
  obtain ⟨o2, k2, k3⟩ := C116_steady_sort room hi ho hm hj hrt hst fuel
  rw [k3]
  exact C99_never_crashes hi k2 hd hsc hs h1 h2 (fun pre => h3 o2 pre k2) fuel

end

/-! The example of C65 with all its memory. -/
namespace GoWholeEx

/-- Arrays get some room; every other call of `sort.Sort` turns equal elements around; every other iteration is backwards. -/
def rt : GoWhole.Rt where
  pathRoom _ := 2
  pointRoom n := n % 3
  srt i l := if i % 2 = 0 then TypesEx.srt l else TypesEx.srt l.reverse
  it n l := if n % 2 = 0 then l else l.reverse

theorem rt_ok : RtOK rt where
  srt := GoTypesEx.sorts'
  it n l := by
    show (if n % 2 = 0 then l else l.reverse).Perm l
    split
    · exact .refl _
    · exact List.reverse_perm l

/-- The scan runs: it resolves pointers with the type scanner in memory, and returns the document of C65. -/
theorem scan_all : GoWhole.scan 1 WholeEx.inp ScanEx.orders backOrders rt 10 = scan WholeEx.inp ScanEx.orders 10 ∧
    GoWhole.scan 1 WholeEx.inp ScanEx.orders backOrders rt 10 ≠ .panic := by decide +kernel

/-- With a sort that is steady. -/
def steadyRt : GoWhole.Rt := { rt with srt := fun _ => TypesEx.srt }

theorem steady_ok : RtOK steadyRt := ⟨fun _ => TypesEx.srt_sorts, rt_ok.it⟩

theorem steady : Steady steadyRt.srt where
  same _ _ _ := rfl
  sorted _ l h := by
    show TypesEx.srt l = l
    induction l with
    | nil => rfl
    | cons a l ih =>
      rw [List.pairwise_cons] at h
      simp only [TypesEx.srt, ih h.2]
      cases l with
      | nil => rfl
      | cons b t => simp only [TypesEx.put, if_pos (h.1 b List.mem_cons_self)]

/-- `type A struct { X int }; type B struct { X int }; type C struct { F A }` and a document with two references to `C`; `A` and `B` are exported. -/
def tieEnv : Types.Env := [⟨some b!"ex.org/p", b!"A", GoTypesEx.tieT⟩, ⟨some b!"ex.org/p", b!"B", GoTypesEx.tieT⟩, ⟨some b!"ex.org/p", b!"C", .struct [({ name := b!"F" }, .named 0)]⟩]
def tieScope (pkg name : Str) : Option Types.GoType :=
  if pkg = b!"ex.org/p" then if name = b!"A" then some (.named 0) else if name = b!"B" then some (.named 1) else if name = b!"C" then some (.named 2) else none else none
def tieSpec : Json := .obj [(b!"openapi", .str b!"3.0.0"), (b!"paths", .obj [(b!"/n", .obj [(b!"get", .obj [
  (b!"one", refObj b!"go://#/C"), (b!"two", refObj b!"go://#/C")])])])]
def tieInp : Input Int := { ScanEx.input b!"go://#/C" with
  files := fun _ => .ok [⟨b!"/src/p/openapi.yaml", tieSpec⟩]
  comments := fun _ => [[b!"//openapi:schema A"], [b!"//openapi:schema B"]]
  prog := ⟨tieEnv, tieScope⟩ }
/-- The type of the property `F` in the two places. -/
def tieRefs : Outcome → List (Option Json)
  | .ret (some d) _ => [b!"one", b!"two"].map fun k => getAt d [.key b!"paths", .key b!"/n", .key b!"get", .key k, .key b!"properties", .key b!"F", .key refKey]
  | _ => []

/-- A condition is needed: with two shortest pointers and nothing but the contract of `sort.Sort`, one document can have two schemas for one type. -/
theorem tie_shows : tieRefs (GoWhole.scan 1 tieInp ScanEx.orders backOrders rt 10) =
      [some (.str b!"#/components/schemas/A"), some (.str b!"#/components/schemas/B")] ∧
    tieRefs (GoWhole.scan 1 tieInp ScanEx.orders backOrders steadyRt 10) =
      [some (.str b!"#/components/schemas/A"), some (.str b!"#/components/schemas/A")] := by decide +kernel

attribute [local irreducible] scan GoHeap.scan GoWhole.scan prepare

/-- C116_one_document applies. -/
example : ∃ out N, ∀ room o' mo rt, OrdersOK WholeEx.inp o' → MOrdersOK mo → RtOK rt → ∀ fuel, N ≤ fuel →
    GoWhole.scan room WholeEx.inp o' mo rt fuel = .ret (some out) (some .decode) := by
  obtain ⟨out, N, h, _⟩ := C116_one_document WholeEx.input_ok WholeEx.schemas_ok WholeEx.orders_ok WholeEx.prepared WholeEx.resolvable
    WholeEx.one_shortest WholeEx.defaults_ok docs_ok
  exact ⟨out, N, h⟩

/-- C116_steady_sort applies. -/
example : ∃ o', OrdersOK WholeEx.inp o' ∧ GoWhole.scan 1 WholeEx.inp ScanEx.orders backOrders steadyRt 10 = scan WholeEx.inp o' 10 :=
  C116_steady_sort 1 WholeEx.input_ok WholeEx.orders_ok backOrders_ok docs_ok steady_ok steady 10

end GoWholeEx
end Oapi.Props
