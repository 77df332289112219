import Verif.Proofs.GoHeap17
import Verif.Props.Crash
import Verif.Props.WholeEx
import Verif.Props.GoMerge

/-! C112: scans in memory.  All stages of `Scan` work on containers that share maps and slices, and change them in place; documents as values
are an exact account of it. -/
namespace Oapi.Props
open Spec Scan

section
variable {F : Type} {inp : Input F} {o : Orders} {mo : GoHeap.MOrders} {pre : Prepared}

/-- C112: whatever a scan comes back with in memory, with its containers changed in place, a scan over documents as values comes back with, for
possible orders of Go's maps. -/
theorem C112_in_memory (room : Nat) (ho : OrdersOK inp o) (hm : MOrdersOK mo) (hd : DocsOK inp) (fuel : Nat) :
    ∃ o', OrdersOK inp o' ∧ GoHeap.scan room inp o mo fuel = scan inp o' fuel := by
  obtain ⟨srt, ops, h1, h2, h3⟩ := GoHeap.scan_to room ho hm hd fuel
  obtain ⟨k1, k2, k3, k4, k5, k6, k7, k8, k9, k10, k11, k12, k13⟩ := ho
  exact ⟨{ o with sort := srt, ops := ops }, ⟨k1, k2, k3, k4, k5, k6, h1, k8, k9, k10, k11, h2, k13⟩, h3⟩

/-- C112: and the other way round: whatever a scan over values comes back with, a scan in memory can come back with. -/
theorem C112_as_documents (room : Nat) (ho : OrdersOK inp o) (hm : MOrdersOK mo) (hd : DocsOK inp) (fuel : Nat) :
    ∃ mo', MOrdersOK mo' ∧ GoHeap.scan room inp o mo' fuel = scan inp o fuel := GoHeap.scan_from room ho hm hd fuel

/-- C112: so a scan in memory has one document, too, and only the references that C65 says, however Go iterates its maps, wherever `append`
finds room and whatever shares memory with what. -/
theorem C112_one_document (hi : InputOK inp) (hs : SchemasOK inp) (ho : OrdersOK inp o) (hp : prepare inp o = .ok pre)
    (hr : Resolvable inp o pre) (h1 : OneShortest inp.prog.env pre.points) (hd : DefaultsOK inp pre.doc) (hj : DocsOK inp) :
    ∃ out N, (∀ room o' mo, OrdersOK inp o' → MOrdersOK mo → ∀ fuel, N ≤ fuel → GoHeap.scan room inp o' mo fuel = .ret (some out) (some .decode)) ∧
      ∀ x, HasRef out x →
        (∃ p, Pointer.parse x = .ok p ∧ p.url.scheme = [] ∧ (HasRef pre.doc x ∨ ∃ e ∈ inp.override, HasRef e.2 x)) ∨
        (∃ e ∈ pre.exports, x = localText e ∧ ∃ v, getAt out (compLoc e) = some v) ∨
        ∃ d ∈ inp.defops, HasRef d.2 x := by
  obtain ⟨out, N, h, hx⟩ := C65_one_document hi hs ho hp hr h1 hd
  refine ⟨out, N, fun room o' mo ho' hm fuel hf => ?_, hx⟩
  obtain ⟨o2, h2, h3⟩ := C112_in_memory room ho' hm hj fuel
  rw [h3]
  exact h o2 h2 fuel hf

/-- C112: a scan in memory does not crash where C99 says that none does. -/
theorem C112_never_crashes (room : Nat) (hi : InputOK inp) (ho : OrdersOK inp o) (hd : DistinctPaths inp) (hsc : SchemasOK inp) (hs : Sound inp)
    (h1 : ¬ AsksForError inp) (h2 : ¬ ScalarSection inp) (h3 : ∀ o' pre, OrdersOK inp o' → prepare inp o' = .ok pre → ¬ DanglingGo inp pre)
    (hm : MOrdersOK mo) (hj : DocsOK inp) (fuel : Nat) : ∃ d e, GoHeap.scan room inp o mo fuel = .ret d (some e) := by
  obtain ⟨o2, k2, k3⟩ := C112_in_memory room ho hm hj fuel
  rw [k3]
  exact C99_never_crashes hi k2 hd hsc hs h1 h2 (fun pre => h3 o2 pre k2) fuel

/-- C112: and ends: there is a depth of recursion that suffices for every scan in memory. -/
theorem C112_ends (hi : InputOK inp) (hd : DistinctPaths inp) (hsc : SchemasOK inp) (hs : Sound inp) (hj : DocsOK inp) :
    ∃ N, ∀ room o mo, OrdersOK inp o → MOrdersOK mo → ∀ fuel, N ≤ fuel → ∃ o', OrdersOK inp o' ∧ ∀ fuel', N ≤ fuel' → GoHeap.scan room inp o mo fuel = scan inp o' fuel' := by
  obtain ⟨N, h⟩ := C99_ends hi hd hsc hs
  refine ⟨N, fun room o mo ho hm fuel hf => ?_⟩
  obtain ⟨o2, k2, k3⟩ := C112_in_memory room ho hm hj fuel
  obtain ⟨out, h'⟩ := h o2 k2
  exact ⟨o2, k2, fun fuel' hf' => by rw [k3, h' fuel hf, h' fuel' hf']⟩

end

/-! The example of C65, in memory: maps are visited backwards, the operations too. -/

/-- Sorting files by path. -/
def putCont (a : GoHeap.HFile) : List GoHeap.HFile → List GoHeap.HFile
  | [] => [a]
  | b :: l => if Str.lt b.path a.path then b :: putCont a l else a :: b :: l
def sortConts : List GoHeap.HFile → List GoHeap.HFile
  | [] => []
  | a :: l => putCont a (sortConts l)

/-- The last member of every map comes first. -/
def backOrders : GoHeap.MOrders where
  sort := sortConts
  merge _ := backwards
  root _ _ := backwards
  ops := List.reverse

theorem putCont_perm (a : GoHeap.HFile) : ∀ l, (putCont a l).Perm (a :: l)
  | [] => .refl _
  | b :: l => by
    unfold putCont
    split
    · exact ((putCont_perm a l).cons b).trans (.swap _ _ _)
    · exact .refl _

theorem putCont_sorted (a : GoHeap.HFile) (l : List GoHeap.HFile) (h : l.Pairwise fun x y => Str.lt y.path x.path = false) :
    (putCont a l).Pairwise fun x y => Str.lt y.path x.path = false := by
  induction l with
  | nil => simp [putCont]
  | cons b l ih =>
    rw [List.pairwise_cons] at h
    simp only [putCont]
    split
    · rename_i hab
      rw [List.pairwise_cons]
      refine ⟨fun x hx => ?_, ih h.2⟩
      rw [(putCont_perm a l).mem_iff, List.mem_cons] at hx
      rcases hx with rfl | hx
      · exact Str.lt_asymm hab
      · exact h.1 x hx
    · rename_i hab
      rw [List.pairwise_cons]
      refine ⟨fun x hx => ?_, List.pairwise_cons.2 h⟩
      rw [List.mem_cons] at hx
      rcases hx with rfl | hx
      · simpa using hab
      · cases hc : Str.lt x.path a.path with
        | false => rfl
        | true =>
          by_cases hbx : b.path = x.path
          · rw [← hbx] at hc; exact absurd hc hab
          · cases h1 : Str.lt b.path x.path with
            | true => exact absurd (Str.lt_trans h1 hc) hab
            | false => exact absurd (h.1 x hx) (by rw [Str.lt_tri hbx h1]; simp)

theorem sortConts_sorts (l : List GoHeap.HFile) : (sortConts l).Perm l ∧ (sortConts l).Pairwise fun x y => Str.lt y.path x.path = false := by
  induction l with
  | nil => exact ⟨.refl _, List.Pairwise.nil⟩
  | cons a l ih => exact ⟨(putCont_perm a _).trans (ih.1.cons a), putCont_sorted a _ ih.2⟩

theorem backOrders_ok : MOrdersOK backOrders where
  sort := sortConts_sorts
  merge _ := backwards_order
  root _ _ := backwards_order
  ops l := List.reverse_perm l

theorem docs_ok : DocsOK WholeEx.inp where
  files := by
    intro p fs h f hf
    cases h
    rw [List.mem_singleton] at hf
    subst hf
    exact wfB_sound _ (by decide)
  root := wfB_sound _ (by decide)
  override := by
    intro e he
    rw [show WholeEx.inp.override = [_] from rfl, List.mem_singleton] at he
    subst he
    exact wfB_sound _ (by decide)
  defops := by
    intro e he
    rw [show WholeEx.inp.defops = [_] from rfl, List.mem_singleton] at he
    subst he
    exact ⟨_, wfB_sound _ (by decide), .refl _⟩
  nums f := ⟨f, rfl⟩
  ints i := ⟨i, rfl⟩

set_option maxRecDepth 100000 in
/-- The scan in memory, and the one over documents. -/
theorem scan_both : GoHeap.scan 1 WholeEx.inp ScanEx.orders backOrders 10 = scan WholeEx.inp ScanEx.orders 10 ∧
    GoHeap.scan 1 WholeEx.inp ScanEx.orders backOrders 10 ≠ .panic := by decide +kernel

attribute [local irreducible] scan GoHeap.scan prepare

example : ∃ o', OrdersOK WholeEx.inp o' ∧ GoHeap.scan 1 WholeEx.inp ScanEx.orders backOrders 10 = scan WholeEx.inp o' 10 :=
  C112_in_memory 1 WholeEx.orders_ok backOrders_ok docs_ok 10

example : ∃ out N, ∀ room o' mo, OrdersOK WholeEx.inp o' → MOrdersOK mo → ∀ fuel, N ≤ fuel →
    GoHeap.scan room WholeEx.inp o' mo fuel = .ret (some out) (some .decode) := by
  obtain ⟨out, N, h, _⟩ := C112_one_document WholeEx.input_ok WholeEx.schemas_ok WholeEx.orders_ok WholeEx.prepared WholeEx.resolvable
    WholeEx.one_shortest WholeEx.defaults_ok docs_ok
  exact ⟨out, N, h⟩

end Oapi.Props
