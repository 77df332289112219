import Verif.Props.ScanEx
import Verif.Props.Pointer
import Verif.Proofs.Dots
import Verif.Proofs.Fuel

/-! C105: references below a key that contains a dot. -/
namespace Oapi.Props
open Spec
open Scan (Input Orders Prepared prepare scan)

/-- A specification file is scanned: what is extracted from it, and what is done with it. -/
private theorem scanned_file {pkg : Str} {c c' : Json} {ps ps' : Pointers} (h : Specs.ScanFile pkg c ps (.ok (some c', ps'))) :
    ∃ refs refs', Container.extractKey c b!"$ref" = .ok refs ∧ Container.MapOrder refs refs' ∧ Specs.scanRefs pkg refs' c ps = .ok (c', ps') := by
  unfold Specs.ScanFile at h
  split at h
  · cases h
  · split at h
    · cases h
    · cases h
    · rename_i refs hrefs
      obtain ⟨refs', hm, h⟩ := h
      refine ⟨refs, refs', hrefs, hm, ?_⟩
      split at h
      · rename_i c1 ps1 h1
        cases h
        exact h1
      · cases h
      · cases h

private theorem paths_plain {c : Json} (hw : Json.WF c) (ht : ∀ l v, getAt c l = some v → scalar v = true → ∀ k, Step.key k ∈ l → (126 : UInt8) ∉ k)
    {refs refs' : List (Str × Json)} (hr : Container.extractKey c b!"$ref" = .ok refs) (hm : Container.MapOrder refs refs') :
    ∀ e ∈ refs', (126 : UInt8) ∉ e.1 ∧ Container.keyMatches refKey e.1 = true := by
  rintro ⟨s, v⟩ he
  obtain ⟨L, k, h1, h3, h2, rfl⟩ := (extract_refs_iff hw hr s v).1 (hm.2.1 _ he)
  constructor
  · exact tilde_dotted fun k' hk' => ht _ _ h1 h3 k' hk'
  · rw [keyMatches_dotted]
    exact (keyMatches_iff refKey_no_dot _).2 h2

/-- C105: scanning a specification file does not make a reference absolute that stands below a key with a dot (a path like `/v1.0/pets`, a
media type like `application/vnd.api+json`): it stays as it was written, whatever else is in the file, if no key contains '~'. -/
theorem C105_stays_relative {pkg : Str} {c c' : Json} {ps ps' : Pointers} (hw : Json.WF c)
    (ht : ∀ l v, getAt c l = some v → scalar v = true → ∀ k, Step.key k ∈ l → (126 : UInt8) ∉ k)
    (h : Specs.ScanFile pkg c ps (.ok (some c', ps'))) {L : Loc} {x : Str} (hx : getAt c (L ++ [.key refKey]) = some (.str x))
    (hL : Step.key refKey ∉ L) (hd : ∃ k, Step.key k ∈ L ∧ (46 : UInt8) ∈ k) :
    getAt c' (L ++ [.key refKey]) = some (.str x) := by
  obtain ⟨refs, refs', h1, h2, h3⟩ := scanned_file h
  rw [scanRefs_below_dot hL hd refs' (paths_plain hw ht h1 h2) h3, hx]

/-- C105: instead something is written under the printed path.  Here for a file with one reference (and nothing that looks like another):
the result has, under the printed path, a reference to the absolute pointer, besides the one that was written. -/
theorem C105_stray_member {pkg : Str} {c c' : Json} {ps ps' : Pointers} (hw : Json.WF c) (h : Specs.ScanFile pkg c ps (.ok (some c', ps')))
    {L : Loc} {x : Str} (hx : getAt c (L ++ [.key refKey]) = some (.str x))
    (hone : ∀ L' k y, getAt c (L' ++ [.key k]) = some (.str y) → (k = refKey ∨ ∃ a, k = a ++ 46 :: refKey) → L' = L ∧ k = refKey)
    (hl : Lone c (L ++ [.key refKey])) (hdash : b!"-" ∉ Gabs.dotPathToSlice (dotted (L ++ [.key refKey]))) :
    Container.path c' (dotted (L ++ [.key refKey])) = some (.str (newRef pkg x)) := by
  obtain ⟨refs, refs', h1, h2, h3⟩ := scanned_file h
  have hin : (dotted (L ++ [.key refKey]), Json.str x) ∈ refs' := by
    have := h2.2.2 _ ((extract_refs_iff hw h1 _ _).2 ⟨L, refKey, hx, rfl, .inl rfl, rfl⟩)
    obtain ⟨⟨s, v⟩, hm, e⟩ := List.mem_map.1 this
    simp only at e
    subst e
    obtain ⟨L', k, g1, g2, g3, g4⟩ := (extract_refs_iff hw h1 _ v).1 (h2.2.1 _ hm)
    have := hl _ _ g1 g2 g4.symm
    rw [this, hx] at g1
    cases g1
    exact hm
  have hall : ∀ e ∈ refs', ∀ y, e.2 = .str y → e.1 = dotted (L ++ [.key refKey]) ∧ y = x := by
    rintro ⟨s, v⟩ he y rfl
    obtain ⟨L', k, g1, _, g3, rfl⟩ := (extract_refs_iff hw h1 s _).1 (h2.2.1 _ he)
    obtain ⟨rfl, rfl⟩ := hone L' k y g1 g3
    rw [hx] at g1
    cases g1
    exact ⟨rfl, rfl⟩
  have key : ∀ (es : List (Str × Json)) (c : Json) (ps : Pointers), (∀ e ∈ es, ∀ y, e.2 = .str y → e.1 = dotted (L ++ [.key refKey]) ∧ y = x) →
      ((dotted (L ++ [.key refKey]), Json.str x) ∈ es ∨ Container.path c (dotted (L ++ [.key refKey])) = some (.str (newRef pkg x))) →
      Specs.scanRefs pkg es c ps = .ok (c', ps') → Container.path c' (dotted (L ++ [.key refKey])) = some (.str (newRef pkg x)) := by
    intro es
    induction es with
    | nil =>
      intro c ps _ hor h
      cases h
      rcases hor with hor | hor
      · cases hor
      · exact hor
    | cons e es ih =>
      obtain ⟨k, v⟩ := e
      intro c ps hall hor h
      have hall' := fun e h => hall e (List.mem_cons_of_mem _ h)
      simp only [Specs.scanRefs] at h
      split at h
      · rename_i y
        obtain ⟨rfl, rfl⟩ := hall (k, .str y) (by simp) y rfl
        split at h
        · cases h
        · cases h
        · rename_i p hp
          split at h
          · cases h
          · cases h
          · rename_i c1 h1
            refine ih c1 _ hall' (.inr ?_) h
            rw [C11_setP_read_back _ _ _ _ hdash h1]
            simp [newRef, hp]
      · rename_i hv
        refine ih c _ hall' ?_ h
        rcases hor with hor | hor
        · rcases List.mem_cons.1 hor with e | hor
          · cases e
            exact absurd rfl (hv x)
          · exact .inl hor
        · exact .inr hor
  exact key refs' c ps hall (.inl hin) h3

/-- C105: resolution does not see such a reference either, wherever it points: what stands below a key `d` with a dot, reached through
keys `ks` without dots (and not among the components), is after the resolution what it was before — unless the printed path of some
reference is that of a reference above `d`. -/
theorem C105_not_resolved {cfg : Resolver.Cfg} {n : Nat} {c c' : Json} (hw : Json.WF c)
    (ht : ∀ l v, getAt c l = some v → scalar v = true → ∀ k, Step.key k ∈ l → (126 : UInt8) ∉ k)
    (hord : ∀ n l, Container.MapOrder l (cfg.ord n l)) (h : Resolver.resolve cfg n c = .ok c')
    {ks : List Str} {d : Str} {R : Loc} (hks : ∀ k ∈ ks, DotSafe k) (hd : (46 : UInt8) ∈ d) (hc : ks.head? ≠ some b!"components")
    (hL : Step.key refKey ∉ ks.map Step.key ++ .key d :: R)
    (hroom : ∀ L' k v, getAt c (L' ++ [.key k]) = some v → scalar v = true → (k = refKey ∨ ∃ a, k = a ++ 46 :: refKey) →
      ∀ P, P <+: ks → dotted (L' ++ [.key k]) ≠ dotted (P.map Step.key ++ [.key refKey])) :
    getAt c' (ks.map Step.key ++ .key d :: (R ++ [.key refKey])) = getAt c (ks.map Step.key ++ .key d :: (R ++ [.key refKey])) := by
  unfold Resolver.resolve at h
  split at h
  · cases h
  · cases h
  · rename_i st hi
    cases h
    refine (Resolver.iter_kept hks hd hc hL (fun _ refs hr e he => ?_) hi).1
    obtain ⟨g1, g2⟩ := paths_plain hw ht hr (hord _ refs) e he
    refine ⟨g1, g2, fun P hP => ?_⟩
    obtain ⟨s, v⟩ := e
    obtain ⟨L', k, h1, h3, h2, rfl⟩ := (extract_refs_iff hw hr s v).1 ((hord _ refs).2.1 _ he)
    rw [List.map_append]
    exact hroom L' k v h1 h3 h2 P hP

namespace DotsEx
open ScanEx

/-- A specification with a reference to a type of the package, in the path `/v1.0`. -/
def spec : Json := .obj [
  (b!"openapi", .str b!"3.0.0"),
  (b!"paths", .obj [(b!"/v1.0", .obj [(b!"get", .obj [(b!"schema", .obj [(refKey, .str b!"go://#/Node")])])])])]

def L : Loc := [.key b!"paths", .key b!"/v1.0", .key b!"get", .key b!"schema"]

/-- What becomes of it. -/
def after : Json := .obj [
  (b!"openapi", .str b!"3.0.0"),
  (b!"paths", .obj [
    (b!"/v1", .obj [(b!"0", .obj [(b!"get", .obj [(b!"schema", .obj [(refKey, .str b!"go://ex.org/p#/Node")])])])]),
    (b!"/v1.0", .obj [(b!"get", .obj [(b!"schema", .obj [(refKey, .str b!"go://#/Node")])])])])]

theorem spec_wf : Json.WF spec := wfB_sound _ (by decide)

def isAfter : Res (Json × Pointers) → Bool
  | .ok r => decide (r.1 = after)
  | _ => false

def refs : List (Str × Json) := [(b!"paths./v1.0.get.schema.$ref", .str b!"go://#/Node")]

theorem scans : ∃ ps', Specs.ScanFile b!"ex.org/p" spec [] (.ok (some after, ps')) := by
  have h : isAfter (Specs.scanRefs b!"ex.org/p" refs spec []) = true := by decide +kernel
  cases hs : Specs.scanRefs b!"ex.org/p" refs spec [] with
  | ok r =>
    obtain ⟨a, b⟩ := r
    rw [hs] at h
    have : a = after := of_decide_eq_true h
    subst this
    refine ⟨b, ?_⟩
    unfold Specs.ScanFile
    rw [if_neg (by decide)]
    rw [show Container.extractKey spec b!"$ref" = .ok refs by decide]
    refine ⟨refs, firsts_order refs, ?_⟩
    rw [hs]
  | err e => rw [hs] at h; cases h
  | panic => rw [hs] at h; cases h

theorem spec_plain : ∀ l v, getAt spec l = some v → scalar v = true → ∀ k, Step.key k ∈ l → (126 : UInt8) ∉ k := by
  intro l v h1 h2 k hk
  have key : (leaves spec).all (fun q => q.1.all fun s => decide ((126 : UInt8) ∉ seg s)) = true := by decide
  exact of_decide_eq_true (List.all_eq_true.1 (List.all_eq_true.1 key _ ((mem_leaves spec spec_wf l v).2 ⟨h1, h2⟩)) _ hk)

/-- C105, on the example. -/
example : getAt after (L ++ [.key refKey]) = some (.str b!"go://#/Node") := by
  obtain ⟨ps', h⟩ := scans
  exact C105_stays_relative spec_wf spec_plain h (by decide) (by decide) ⟨b!"/v1.0", by decide, by decide⟩

theorem spec_one : ∀ L' k y, getAt spec (L' ++ [.key k]) = some (.str y) → (k = refKey ∨ ∃ a, k = a ++ 46 :: refKey) → L' = L ∧ k = refKey := by
  intro L' k y h1 h2
  have key : (leaves spec).all (fun q => decide (∀ s ∈ q.1.getLast?, Str.split 46 (seg s) ≠ [] ∧
      ((Str.split 46 (seg s)).getLast? = some refKey → q.1 = L ++ [.key refKey]))) = true := by decide
  have := (of_decide_eq_true (List.all_eq_true.1 key _ ((mem_leaves spec spec_wf _ _).2 ⟨h1, rfl⟩)) (.key k) (by simp)).2
  have hk : (Str.split 46 k).getLast? = some refKey := of_decide_eq_true ((keyMatches_iff refKey_no_dot k).2 h2)
  have := this hk
  obtain ⟨e1, e2⟩ := List.append_inj' this rfl
  refine ⟨e1, ?_⟩
  cases e2
  rfl

/-- C105, on the example. -/
example : Container.path after (dotted (L ++ [.key refKey])) = some (.str b!"go://ex.org/p#/Node") := by
  obtain ⟨ps', h⟩ := scans
  exact C105_stray_member spec_wf h (L := L) (x := b!"go://#/Node") (by decide) spec_one (loneB_sound spec_wf (by decide)) (by decide)

/-- What the prepared document looks like if the specification writes the pointer in full, with another reference beside it. -/
def prepared : Json := .obj [
  (b!"paths", .obj [
    (b!"/v1.0", .obj [(b!"get", .obj [(b!"schema", .obj [(refKey, .str b!"go://ex.org/p#/Node")])])]),
    (b!"/w", .obj [(b!"get", .obj [(b!"schema", .obj [(refKey, .str b!"go://ex.org/p#/Node")])])])])]

theorem prepared_wf : Json.WF prepared := wfB_sound _ (by decide)

/-- Everything resolves to a string schema. -/
def cfg : Resolver.Cfg := { exp := [], res := fun _ => .ok (.obj [(b!"type", .str b!"string")]), ord := fun _ => firsts }

/-- C105, on the example: the one reference is resolved, the other one stays. -/
example : ∃ c', Resolver.resolve cfg 3 prepared = .ok c' ∧
    getAt c' [.key b!"paths", .key b!"/w", .key b!"get", .key b!"schema", .key b!"type"] = some (.str b!"string") ∧
    getAt c' (L ++ [.key refKey]) = some (.str b!"go://ex.org/p#/Node") := by
  have h : ∃ c', Resolver.resolve cfg 3 prepared = .ok c' ∧
    getAt c' [.key b!"paths", .key b!"/w", .key b!"get", .key b!"schema", .key b!"type"] = some (.str b!"string") := ⟨_, rfl, by decide +kernel⟩
  obtain ⟨c', h, h'⟩ := h
  refine ⟨c', h, h', ?_⟩
  have := C105_not_resolved prepared_wf ?_ (fun _ => firsts_order) h (ks := [b!"paths"]) (d := b!"/v1.0") (R := [.key b!"get", .key b!"schema"])
    (by intro k hk; rw [List.mem_singleton] at hk; subst hk; exact dotSafeB_sound (by decide)) (by decide) (by decide) (by decide) ?_
  · exact this
  · intro l v h1 h2 k hk
    have key : (leaves prepared).all (fun q => q.1.all fun s => decide ((126 : UInt8) ∉ seg s)) = true := by decide
    exact of_decide_eq_true (List.all_eq_true.1 (List.all_eq_true.1 key _ ((mem_leaves prepared prepared_wf l v).2 ⟨h1, h2⟩)) _ hk)
  · intro L' k v h1 h2 _ P hP
    have key : (leaves prepared).all (fun q => decide (dotted q.1 ≠ dotted [.key refKey] ∧ dotted q.1 ≠ dotted [.key b!"paths", .key refKey])) = true := by decide
    have := of_decide_eq_true (List.all_eq_true.1 key _ ((mem_leaves prepared prepared_wf _ v).2 ⟨h1, h2⟩))
    rcases List.prefix_cons_iff.1 hP with rfl | ⟨t, rfl, ht⟩
    · exact this.1
    · rw [List.prefix_nil.1 ht]
      exact this.2

/-- The package of ScanEx with this specification. -/
def input (j : Json) : Input Int := { ScanEx.input [] with files := fun _ => .ok [⟨b!"/src/p/openapi.yaml", j⟩] }

/-- A specification that writes the pointer in full. -/
def absolute : Json := .obj [
  (b!"openapi", .str b!"3.0.0"),
  (b!"paths", .obj [(b!"/v1.0", .obj [(b!"get", .obj [(b!"schema", .obj [(refKey, .str b!"go://ex.org/p#/Node")])])])])]

/-- Go may also keep and visit the entries the other way round. -/
def orders' : Orders := { ScanEx.orders with resolver := fun _ => lasts }

theorem orders'_ok (j : Json) : OrdersOK (input j) orders' :=
  { ScanEx.orders_ok [] with resolver := fun _ => lasts_order }

/-- What becomes of the reference in the end: a panic, no document, the text of the reference. -/
def found : Scan.Outcome → Option (Option Json)
  | .panic => none
  | .ret none _ => some none
  | .ret (some j) _ => some (getAt j (L ++ [.key refKey]))

theorem found_panic {o : Scan.Outcome} (h : found o = none) : o = .panic := by
  unfold found at h
  split at h
  · rfl
  · cases h
  · cases h

theorem found_str {o : Scan.Outcome} {x : Str} (h : found o = some (some (.str x))) : ∃ d e, o = .ret (some d) e ∧ getAt d (L ++ [.key refKey]) = some (.str x) := by
  unfold found at h
  split at h
  · cases h
  · cases h
  · exact ⟨_, _, rfl, Option.some.inj h⟩

end DotsEx
open DotsEx in
/-- C105: what the whole call does with such a specification depends on the order in which Go visits a map: it panics, or it comes back with
a document that still has the relative reference in it. -/
theorem C105_scan_undetermined : ∃ (inp : Input Int) (o o' : Orders), OrdersOK inp o ∧ OrdersOK inp o' ∧ ∀ n, 10 ≤ n →
    scan inp o n = .panic ∧ ∃ d e L, scan inp o' n = .ret (some d) e ∧ getAt d (L ++ [.key refKey]) = some (.str b!"go://#/Node") := by
  refine ⟨input spec, orders', ScanEx.orders, orders'_ok spec, { ScanEx.orders_ok [] with }, fun n hn => ⟨?_, ?_⟩⟩
  · exact Scan.scan_panic_more hn (found_panic (by decide +kernel))
  · obtain ⟨d, e, h1, h2⟩ := found_str (o := scan (input spec) ScanEx.orders 10) (x := b!"go://#/Node") (by decide +kernel)
    exact ⟨d, e, DotsEx.L, Scan.scan_more hn h1, h2⟩

open DotsEx in
/-- C105: and if the specification writes the pointer in full, that reference leaves the tool as it came. -/
theorem C105_scan_external : ∃ (inp : Input Int) (o : Orders), OrdersOK inp o ∧ ∀ n, 10 ≤ n →
    ∃ d e L, scan inp o n = .ret (some d) e ∧ getAt d (L ++ [.key refKey]) = some (.str b!"go://ex.org/p#/Node") := by
  refine ⟨input absolute, orders', orders'_ok absolute, fun n hn => ?_⟩
  obtain ⟨d, e, h1, h2⟩ := found_str (o := scan (input absolute) orders' 10) (x := b!"go://ex.org/p#/Node") (by decide +kernel)
  exact ⟨d, e, DotsEx.L, Scan.scan_more hn h1, h2⟩

end Oapi.Props
