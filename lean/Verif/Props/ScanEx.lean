import Verif.Props.Scan
import Verif.Props.Resolver

/-! A concrete scan. -/
namespace Oapi.Props.ScanEx
open Spec
open Scan (Input Orders Outcome Prepared prepare finish resolveFn scan cfg)

/-- The package `ex.org/p` of TypesEx, with a command that exports `Node` and a specification that refers to `Node` and, in one
variant, to something else. -/
def spec (x : Str) : Json := .obj [
  (b!"openapi", .str b!"3.0.0"),
  (b!"paths", .obj [(b!"/n", .obj [(b!"get", .obj [(b!"schema", .obj [(refKey, .str x)])])])])]

def input (x : Str) : Input Int where
  heap := [{ path := b!"ex.org/p" }]
  load := .ok [0]
  stdpkg := fun _ => false
  comments := fun _ => [[b!"//openapi:schema Node"]]
  files := fun _ => .ok [⟨b!"/src/p/openapi.yaml", spec x⟩]
  prog := TypesEx.pr
  tagOf := TagP.parse TypesEx.lib TypesEx.pf
  std := fun _ => none
  zero := 0
  enc := ⟨.num, .num, fun _ => true⟩
  override := []
  defops := []
  root := .obj [(b!"info", .obj [(b!"title", .str b!"T"), (b!"version", .str [])])]
  matches_ := fun _ _ _ => .ok false
  msg := fun _ => []

/-- Sorting files by path. -/
def putFile (a : Container.File) : List Container.File → List Container.File
  | [] => [a]
  | b :: l => if Str.lt b.path a.path then b :: putFile a l else a :: b :: l
def sortFiles : List Container.File → List Container.File
  | [] => []
  | a :: l => putFile a (sortFiles l)

/-- Every map is iterated as it is listed. -/
def orders : Orders where
  heap₁ := [{ path := b!"ex.org/p" }]
  heap₂ := [{ path := b!"ex.org/p" }]
  heap₃ := [{ path := b!"ex.org/p" }]
  exports := id
  commands := id
  refs := fun _ _ => firsts
  sort := sortFiles
  pointers := fun _ => id
  types := fun _ => id
  pick := fun _ _ => TypesEx.srt
  resolver := fun _ => firsts
  ops := id
  defops := id


theorem putFile_perm (a : Container.File) (l : List Container.File) : (putFile a l).Perm (a :: l) := by
  induction l with
  | nil => exact .refl _
  | cons b l ih =>
    simp only [putFile]
    split
    · exact (ih.cons b).trans (List.Perm.swap a b l)
    · exact .refl _

theorem putFile_sorted (a : Container.File) (l : List Container.File) (h : l.Pairwise fun x y => Str.lt y.path x.path = false) :
    (putFile a l).Pairwise fun x y => Str.lt y.path x.path = false := by
  induction l with
  | nil => simp [putFile]
  | cons b l ih =>
    rw [List.pairwise_cons] at h
    simp only [putFile]
    split
    · rename_i hab
      rw [List.pairwise_cons]
      refine ⟨fun x hx => ?_, ih h.2⟩
      rw [(putFile_perm a l).mem_iff, List.mem_cons] at hx
      rcases hx with rfl | hx
      · exact Str.lt_asymm hab
      · exact h.1 x hx
    · rename_i hab
      rw [List.pairwise_cons]
      refine ⟨fun x hx => ?_, List.pairwise_cons.2 h⟩
      rw [List.mem_cons] at hx
      rcases hx with rfl | hx
      · simpa using hab
      · cases hc : Str.lt x.path a.path with
        | false => rfl
        | true =>
          by_cases hbx : b.path = x.path
          · rw [← hbx] at hc; exact absurd hc hab
          · cases h1 : Str.lt b.path x.path with
            | true => exact absurd (Str.lt_trans h1 hc) hab
            | false => exact absurd (h.1 x hx) (by rw [Str.lt_tri hbx h1]; simp)

theorem sortFiles_sorts (l : List Container.File) : Container.SortResult l (sortFiles l) := by
  induction l with
  | nil => exact ⟨.refl _, List.Pairwise.nil⟩
  | cons a l ih => exact ⟨(putFile_perm a _).trans (ih.1.cons a), putFile_sorted a _ ih.2⟩

theorem sameGraph_refl (h : Pkgs.Heap) : SameGraph h h :=
  ⟨rfl, fun i x y h1 h2 => by rw [h1] at h2; cases h2; exact ⟨rfl, rfl, .refl _⟩⟩

theorem orders_ok (x : Str) : OrdersOK (input x) orders where
  heap₁ := sameGraph_refl _
  heap₂ := sameGraph_refl _
  heap₃ := sameGraph_refl _
  exports := fun _ => .refl _
  commands := fun _ => .refl _
  refs := fun _ _ => firsts_order
  sort := sortFiles_sorts
  pointers := fun _ _ => .refl _
  types := fun _ _ => .refl _
  pick := fun _ _ => TypesEx.srt_sorts
  resolver := fun _ => firsts_order
  ops := fun _ => .refl _
  defops := fun _ => .refl _

/-- The document the scan makes. -/
def doc : Json := .obj [
  (b!"components", .obj [(b!"schemas", .obj [(b!"Node", .obj [
    (b!"properties", .obj [
      (b!"Items", .obj [
        (b!"items", .obj [(b!"properties", .obj [(b!"ID", .obj [(b!"type", .str b!"integer")]), (b!"Owner", refObj b!"#/components/schemas/Node")]), (b!"type", .str b!"object")]),
        (b!"nullable", .bool true), (b!"type", .str b!"array")]),
      (b!"Next", .obj [(b!"oneOf", .arr [refObj b!"#/components/schemas/Node", .obj [(b!"nullable", .bool true), (b!"type", .str b!"object")]])])]),
    (b!"type", .str b!"object")])])]),
  (b!"info", .obj [(b!"title", .str b!"T"), (b!"version", .str [])]),
  (b!"openapi", .str b!"3.0.0"),
  (b!"paths", .obj [(b!"/n", .obj [(b!"get", .obj [(b!"schema", refObj b!"#/components/schemas/Node")])])])]

set_option maxRecDepth 100000 in
/-- C57: the scan of the example makes a document and reports an error. -/
theorem scan_eq : scan (input b!"go://#/Node") orders 10 = .ret (some doc) (some .decode) := by decide +kernel

attribute [local irreducible] prepare finish TypesEx.points

/-- C57 applies. -/
example : ∃ pre c, prepare (input b!"go://#/Node") orders = .ok pre ∧ finish (input b!"go://#/Node") orders 10 pre = .ok c := by
  have h := scan_eq
  unfold scan at h
  split at h
  · cases h
  · cases h
  · rename_i pre hp
    split at h
    · cases h
    · cases h
    · rename_i c hc; exact ⟨pre, c, hp, hc⟩

/-- A reference to a type that does not exist: what is prepared. -/
def missing : Prepared where
  exports := [⟨.schema, b!"Node", Pointer.newGoLoose b!"ex.org/p" b!"Node"⟩]
  doc := .obj [
    (b!"info", .obj [(b!"title", .str b!"T"), (b!"version", .str [])]),
    (b!"openapi", .str b!"3.0.0"),
    (b!"paths", .obj [(b!"/n", .obj [(b!"get", .obj [(b!"schema", refObj b!"go://ex.org/p#/Missing")])])])]
  points := TypesEx.points

/-- What the comparison needs. -/
def same (r : Res Prepared) (p : Prepared) : Bool :=
  match r with
  | .ok q => decide (q.exports = p.exports) && decide (q.doc = p.doc) && decide (q.points = p.points)
  | _ => false

theorem same_sound {r : Res Prepared} {p : Prepared} (h : same r p = true) : r = .ok p := by
  cases r with
  | ok q =>
    simp only [same, Bool.and_eq_true, decide_eq_true_eq] at h
    obtain ⟨⟨h1, h2⟩, h3⟩ := h
    cases q
    cases p
    simp only at h1 h2 h3
    subst h1 h2 h3
    rfl
  | err e => cases h
  | panic => cases h

set_option maxRecDepth 100000 in
theorem prepare_missing : prepare (input b!"go://#/Missing") orders = .ok missing := same_sound (by decide +kernel)

/-- `go://ex.org/p#/Missing`. -/
def ptr : Pointer := Pointer.newGoLoose b!"ex.org/p" b!"Missing"

theorem missing_ref : RefAt missing.doc [.key b!"paths", .key b!"/n", .key b!"get", .key b!"schema"] b!"go://ex.org/p#/Missing" ptr :=
  ⟨by decide, by decide +kernel, by decide +kernel⟩

theorem notRegistered {m : Types.PMap} {p : Pointer} (h : (m.all fun e => e.2.all fun q => q.toStr != p.toStr) = true) : ¬ Registered m p := by
  rintro ⟨u, qs, q, h1, h2, h3⟩
  have h := List.all_eq_true.1 (List.all_eq_true.1 h _ h1) _ h2
  simp [h3] at h

set_option maxRecDepth 100000 in
theorem missing_unknown : Unknown (input b!"go://#/Missing") missing.points ptr :=
  ⟨fun _ h => by simp [input] at h, fun _ => notRegistered (by decide +kernel)⟩

/-- C58 applies: no document, and in fact a panic. -/
example : ¬ HasDoc (scan (input b!"go://#/Missing") orders 10) :=
  C58_no_document (orders_ok _) prepare_missing (wfB_sound _ (by decide)) missing_ref (loneB_sound (wfB_sound _ (by decide)) (by decide)) missing_unknown

example : scan (input b!"go://#/Missing") orders 10 = .panic := by
  refine C58_scan_panics (orders_ok _) prepare_missing (wfB_sound _ (by decide)) ?_ missing_ref (loneB_sound (wfB_sound _ (by decide)) (by decide))
  intro y hy
  have hy := refLike_mem (by decide) (by decide) hy
  rw [show refsB missing.doc = [b!"go://ex.org/p#/Missing"] by decide +kernel, List.mem_singleton] at hy
  subst hy
  exact ⟨ptr, missing_ref.2.1, fun _ => ⟨by decide +kernel, missing_unknown⟩⟩

end Oapi.Props.ScanEx
