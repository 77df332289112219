import Verif.Proofs.Crash4
import Verif.Props.PrepareEx

/-! C99: when a scan crashes.  Also C21: when merging with the root document does. -/
namespace Oapi.Props
open Spec
open Scan (Input Orders Prepared prepare scan)

section
variable {F : Type} {inp : Input F} {o : Orders}

/-- C21: merging with the root document crashes exactly if a section of the document is a string, a number or a boolean, unless the error about
colliding components comes first, which happens if section `info` is none of these and a component of the document collides with one of the
root. -/
theorem C21_merge_crashes_iff {c r : Obj} (hc : Json.WF (.obj c)) (hr : Json.WF (.obj r))
    (hz : ∀ k R, (k, R) ∈ ruleOf → Composite (section_ (.obj r) k)) :
    OAPI.mergeWithRoot (.obj r) (.obj c) = .panic ↔ (∃ k R, (k, R) ∈ ruleOf ∧ ¬ Composite (section_ (.obj c) k)) ∧
      ¬ (Composite (section_ (.obj c) b!"info") ∧
        Collide (members (section_ (.obj c) b!"components")) (members (section_ (.obj r) b!"components"))) := by
  rw [OAPI.mergeWithRoot_panic hc hr hz]
  simp only [not_and]

/-- C99: as long as something is wrong with the packages, the commands, the files or the references, or if two specifications collide, every
scan returns an error (and no document): it does not crash. -/
theorem C99_incomplete_input_is_an_error (hi : InputOK inp) (ho : OrdersOK inp o) (hd : DistinctPaths inp) (hs : Sound inp) (h : ¬ Gathers inp) :
    ∃ e, ∀ fuel, scan inp o fuel = .ret none (some e) := by
  obtain ⟨e, he⟩ := Scan.not_gathers hi ho hd hs h
  refine ⟨e, fun fuel => ?_⟩
  unfold scan
  rw [he]

/-- C99: if nothing of that is wrong, and an asked-for type contains the type `error` or a section of the specification is a string, a number
or a boolean, every scan crashes. -/
theorem C99_crashes (hi : InputOK inp) (ho : OrdersOK inp o) (hd : DistinctPaths inp) (hs : Sound inp) (h : Gathers inp)
    (hc : AsksForError inp ∨ ScalarSection inp) (fuel : Nat) : scan inp o fuel = .panic := by
  unfold scan
  rw [(Scan.prepare_panic hi ho hd hs).2 ⟨h, hc⟩]

/-- C99: and these are, with one more, all reasons: a scan crashes only if all its input is well, and an asked-for type contains `error`, or a
section of the specification is a scalar, or there is a pointer of scheme go that nothing overrides and that is not registered. -/
theorem C99_reasons (hi : InputOK inp) (ho : OrdersOK inp o) (hd : DistinctPaths inp) (hsc : SchemasOK inp) (hs : Sound inp) {fuel : Nat}
    (h : scan inp o fuel = .panic) :
    Gathers inp ∧ (AsksForError inp ∨ ScalarSection inp ∨ ∃ pre, prepare inp o = .ok pre ∧ DanglingGo inp pre) := by
  have hg : Gathers inp := Classical.byContradiction fun hn => by
    obtain ⟨e, he⟩ := C99_incomplete_input_is_an_error hi ho hd hs hn
    rw [he fuel] at h; cases h
  refine ⟨hg, ?_⟩
  unfold scan at h
  cases hp : prepare inp o with
  | err e => rw [hp] at h; cases h
  | panic =>
    rcases ((Scan.prepare_panic hi ho hd hs).1 hp).2 with h | h
    · exact .inl h
    · exact .inr (.inl h)
  | ok pre =>
    rw [hp] at h
    simp only at h
    cases hf : Scan.finish inp o fuel pre with
    | panic => exact .inr (.inr ⟨pre, rfl, Scan.finish_panic hi ho hd hsc hs hp hf⟩)
    | err e => rw [hf] at h; cases h
    | ok c => rw [hf] at h; simp [Scan.newOAPI] at h

/-- C99: so if there is no such type, section or pointer, a scan returns. -/
theorem C99_never_crashes (hi : InputOK inp) (ho : OrdersOK inp o) (hd : DistinctPaths inp) (hsc : SchemasOK inp) (hs : Sound inp)
    (h1 : ¬ AsksForError inp) (h2 : ¬ ScalarSection inp) (h3 : ∀ pre, prepare inp o = .ok pre → ¬ DanglingGo inp pre) (fuel : Nat) :
    ∃ d e, scan inp o fuel = .ret d (some e) := by
  rcases C57_never_success inp o fuel with h | ⟨e, h⟩ | ⟨m, h⟩
  · rcases (C99_reasons hi ho hd hsc hs h).2 with h | h | ⟨pre, h, h'⟩
    · exact absurd h h1
    · exact absurd h h2
    · exact absurd h' (h3 pre h)
  · exact ⟨none, e, h⟩
  · exact ⟨_, _, h⟩

/-- C99: no scan recurses without end, whatever refers to what: there is a depth of recursion that suffices for every scan, in whatever order
Go iterates its maps. -/
theorem C99_ends (hi : InputOK inp) (hd : DistinctPaths inp) (hsc : SchemasOK inp) (hs : Sound inp) :
    ∃ N, ∀ o, OrdersOK inp o → ∃ out, ∀ fuel, N ≤ fuel → scan inp o fuel = out := Scan.scan_ends hi hd hsc hs

end

/-! ### Concrete inputs -/

namespace CrashEx
open WholeEx PrepareEx

theorem sound_of {i : Input Int} (h1 : i.load ≠ .panic) (h2 : ∀ p, i.files p ≠ .panic) (h3 : i.matches_ = inp.matches_) (h4 : i.root = inp.root)
    (h5 : i.override = inp.override) : Sound i where
  load := h1
  files := h2
  matcher a b c := by rw [h3]; simp [inp]
  root := by
    refine ⟨[(b!"info", .obj [(b!"title", .str b!"T"), (b!"version", .str [])])], h4, wfB_sound _ (by decide), ?_⟩
    intro k R h
    by_cases hk : k = b!"info"
    · subst hk; exact .inr ⟨_, rfl, .inr rfl⟩
    · left
      simp [section_, child, Obj.lookup, hk]
  override e he := by
    rw [h5] at he
    simp only [inp, List.mem_singleton] at he
    subst he
    exact wfB_sound _ (by decide)

theorem sound : Sound inp := sound_of (by decide) (fun p => by simp [inp]) rfl rfl rfl

/-- The example of C65 never crashes. -/
example (fuel : Nat) : ∃ d e, scan inp ScanEx.orders fuel = .ret d (some e) := by
  have hp : ∃ pre, prepare inp ScanEx.orders = .ok pre := ⟨pre, prepared⟩
  have hnp : ¬ (Gathers inp ∧ (AsksForError inp ∨ ScalarSection inp)) := fun h => by
    rw [← Scan.prepare_panic input_ok orders_ok distinct sound, prepared] at h; cases h
  have hg : Gathers inp := Classical.byContradiction fun hn => by
    obtain ⟨e, he⟩ := Scan.not_gathers input_ok orders_ok distinct sound hn
    rw [prepared] at he; cases he
  refine C99_never_crashes input_ok orders_ok distinct schemas_ok sound (fun h => hnp ⟨hg, .inl h⟩) (fun h => hnp ⟨hg, .inr h⟩) ?_ fuel
  intro pre' h' hdang
  rw [prepared] at h'; cases h'
  obtain ⟨x, p, hx, hpx, hs, _, hreg⟩ := hdang
  have hmem : x ∈ [xY, xN] := by
    rcases hx with hx | ⟨e, he, hx⟩
    · have := refLike_mem (j := pre.doc) (by decide) (by decide) hx
      rw [refs_doc] at this; exact this
    · simp only [inp, List.mem_singleton] at he
      subst he
      have := refLike_mem (j := .obj [(b!"type", .str b!"string")]) (by decide) (by decide) hx
      rw [show refsB (.obj [(b!"type", .str b!"string")]) = [] by decide] at this
      cases this
  simp only [List.mem_cons, List.not_mem_nil, or_false] at hmem
  rcases hmem with rfl | rfl
  · rw [show Pointer.parse xY = .ok pY by decide] at hpx
    cases hpx
    exact absurd hs (by decide)
  · rw [parse_N.1] at hpx
    cases hpx
    exact hreg ⟨_, _, pN, (by decide +kernel : (TypesEx.nodeT, TypesEx.points.at TypesEx.nodeT) ∈ pre.points), by decide +kernel, rfl⟩

/-- Its specification with a section `tags` that is a string. -/
def tagsSpec : Json := .obj [
  (b!"openapi", .str b!"3.0.0"),
  (b!"paths", .obj [(b!"/n", .obj [(b!"get", .obj [(b!"also", refObj b!"http://ex.org/s#/Y"), (b!"schema", refObj b!"go://#/Node")])])]),
  (b!"tags", .str b!"all")]

def tagged : Input Int := { inp with files := fun _ => .ok [⟨b!"/src/p/openapi.yaml", tagsSpec⟩] }

theorem tagged_ok : InputOK tagged where
  graph := input_ok.graph
  paths := input_ok.paths
  prog := input_ok.prog
  files := by
    intro p fs h f hf _
    cases h
    rw [List.mem_singleton] at hf
    subst hf
    refine ⟨⟨_, rfl⟩, wfB_sound _ (by decide), routed_of_safe _ (safeB_sound (by decide)), ?_⟩
    intro x hx
    have := hasRef_mem hx
    rw [show refsB tagsSpec = [b!"http://ex.org/s#/Y", b!"go://#/Node"] by decide] at this
    simp only [List.mem_cons, List.not_mem_nil, or_false] at this
    rcases this with rfl | rfl
    · exact ⟨b!"http://ex.org/s", b!"/Y", by unfold UriByte; decide, .inr rfl⟩
    · exact ⟨b!"go://", b!"/Node", by unfold UriByte; decide, .inr rfl⟩
  commands := input_ok.commands

theorem tagged_orders {o : Orders} (h : OrdersOK inp o) : OrdersOK tagged o :=
  ⟨h.heap₁, h.heap₂, h.heap₃, h.exports, h.commands, h.refs, h.sort, h.pointers, h.types, h.pick, h.resolver, h.ops, h.defops⟩

theorem tagged_distinct : DistinctPaths tagged := distinct
theorem tagged_sound : Sound tagged := sound_of (by decide) (fun p => by simp [tagged]) rfl rfl rfl

def panics {α : Type} : Res α → Bool
  | .panic => true
  | _ => false

theorem tagged_prepare : prepare tagged ScanEx.orders = .panic := by
  have h : panics (prepare tagged ScanEx.orders) = true := by decide +kernel
  cases hp : prepare tagged ScanEx.orders with
  | panic => rfl
  | ok x => rw [hp] at h; cases h
  | err e => rw [hp] at h; cases h

/-- It crashes every scan. -/
example : Gathers tagged ∧ (AsksForError tagged ∨ ScalarSection tagged) ∧ ∀ o, OrdersOK inp o → ∀ fuel, scan tagged o fuel = .panic := by
  obtain ⟨h1, h2⟩ := (Scan.prepare_panic tagged_ok (tagged_orders orders_ok) tagged_distinct tagged_sound).1 tagged_prepare
  exact ⟨h1, h2, fun o ho fuel => C99_crashes tagged_ok (tagged_orders ho) tagged_distinct tagged_sound h1 h2 fuel⟩

/-- Two specifications that collide are an error, not a crash. -/
example : ∃ e, ∀ fuel, scan twice ScanEx.orders fuel = .ret none (some e) :=
  C99_incomplete_input_is_an_error twice_ok twice_orders distinct (sound_of (by decide) (fun p => by simp [twice]) rfl rfl rfl) fun h => by
    have := h.apart 0 0 _ 0 1 _ ⟨visited0, _, _, rfl, rfl, rfl, _, _, rfl, rfl⟩ ⟨visited0, _, _, rfl, rfl, rfl, _, _, rfl, rfl⟩
      (Scan.scalars_collide (k := b!"openapi") rfl rfl (.inl rfl))
    simp at this

example : ∃ N, ∀ o, OrdersOK inp o → ∃ out, ∀ fuel, N ≤ fuel → scan inp o fuel = out := C99_ends input_ok distinct schemas_ok sound

/-- A document with a scalar section, and one whose components collide with the root's. -/
example : OAPI.mergeWithRoot (.obj []) (.obj [(b!"tags", .str b!"all")]) = .panic :=
  (C21_merge_crashes_iff (wfB_sound _ (by decide)) (wfB_sound _ (by decide)) (fun _ _ _ => .inl (by simp [section_, child, Obj.lookup]))).2
    ⟨⟨b!"tags", _, by simp [ruleOf]; rfl, by simp [Composite, section_, child, Obj.lookup, scalar]⟩,
     fun h => by simp [members, section_, child, Obj.lookup] at h; exact Container.not_collide_empty _ h.2⟩

end CrashEx
end Oapi.Props
