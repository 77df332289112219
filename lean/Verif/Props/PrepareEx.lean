import Verif.Props.Prepare
import Verif.Props.WholeEx

/-! C77–C79 apply to concrete inputs. -/
namespace Oapi.Props
open Spec
open Scan (Input Orders Prepared prepare scan)

namespace PrepareEx
open WholeEx

theorem visited {p : Nat} (h : Visited inp p) : p = 0 := by
  obtain ⟨roots, r, h1, h2, h3⟩ := h
  cases h1
  rw [List.mem_singleton] at h2
  subst h2
  cases h3 with
  | refl _ => rfl
  | step _ hi _ =>
    obtain ⟨pkg, k, h1, h2⟩ := hi
    change [Pkgs.Package.mk b!"ex.org/p" [] []][0]? = some pkg at h1
    cases h1
    cases h2

theorem visited0 : Visited inp 0 := ⟨[0], 0, rfl, by simp, .refl ⟨_, rfl, rfl⟩⟩

theorem distinct : DistinctPaths inp := fun p q hp hq _ => by rw [visited hp, visited hq]

/-- The example of C65 is preparable. -/
example : Preparable inp := (C77_prepared_iff input_ok orders_ok distinct).1 ⟨pre, prepared⟩

/-- It has one command and one specification. -/
theorem command : CommandAt inp 0 0 b!"Node" (Pointer.newGoLoose b!"ex.org/p" b!"Node") :=
  ⟨visited0, b!"//openapi:schema Node", b!":schema Node", by decide +kernel, ⟨47, 47, [], rfl, by decide, by decide⟩,
    b!"Node", .inl ⟨rfl, rfl⟩, by unfold Word; decide, by unfold Word; decide, by decide, by decide,
    fun h => absurd (Cmds.pointerLike_iff.2 h) (by decide), fun _ => rfl⟩

theorem specification : SpecAt inp 0 0 (WholeEx.spec b!"go://#/Node") := ⟨visited0, _, _, rfl, rfl, rfl, _, _, rfl, rfl⟩

/-- So it exports a component, and its type is asked for. -/
example : (⟨.schema, b!"Node", Pointer.newGoLoose b!"ex.org/p" b!"Node"⟩ : Resolver.Export) ∈ pre.exports :=
  (C77_exports input_ok orders_ok distinct prepared _).2 ⟨rfl, 0, 0, command⟩

theorem asked : ObjectAskedFor inp b!"ex.org/p" b!"Node" (.named 0) :=
  ⟨⟨0, visited0, rfl⟩, ⟨_, .inl ⟨0, 0, _, command⟩, by decide, by decide, by decide⟩, by decide⟩

example : ∃ q ∈ pre.points.at (Types.under inp.prog.env (.named 0)), q.toStr = goText b!"ex.org/p" [b!"Node"] :=
  C77_asked_for_is_registered input_ok orders_ok distinct prepared asked (toks := []) rfl (by simp [passes])

/-- The same input with the file twice. -/
def twice : Input Int := { inp with
  files := fun _ => .ok [⟨b!"/src/p/a.yaml", WholeEx.spec b!"go://#/Node"⟩, ⟨b!"/src/p/b.yaml", WholeEx.spec b!"go://#/Node"⟩] }

theorem twice_ok : InputOK twice where
  graph := input_ok.graph
  paths := input_ok.paths
  prog := input_ok.prog
  files := by
    intro p fs h f hf he
    cases h
    have h0 := input_ok.files p _ rfl ⟨b!"/src/p/openapi.yaml", WholeEx.spec b!"go://#/Node"⟩ (by simp)
    simp only [List.mem_cons, List.not_mem_nil, or_false] at hf
    rcases hf with rfl | rfl
    · exact h0 he
    · exact h0 he
  commands := input_ok.commands

theorem twice_orders : OrdersOK twice ScanEx.orders :=
  ⟨orders_ok.heap₁, orders_ok.heap₂, orders_ok.heap₃, orders_ok.exports, orders_ok.commands, orders_ok.refs, orders_ok.sort, orders_ok.pointers,
    orders_ok.types, orders_ok.pick, orders_ok.resolver, orders_ok.ops, orders_ok.defops⟩

example (fuel : Nat) : ¬ HasDoc (scan twice ScanEx.orders fuel) :=
  C78_two_specifications (p := 0) (i := 0) (p' := 0) (i' := 1) twice_ok twice_orders distinct
    ⟨visited0, _, _, rfl, rfl, rfl, _, _, rfl, rfl⟩ ⟨visited0, _, _, rfl, rfl, rfl, _, _, rfl, rfl⟩ (by simp) rfl rfl (.inl rfl) fuel

/-- The same input with a reference to an object that the package does not declare. -/
def missing : Input Int := { inp with
  files := fun _ => .ok [⟨b!"/src/p/openapi.yaml", WholeEx.spec b!"go://#/Missing"⟩] }

theorem missing_ok : InputOK missing where
  graph := input_ok.graph
  paths := input_ok.paths
  prog := input_ok.prog
  files := by
    intro p fs h f hf _
    cases h
    rw [List.mem_singleton] at hf
    subst hf
    refine ⟨⟨_, rfl⟩, wfB_sound _ (by decide), routedB_sound (pb := fun _ => true) (wfB_sound _ (by decide)) (fun _ _ => rfl) (by decide), ?_⟩
    intro x hx
    have := hasRef_mem hx
    rw [show refsB (WholeEx.spec b!"go://#/Missing") = [b!"http://ex.org/s#/Y", b!"go://#/Missing"] by decide] at this
    simp only [List.mem_cons, List.not_mem_nil, or_false] at this
    rcases this with rfl | rfl
    · exact ⟨b!"http://ex.org/s", b!"/Y", by unfold UriByte; decide, .inr rfl⟩
    · exact ⟨b!"go://", b!"/Missing", by unfold UriByte; decide, .inr rfl⟩
  commands := input_ok.commands

theorem missing_orders : OrdersOK missing ScanEx.orders :=
  ⟨orders_ok.heap₁, orders_ok.heap₂, orders_ok.heap₃, orders_ok.exports, orders_ok.commands, orders_ok.refs, orders_ok.sort, orders_ok.pointers,
    orders_ok.types, orders_ok.pick, orders_ok.resolver, orders_ok.ops, orders_ok.defops⟩

theorem absolute : Absolute b!"ex.org/p" b!"go://#/Missing" (goText b!"ex.org/p" [b!"Missing"]) := by
  have h : Pointer.parse b!"go://#/Missing" = .ok (Pointer.parseLoose b!"go://#/Missing") := by decide
  have := Absolute.here (pkg := b!"ex.org/p") h (by decide) (by decide)
  exact this

theorem only_here : OnlyAt missing [.key b!"paths", .key b!"/n", .key b!"get", .key b!"schema", .key refKey] := by
  refine ⟨?_, loneB_sound (wfB_sound _ (by decide)) (by decide)⟩
  rintro p i d ⟨_, fs, f, h1, h2, rfl, _⟩
  cases h1
  have := List.mem_of_getElem? h2
  rw [List.mem_singleton] at this
  subst this
  exact loneB_sound (wfB_sound _ (by decide)) (by decide)

example (fuel : Nat) : ¬ HasDoc (scan missing ScanEx.orders fuel) := by
  refine C79_missing_object (p := 0) (i := 0) (P := b!"/n") (L := [.key b!"get", .key b!"schema"]) (x := b!"go://#/Missing") (pkg := b!"ex.org/p")
    (f := [b!"Missing"]) missing_ok missing_orders distinct rfl (wfB_sound _ (by decide)) ?_ ⟨visited0, _, _, rfl, rfl, rfl, _, _, rfl, rfl⟩ rfl ⟨by decide, by decide⟩
    (by decide) absolute ?_ (by decide +kernel) only_here fuel
  · intro k R h
    by_cases hk : k = b!"info"
    · subst hk; exact .inr ⟨_, rfl, .inr rfl⟩
    · left
      simp [section_, child, Obj.lookup, hk]
  · intro d h
    simp only [missing, inp, List.mem_singleton, Prod.mk.injEq] at h
    exact absurd h.1 (by decide)

end PrepareEx
end Oapi.Props
