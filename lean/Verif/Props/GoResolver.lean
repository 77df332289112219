import Verif.Proofs.GoHeap13
import Verif.Props.GoHeap

/-! C110: `Resolve` in memory. -/
namespace Oapi.Props
open Spec GoHeap

variable {room : Nat} {l : List (Cmd × Res (Option Nat))} {known : List Nat} {h : GoHeap.Heap} {c : Nat}

/-- A call that returns a container ends as the computation on documents does: with a new container that holds the document, or both fail alike. -/
def ReturnsNew (known : List Nat) (r : GoHeap.Heap × Res Nat) : Res Json → Prop
  | .ok j => ∃ n, n ∉ known ∧ r.2 = .ok n ∧ content r.1 n = some j
  | .err e => r.2 = .err e
  | .panic => r.2 = .panic

/-- **C110**: in memory `Resolve` ends as it does on documents (C29 to C35), although it writes to containers in place and the paths of the nested calls share
backing arrays. -/
theorem C110_resolve_in_memory (hc : Calls room l known h) (hk : c ∈ known) {cfg : Resolver.Cfg} (hw : ∀ p j, cfg.res p = .ok j → Json.WF j) (fuel : Nat) :
    ∃ j, content h c = some j ∧ ReturnsNew known (GoHeap.resolve room cfg fuel c h) (Resolver.resolve cfg fuel j) := by
  obtain ⟨d, _, w, hd⟩ := calls_hist hc
  obtain ⟨j, hj⟩ := Option.isSome_iff_exists.1 (hd c hk)
  refine ⟨j, w.doc hj, ?_⟩
  obtain ⟨d', w', _, k⟩ := resolve_sim room cfg hw fuel w hj
  cases hx : Resolver.resolve cfg fuel j with
  | err e => rw [hx] at k; exact k
  | panic => rw [hx] at k; exact k
  | ok j' =>
    rw [hx] at k
    obtain ⟨n, k1, k2, k3⟩ := k
    refine ⟨n, fun hn => ?_, k2, w'.doc k3⟩
    have := hd n hn
    rw [k1] at this
    cases this

/-- **C110**: no container the caller has is changed by `Resolve`, whether it succeeds, fails or panics: not even the one that is resolved. -/
theorem C110_input_kept (hc : Calls room l known h) (hk : c ∈ known) {cfg : Resolver.Cfg} (hw : ∀ p j, cfg.res p = .ok j → Json.WF j) (fuel : Nat) {x : Nat}
    (hx : x ∈ known) : content (GoHeap.resolve room cfg fuel c h).1 x = content h x := by
  obtain ⟨d, _, w, hd⟩ := calls_hist hc
  obtain ⟨j, hj⟩ := Option.isSome_iff_exists.1 (hd c hk)
  obtain ⟨k, hk'⟩ := Option.isSome_iff_exists.1 (hd x hx)
  obtain ⟨d', w', f, _⟩ := resolve_sim room cfg hw fuel w hj
  rw [content, content, w.doc hk', w'.doc (f x k hk')]

/-! ### An example: nested references below one another, and a cycle -/

/-- The document: two references beside each other. -/
def refsDoc : Json := .obj [(b!"a", .obj [(b!"$ref", .str b!"go://p#/A")]), (b!"b", .obj [(b!"$ref", .str b!"go://p#/B")])]

/-- `A` refers to `B`, `B` to `A` and to `C`. -/
def refsOf (p : Pointer) : Res Json :=
  if p.toStr = b!"go://p#/A" then .ok (.obj [(b!"toB", .obj [(b!"$ref", .str b!"go://p#/B")])])
  else if p.toStr = b!"go://p#/B" then .ok (.obj [(b!"toA", .obj [(b!"$ref", .str b!"go://p#/A")]), (b!"toC", .obj [(b!"$ref", .str b!"go://p#/C")])])
  else .ok (.obj [(b!"type", .str b!"string")])

/-- `C` is exported. -/
def refsCfg : Resolver.Cfg where
  exp := [⟨.schema, b!"C", { url := { scheme := b!"go", host := b!"p" }, fragment := [b!"C"] }⟩]
  res := refsOf
  ord _ l := l

theorem refsCfg_wf : ∀ p j, refsCfg.res p = .ok j → Json.WF j := by
  intro p j hj
  simp only [refsCfg, refsOf] at hj
  split at hj
  · cases hj; exact wfB_sound _ (by decide +kernel)
  · split at hj
    · cases hj; exact wfB_sound _ (by decide +kernel)
    · cases hj; exact wfB_sound _ (by decide +kernel)

theorem refsDoc_calls : ∃ l, Calls 3 l [0] (runAll 3 [.make refsDoc]) :=
  ⟨_, .call (.make refsDoc) .start (wfB_sound _ (by decide +kernel))⟩

/-- What it should be: the cycle is cut with an empty object, `C` is a component. -/
def refsDone : Json :=
  let c : Json := .obj [(b!"$ref", .str b!"#/components/schemas/C")]
  .obj [(b!"a", .obj [(b!"toB", .obj [(b!"toA", .obj []), (b!"toC", c)])]),
    (b!"b", .obj [(b!"toA", .obj [(b!"toB", .obj [])]), (b!"toC", c)]),
    (b!"components", .obj [(b!"schemas", .obj [(b!"C", .obj [(b!"type", .str b!"string")])])])]

/-- The document `Resolve` returns. -/
def resolvedDoc (r : GoHeap.Heap × Res Nat) : Option Json :=
  match r.2 with
  | .ok n => content r.1 n
  | _ => none

example : resolvedDoc (GoHeap.resolve 3 refsCfg 9 0 (runAll 3 [.make refsDoc])) = some refsDone := by decide +kernel

example : content (GoHeap.resolve 3 refsCfg 9 0 (runAll 3 [.make refsDoc])).1 0 = some refsDoc := by decide +kernel

example : ∃ j, content (runAll 3 [.make refsDoc]) 0 = some j ∧
    ReturnsNew [0] (GoHeap.resolve 3 refsCfg 9 0 (runAll 3 [.make refsDoc])) (Resolver.resolve refsCfg 9 j) := by
  obtain ⟨l, hc⟩ := refsDoc_calls
  exact C110_resolve_in_memory hc (by simp) refsCfg_wf 9

end Oapi.Props
