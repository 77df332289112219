import Verif.Proofs.GoHeap6
import Verif.Proofs.Check

/-! C107: containers are values, although they are trees of maps and slices in memory that are changed in place. -/
namespace Oapi.Props
open Oapi.GoHeap

/-- What the caller reads from a container. -/
abbrev content (h : GoHeap.Heap) (c : Nat) : Option Json := GoHeap.doc h.mem (data h (some c))

/-- **C107**: whatever a program does with `New`, `Make`, `Clone`, `SetP` and `Merge`, each call returns, and each container holds, what it would if containers
were independent values.  This is so for every growth of slices and every order maps are visited in. -/
theorem C107_values {room : Nat} {l : List (Cmd × Res (Option Nat))} {known : List Nat} {h : GoHeap.Heap} (hc : Calls room l known h) :
    ∃ d, Hist (fun _ => none) l d ∧ ∀ c ∈ known, ∃ j, d c = some j ∧ content h c = some j := by
  obtain ⟨d, h1, h2, h3⟩ := calls_hist hc
  refine ⟨d, h1, fun c hk => ?_⟩
  obtain ⟨j, hj⟩ := Option.isSome_iff_exists.1 (h3 c hk)
  exact ⟨j, hj, h2.doc hj⟩

/-- **C107**: a call changes no container but the one it is made on. -/
theorem C107_others_keep {room : Nat} {l : List (Cmd × Res (Option Nat))} {known : List Nat} {h : GoHeap.Heap} (hc : Calls room l known h) (cmd : Cmd)
    (hl : Legal known h cmd) {c : Nat} (hk : c ∈ known) (ht : target cmd ≠ some c) : content (exec room h cmd).1 c = content h c := by
  obtain ⟨d, _, h2, h3⟩ := calls_hist hc
  obtain ⟨d', k1, k2, _⟩ := exec_step room h2 h3 hl
  obtain ⟨j, hj⟩ := Option.isSome_iff_exists.1 (h3 c hk)
  have hu : ∀ {n : Nat} {x : Json}, (d n = none ∨ n ≠ c) → (d.upd n x) c = some j := by
    intro n x hn
    simp only [Docs.upd]
    split
    · rename_i e
      subst e
      rcases hn with hn | hn
      · simp [hn] at hj
      · exact absurd rfl hn
    · exact hj
  have hd : d' c = some j := by
    cases cmd with
    | new => obtain ⟨n, hn, -, rfl⟩ := k1; exact hu (.inl hn)
    | make x => obtain ⟨n, hn, -, rfl⟩ := k1; exact hu (.inl hn)
    | clone x => obtain ⟨n, _, hn, -, -, rfl⟩ := k1; exact hu (.inl hn)
    | setP x p src =>
      obtain ⟨_, _, -, -, k | k⟩ := k1
      · obtain ⟨_, -, -, rfl⟩ := k; exact hu (.inr fun e => ht (by rw [target, e]))
      · obtain ⟨_, -, -, rfl⟩ := k; exact hj
    | merge x f src o =>
      obtain ⟨_, _, -, -, -, k | k⟩ := k1
      · obtain ⟨_, -, -, rfl⟩ := k; exact hu (.inr fun e => ht (by rw [target, e]))
      · obtain ⟨_, _, _, -, -, -, -, rfl⟩ := k; exact hu (.inr fun e => ht (by rw [target, e]))
  rw [content, content, k2.doc hd, h2.doc hj]

/-- **C107**: each container is a tree, and no two containers share a map or a slice. -/
theorem C107_no_sharing {room : Nat} {l : List (Cmd × Res (Option Nat))} {known : List Nat} {h : GoHeap.Heap} (hc : Calls room l known h) :
    ∃ F : Nat → List Nat, (∀ c ∈ known, ∃ j, Rep h.mem j (data h (some c)) (F c)) ∧ ∀ c ∈ known, ∀ c' ∈ known, c ≠ c' → ∀ a ∈ F c, a ∉ F c' := by
  obtain ⟨d, _, ⟨F, h1, h2⟩, h3⟩ := calls_hist hc
  have hs : ∀ c ∈ known, ∃ j, d c = some j := fun c hk => Option.isSome_iff_exists.1 (h3 c hk)
  refine ⟨F, fun c hk => ?_, fun c hk c' hk' hne => ?_⟩
  · obtain ⟨j, hj⟩ := hs c hk
    exact ⟨j, (h1 c j hj).2⟩
  · obtain ⟨j, hj⟩ := hs c hk
    obtain ⟨j', hj'⟩ := hs c' hk'
    exact h2 c c' j j' hj hj' hne

/-- **C107**: a copy holds what the original holds. -/
theorem C107_clone_copies {room : Nat} {l : List (Cmd × Res (Option Nat))} {known : List Nat} {h : GoHeap.Heap} (hc : Calls room l known h) {c : Nat} (hk : c ∈ known) :
    ∃ n, n ∉ known ∧ (exec room h (.clone c)).2 = .ok (some n) ∧ content (exec room h (.clone c)).1 n = content h c := by
  obtain ⟨d, _, h2, h3⟩ := calls_hist hc
  obtain ⟨d', ⟨n, j, hn, hj, hr, rfl⟩, k2, _⟩ := exec_step room h2 h3 (cmd := .clone c) hk
  refine ⟨n, fun hm => ?_, hr, ?_⟩
  · have := h3 n hm; simp [hn] at this
  · rw [content, content, k2.doc (c := n) (j := j) (by simp [Docs.upd]), h2.doc hj]

/-! A program: two documents; the second is merged into the first, then changed. -/

/-- A document with a map and a list. -/
def first : Json := .obj [(b!"info", .obj [(b!"tags", .arr [.str b!"a"])])]

/-- Another one. -/
def second : Json := .obj [(b!"info", .obj [(b!"title", .obj [(b!"en", .str b!"t")])])]

/-- The calls so far: `a := Make(first)`, `b := Make(second)`, `a.Merge(b, strict)`, `b.SetP("info.title.en", a)`, `a.SetP("info.tags.-", b)`. -/
def program : List Cmd := [.make first, .make second, .merge 0 .strict 1 second, .setP 1 b!"info.title.en" 0, .setP 0 b!"info.tags.-" 1]

/-- Memory after them. -/
def runAll (room : Nat) (cmds : List Cmd) : GoHeap.Heap := cmds.foldl (fun h c => (exec room h c).1) ⟨[], []⟩

theorem program_calls : ∃ l, Calls 2 l [1, 0] (runAll 2 program) := by
  have w1 : Json.WF first := Oapi.wfB_sound _ (by decide +kernel)
  have w2 : Json.WF second := Oapi.wfB_sound _ (by decide +kernel)
  have c1 := Calls.call (room := 2) (.make first) .start w1
  have c2 := Calls.call (.make second) c1 w2
  have hd : content (runAll 2 [.make first, .make second]) 1 = some second := by decide +kernel
  have c3 := Calls.call (.merge 0 .strict 1 second) c2 ⟨by decide +kernel, by decide +kernel, fun j hj => by
    have : some second = some j := hd.symm.trans hj
    cases this; exact .refl _⟩
  exact ⟨_, Calls.call (.setP 0 b!"info.tags.-" 1) (Calls.call (.setP 1 b!"info.title.en" 0) c3 ⟨by decide +kernel, by decide +kernel⟩) ⟨by decide +kernel, by decide +kernel⟩⟩

/-- The merged member was moved from a copy: `b`'s own map is not part of `a`, and `a` is not part of `b`. -/
example : (content (runAll 2 program) 0).bind (Spec.getAt · [.key b!"info", .key b!"title", .key b!"en"]) = some (.str b!"t") ∧
    (content (runAll 2 program) 1).bind (Spec.getAt · [.key b!"info", .key b!"title", .key b!"en", .key b!"info", .key b!"tags"]) = some (.arr [.str b!"a"]) ∧
    (content (runAll 2 program) 0).bind (Spec.getAt · [.key b!"info", .key b!"tags", .idx 1]) = content (runAll 2 program) 1 := by
  decide +kernel

end Oapi.Props
