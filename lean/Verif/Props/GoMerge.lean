import Verif.Proofs.GoHeap14
import Verif.Props.GoResolver

/-! C111: `Containers.Merge` and `MergeWithRoot` in memory, where the sections are containers that look into the documents. -/
namespace Oapi.Props
open Oapi.GoHeap Spec

section
variable {room : Nat} {l : List (Cmd × Res (Option Nat))} {known : List Nat} {h : GoHeap.Heap} {c : Nat}

/-- A call that changes container `c` ends as the computation on documents does: the container holds the document, or both fail alike. -/
def ChangesTo (c : Nat) (r : GoHeap.Heap × Res Unit) : Res Json → Prop
  | .ok j => r.2 = .ok () ∧ content r.1 c = some j
  | .err e => r.2 = .err e
  | .panic => r.2 = .panic

/-- **C111**: in memory `Containers.Merge` ends as it does on documents (C15 to C20), whatever the order the maps are visited in; a container may be listed
more than once.  No container the caller has is changed. -/
theorem C111_merge_containers (hc : Calls room l known h) {cc : List Nat} (hk : ∀ x ∈ cc, x ∈ known) (f : Strategy) {ord : Nat → Json → Json}
    (ho : ∀ n j, Reorder j (ord n j)) :
    ∃ js : List Json, cc.map (content h) = js.map some ∧ ReturnsNew known (GoHeap.mergeAll room f ord cc h) (Container.mergeAll f.pure js) ∧
      ∀ x ∈ known, content (GoHeap.mergeAll room f ord cc h).1 x = content h x := by
  obtain ⟨d, _, w, h3⟩ := calls_hist hc
  have hs : ∀ x ∈ known, ∃ j, d x = some j := fun x hx => Option.isSome_iff_exists.1 (h3 x hx)
  have hd : cc.map d = (cc.map fun x => (d x).getD .null).map some := by
    rw [List.map_map]
    refine List.map_congr_left fun x hx => ?_
    obtain ⟨j, hj⟩ := hs x (hk x hx)
    simp [hj]
  have hcont : cc.map (content h) = cc.map d := by
    refine List.map_congr_left fun x hx => ?_
    obtain ⟨j, hj⟩ := hs x (hk x hx)
    rw [content, w.doc hj, hj]
  obtain ⟨n, hn, hr⟩ := mergeAll_world room f ho w hd
  have keep : ∀ {h' : GoHeap.Heap} {j : Json}, World h' (d.upd n j) → ∀ x ∈ known, content h' x = content h x := by
    intro h' j w' x hx
    obtain ⟨k, hk⟩ := hs x hx
    rw [content, content, w.doc hk, w'.doc (j := k)]
    rw [upd_ne _ _ (by rintro rfl; rw [hn] at hk; cases hk)]
    exact hk
  refine ⟨_, hcont.trans hd, ?_⟩
  cases hg : Container.mergeAll f.pure (cc.map fun x => (d x).getD .null) with
  | panic =>
    rw [hg] at hr
    obtain ⟨e, j, w'⟩ := hr
    exact ⟨e, keep w'⟩
  | err e' =>
    rw [hg] at hr
    obtain ⟨e, j, w'⟩ := hr
    exact ⟨e, keep w'⟩
  | ok j =>
    rw [hg] at hr
    obtain ⟨e, w'⟩ := hr
    refine ⟨⟨n, fun hx => ?_, e, w'.doc (upd_self _ _ _)⟩, keep w'⟩
    obtain ⟨k, hk⟩ := hs n hx
    rw [hn] at hk
    cases hk

/-- **C111**: in memory `MergeWithRoot` ends as it does on documents (C21, C22), whatever the order the maps are visited in, although the sections it merges
look into the document it changes; no other container is changed. -/
theorem C111_merge_with_root (hc : Calls room l known h) (hk : c ∈ known) {m : Obj} (hm : content h c = some (.obj m)) {root : Json} (hw : Json.WF root)
    {ord : Str → Nat → Json → Json} (ho : ∀ k n j, Reorder j (ord k n j)) :
    ChangesTo c (GoHeap.mergeWithRoot room ord root c h) (OAPI.mergeWithRoot root (.obj m)) ∧
      ∀ x ∈ known, x ≠ c → content (GoHeap.mergeWithRoot room ord root c h).1 x = content h x := by
  obtain ⟨d, _, w, h3⟩ := calls_hist hc
  have hs : ∀ x ∈ known, ∃ j, d x = some j := fun x hx => Option.isSome_iff_exists.1 (h3 x hx)
  obtain ⟨j, hj⟩ := hs c hk
  have hd : d c = some (.obj m) := by
    rw [content, w.doc hj] at hm
    rw [hj, hm]
  obtain ⟨d', kd, hr⟩ := mergeWithRoot_world room ho hw w hd
  have keep : ∀ {h' : GoHeap.Heap} {j : Json}, World h' (d'.upd c j) → ∀ x ∈ known, x ≠ c → content h' x = content h x := by
    intro h' j w' x hx hne
    obtain ⟨k, hk⟩ := hs x hx
    rw [content, content, w.doc hk, w'.doc (j := k)]
    rw [upd_ne _ _ hne]
    exact kd x k hne hk
  cases hg : OAPI.mergeWithRoot root (.obj m) with
  | panic =>
    rw [hg] at hr
    obtain ⟨e, j, w'⟩ := hr
    exact ⟨e, keep w'⟩
  | err e' =>
    rw [hg] at hr
    obtain ⟨e, j, w'⟩ := hr
    exact ⟨e, keep w'⟩
  | ok j =>
    rw [hg] at hr
    obtain ⟨e, w'⟩ := hr
    exact ⟨⟨e, w'.doc (upd_self _ _ _)⟩, keep w'⟩

end

/-! Two documents are merged, then a root document into the result; maps are visited backwards. -/

/-- The first document. -/
def oneFile : Json := .obj [(b!"info", .obj [(b!"title", .str b!"A"), (b!"x", .obj [(b!"y", .num 1)])]), (b!"paths", .obj [(b!"/a", .obj [])])]

/-- The second document. -/
def otherFile : Json := .obj [(b!"info", .obj [(b!"x", .obj [(b!"z", .num 2)])]), (b!"tags", .obj [(b!"t", .arr [.num 3])])]

/-- The root document. -/
def rootFile : Json := .obj [(b!"info", .obj [(b!"title", .str b!"B")]), (b!"paths", .obj [(b!"/a", .obj [(b!"get", .obj [])]), (b!"/b", .obj [])])]

/-- The members of an object, last one first. -/
def backwards : Json → Json
  | .obj m => .obj m.reverse
  | j => j

theorem backwards_order (j : Json) : Reorder j (backwards j) := by
  cases j with
  | obj m => exact .shuffle (List.reverse_perm m).symm
  | _ => exact .refl _

theorem files_calls : ∃ l, Calls 1 l [1, 0] (runAll 1 [.make oneFile, .make otherFile]) :=
  ⟨_, .call (.make otherFile) (.call (.make oneFile) .start (wfB_sound _ (by decide +kernel))) (wfB_sound _ (by decide +kernel))⟩

/-- Both files. -/
def bothFiles : Json := .obj [(b!"info", .obj [(b!"title", .str b!"A"), (b!"x", .obj [(b!"y", .num 1), (b!"z", .num 2)])]), (b!"paths", .obj [(b!"/a", .obj [])]),
  (b!"tags", .obj [(b!"t", .arr [.num 3])])]

example : resolvedDoc (GoHeap.mergeAll 1 .strict (fun _ => backwards) [0, 1] (runAll 1 [.make oneFile, .make otherFile])) = some bothFiles := by decide +kernel

example : ∃ js : List Json, [0, 1].map (content (runAll 1 [.make oneFile, .make otherFile])) = js.map some ∧
    ReturnsNew [1, 0] (GoHeap.mergeAll 1 .strict (fun _ => backwards) [0, 1] (runAll 1 [.make oneFile, .make otherFile])) (Container.mergeAll Container.mergeStrict js) := by
  obtain ⟨l, hc⟩ := files_calls
  obtain ⟨js, h1, h2, _⟩ := C111_merge_containers hc (cc := [0, 1]) (by decide +kernel) .strict (fun _ => backwards_order)
  exact ⟨js, h1, h2⟩

theorem bothFiles_calls : ∃ l, Calls 1 l [0] (runAll 1 [.make bothFiles]) := ⟨_, .call (.make bothFiles) .start (wfB_sound _ (by decide +kernel))⟩

/-- The root's title wins, the document's path wins. -/
def rootDone : Json := .obj [(b!"info", .obj [(b!"title", .str b!"B"), (b!"x", .obj [(b!"y", .num 1), (b!"z", .num 2)])]),
  (b!"paths", .obj [(b!"/a", .obj [(b!"get", .obj [])]), (b!"/b", .obj [])]), (b!"tags", .obj [(b!"t", .arr [.num 3])])]

example : content (GoHeap.mergeWithRoot 1 (fun _ _ => backwards) rootFile 0 (runAll 1 [.make bothFiles])).1 0 = some rootDone := by decide +kernel

example : ∃ m, content (runAll 1 [.make bothFiles]) 0 = some (.obj m) ∧
    ChangesTo 0 (GoHeap.mergeWithRoot 1 (fun _ _ => backwards) rootFile 0 (runAll 1 [.make bothFiles])) (OAPI.mergeWithRoot rootFile (.obj m)) := by
  obtain ⟨l, hc⟩ := bothFiles_calls
  have hd : content (runAll 1 [.make bothFiles]) 0 = some bothFiles := by decide +kernel
  exact ⟨_, hd, (C111_merge_with_root hc (by simp) hd (wfB_sound _ (by decide +kernel)) (fun _ _ => backwards_order)).1⟩

end Oapi.Props
