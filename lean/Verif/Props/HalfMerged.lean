import Verif.Props.GoHeap
import Verif.Props.Merge

/-! C115: a merge that fails has merged a part of its source. -/
namespace Oapi.Props
open Oapi.GoHeap Spec

theorem beginning_nodup {part whole : Json} (hb : BeginningOf part whole) (hn : Json.NodupKeys whole) : Json.NodupKeys part := by
  induction hb with
  | stop before after =>
    simp only [Json.NodupKeys] at hn ⊢
    rw [Json.NodupKeysO_iff] at hn ⊢
    simp only [Obj.keys, List.map_append] at hn ⊢
    exact ⟨(List.nodup_append.1 hn.1).1, fun p hp => hn.2 p (by simp [hp])⟩
  | inside before after k _ ih =>
    simp only [Json.NodupKeys] at hn ⊢
    rw [Json.NodupKeysO_iff] at hn ⊢
    simp only [Obj.keys, List.map_append, List.map_cons, List.map_nil] at hn ⊢
    refine ⟨?_, fun p hp => ?_⟩
    · have h := hn.1
      rw [show ∀ (a b : List Str) (x : Str), a ++ x :: b = (a ++ [x]) ++ b from by simp] at h
      exact (List.nodup_append.1 h).1
    · rcases List.mem_append.1 hp with hp | hp
      · exact hn.2 p (by simp [hp])
      · rw [List.mem_singleton.1 hp]
        exact ih (hn.2 _ (List.mem_append_right _ (List.mem_cons_self ..)))

theorem nodeAt_canon_cons {m : Obj} (hn : (Obj.keys m).Nodup) (k : Str) (p : List Str) :
    nodeAt (Json.canon (.obj m)) (k :: p) = (Obj.lookup k m).bind fun c => nodeAt (Json.canon c) p := by
  simp only [Json.canon]
  rw [Container.nodeAt_obj_cons, Obj.lookup_ofList, Json.lookup_canonO]
  · cases Obj.lookup k m <;> rfl
  · rw [Json.keys_canonO]; exact hn

theorem beginning_node {part whole : Json} (hb : BeginningOf part whole) (hn : Json.NodupKeys whole) (p : List Str) (n : Spec.Node) :
    nodeAt (Json.canon part) p = some n → nodeAt (Json.canon whole) p = some n := by
  have hp := beginning_nodup hb hn
  induction hb generalizing p n with
  | stop before after =>
    cases p with
    | nil => simp [Json.canon]
    | cons k p =>
      simp only [Json.NodupKeys] at hn hp
      rw [nodeAt_canon_cons hn.1, nodeAt_canon_cons hp.1]
      intro h
      cases hl : Obj.lookup k before with
      | none => rw [hl] at h; cases h
      | some v =>
        rw [hl] at h
        rw [Obj.lookup_of_mem hn.1 (List.mem_append_left _ (Obj.lookup_mem hl))]
        exact h
  | inside before after k' hb ih =>
    cases p with
    | nil => simp [Json.canon]
    | cons k p =>
      have hn0 := hn
      simp only [Json.NodupKeys] at hn hp
      rw [Json.NodupKeysO_iff] at hn hp
      rw [nodeAt_canon_cons hn.1, nodeAt_canon_cons hp.1]
      intro h
      cases hl : Obj.lookup k (before ++ [(k', _)]) with
      | none => rw [hl] at h; cases h
      | some v =>
        rw [hl] at h
        have hm := Obj.lookup_mem hl
        rcases List.mem_append.1 hm with hm | hm
        · rw [Obj.lookup_of_mem hn.1 (List.mem_append_left _ hm)]
          exact h
        · cases List.mem_singleton.1 hm
          rw [Obj.lookup_of_mem hn.1 (List.mem_append_right _ (List.mem_cons_self ..))]
          exact ih (hn.2 _ (List.mem_append_right _ (List.mem_cons_self ..))) _ _ (hp.2 _ (List.mem_append_right _ (List.mem_cons_self ..))) h

/-- **C115**: when `Merge` reports an error, the destination has been changed: it is what it would be if a beginning of the source, in the order in which its
maps happened to be visited, had been merged into it, without an error. -/
theorem C115_beginning {room : Nat} {l : List (Cmd × Res (Option Nat))} {known : List Nat} {h : GoHeap.Heap} (hc : Calls room l known h) {c src : Nat} {f : Strategy}
    {order : Json} (hl : Legal known h (.merge c f src order)) {e : Err} (he : (exec room h (.merge c f src order)).2 = .err e) :
    ∃ before part now, content h c = some before ∧ BeginningOf part order ∧ Container.merge before part f.pure = .ok now ∧
      content (exec room h (.merge c f src order)).1 c = some now := by
  obtain ⟨d, _, h2, h3⟩ := calls_hist hc
  obtain ⟨d', k1, k2, _⟩ := exec_step room h2 h3 hl
  obtain ⟨jc, js, g1, g2, g3, ⟨j, -, g5, -⟩ | ⟨e', j, part, -, -, g6, g7, rfl⟩⟩ := k1
  · rw [he] at g5; cases g5
  · exact ⟨jc, part, j, h2.doc g1, g6, g7, k2.doc (by simp [Docs.upd])⟩

/-- **C115**: a document is not merged into another one exactly when the merge is strict and the two have different things, or things that are not objects,
at the same place. -/
theorem C115_when {room : Nat} {l : List (Cmd × Res (Option Nat))} {known : List Nat} {h : GoHeap.Heap} (hc : Calls room l known h) {c src : Nat} {f : Strategy}
    {order : Json} (hl : Legal known h (.merge c f src order)) {before source : Obj} (hb : content h c = some (.obj before)) (hs : content h src = some (.obj source)) :
    (∃ e, (exec room h (.merge c f src order)).2 = .err e) ↔ f = .strict ∧ Collide (.obj before) (.obj source) := by
  obtain ⟨d, _, h2, h3⟩ := calls_hist hc
  obtain ⟨d', k1, k2, _⟩ := exec_step room h2 h3 hl
  obtain ⟨jc, js, g1, g2, g3, k⟩ := k1
  obtain ⟨F, w1, -⟩ := id h2
  have e1 : jc = .obj before := by have := h2.doc g1; rw [content, this] at hb; exact Option.some.inj hb
  have e2 : js = .obj source := by have := h2.doc g2; rw [content, this] at hs; exact Option.some.inj hs
  subst e1 e2
  have hwc := rep_wf _ _ _ (w1 c _ g1).2
  have hws := rep_wf _ _ _ (w1 src _ g2).2
  have res : (∃ e, (exec room h (.merge c f src order)).2 = .err e) ↔ ∃ e, Container.merge (.obj before) order f.pure = .err e := by
    rcases k with ⟨j, k1, k2, -⟩ | ⟨e, j, _, k1, k2, -⟩
    · rw [k1, k2]; simp
    · rw [k1, k2]; simp
  rw [res]
  cases f with
  | strict =>
    have h17 := C17_strict_iff hwc hws g3
    refine ⟨fun ⟨e, he⟩ => ⟨rfl, ?_⟩, fun ⟨_, hcol⟩ => ⟨_, h17.2.2 hcol⟩⟩
    exact Classical.byContradiction fun hcol => by
      obtain ⟨r, hr⟩ := h17.1.2 hcol
      rw [show (Strategy.strict).pure = Container.mergeStrict from rfl, hr] at he
      cases he
  | default =>
    obtain ⟨r, hr, -⟩ := C15_default_fills hwc hws g3
    rw [show (Strategy.default).pure = Container.mergeDefault from rfl, hr]
    simp
  | override =>
    obtain ⟨r, hr, -⟩ := C16_override_fills hwc hws g3
    rw [show (Strategy.override).pure = Container.mergeOverride from rfl, hr]
    simp

/-- **C115**: nothing of a document is lost or changed by a merge into it that fails, and nothing gets into it that is not in the source, at its place. -/
theorem C115_nothing_lost {room : Nat} {l : List (Cmd × Res (Option Nat))} {known : List Nat} {h : GoHeap.Heap} (hc : Calls room l known h) {c src : Nat} {f : Strategy}
    {order : Json} (hl : Legal known h (.merge c f src order)) {e : Err} (he : (exec room h (.merge c f src order)).2 = .err e)
    {before source : Obj} (hb : content h c = some (.obj before)) (hs : content h src = some (.obj source)) :
    ∃ now, content (exec room h (.merge c f src order)).1 c = some now ∧
      (∀ p n, nodeAt (.obj before) p = some n → nodeAt now p = some n) ∧
      ∀ p n, nodeAt now p = some n → nodeAt (.obj before) p = some n ∨ nodeAt (.obj source) p = some n := by
  obtain ⟨rfl, -⟩ := (C115_when hc hl hb hs).1 ⟨e, he⟩
  obtain ⟨d, _, h2, h3⟩ := calls_hist hc
  obtain ⟨F, w1, -⟩ := id h2
  have hk : ∀ {x j}, x ∈ known → content h x = some j → Json.WF j := by
    intro x j hx hj
    obtain ⟨jx, hjx⟩ := Option.isSome_iff_exists.1 (h3 x hx)
    have := h2.doc hjx
    rw [content, this] at hj
    cases hj
    exact rep_wf _ _ _ (w1 x _ hjx).2
  have hwc := hk hl.1 hb
  have hws := hk hl.2.1 hs
  have hcan := Json.canon_reorder (hl.2.2 _ hs) (Json.NodupKeys_of_WF _ hws)
  obtain ⟨before', part, now, g1, g2, g3, g4⟩ := C115_beginning hc hl he
  rw [hb] at g1
  cases g1
  refine ⟨now, g4, ?_⟩
  have hnp := beginning_nodup g2 hcan.1
  rw [show (Strategy.strict).pure = Container.mergeStrict from rfl,
    Container.merge_canon Container.uniform_strict Container.keepsWF_strict before hwc part hnp] at g3
  obtain ⟨kvs, rfl⟩ : ∃ kvs, part = .obj kvs := by cases g2 <;> exact ⟨_, rfl⟩
  have hwp : Json.WF (Json.canon (.obj kvs)) := Json.canon_WF _ 
  have hu := ((C17_strict_iff hwc (s := Obj.ofList (Json.canonO kvs)) (by simpa [Json.canon] using hwp) (.refl _)).2.1 now (by simpa [Json.canon] using g3)).2
  refine ⟨fun p n hp => by rw [hu p, hp]; rfl, fun p n hp => ?_⟩
  rw [hu p] at hp
  cases hx : nodeAt (.obj before) p with
  | some x => rw [hx] at hp; exact .inl hp
  | none =>
    rw [hx] at hp
    right
    rw [← Json.canon_of_WF _ hws, hcan.2]
    exact beginning_node g2 hcan.1 p n (by simpa [Json.canon] using hp)

/-- **C115**: trying again does not help: what could not be merged cannot be merged now either. -/
theorem C115_again {room : Nat} {l : List (Cmd × Res (Option Nat))} {known : List Nat} {h : GoHeap.Heap} (hc : Calls room l known h) {c src : Nat} {f : Strategy}
    {order order' : Json} (hl : Legal known h (.merge c f src order)) {e : Err} (he : (exec room h (.merge c f src order)).2 = .err e) (hne : c ≠ src)
    (hl' : Legal known (exec room h (.merge c f src order)).1 (.merge c f src order'))
    {before source : Obj} (hb : content h c = some (.obj before)) (hs : content h src = some (.obj source)) :
    ∃ e', (exec room (exec room h (.merge c f src order)).1 (.merge c f src order')).2 = .err e' := by
  obtain ⟨rfl, p, x, y, hx, hy, hxy⟩ := (C115_when hc hl hb hs).1 ⟨e, he⟩
  obtain ⟨now, g1, g2, g3⟩ := C115_nothing_lost hc hl he hb hs
  have hnow : ∃ m, now = .obj m := by
    have := g2 [] .obj (Container.nodeAt_obj_nil _)
    rcases Container.isObj_cases now with h | h
    · rw [Container.nodeAt_leaf h] at this; cases this
    · exact h
  obtain ⟨m, rfl⟩ := hnow
  have hc' := Calls.call (.merge c .strict src order) hc hl
  rw [he] at hc'
  have hk := C107_others_keep hc (.merge c .strict src order) hl hl.2.1 (by simpa [target] using hne)
  exact (C115_when hc' hl' g1 (hk.trans hs)).2 ⟨rfl, p, x, y, g2 _ _ hx, hy, hxy⟩

/-! A program: two documents that collide are merged. -/

/-- A document. -/
def halfDest : Json := .obj [(b!"info", .obj [(b!"title", .str b!"x")])]
/-- One that has another title, and tags. -/
def halfSrc : Json := .obj [(b!"info", .obj [(b!"title", .str b!"y")]), (b!"tags", .arr [.str b!"a"])]
/-- The same, with its members in the other order. -/
def halfSrc' : Json := .obj [(b!"tags", .arr [.str b!"a"]), (b!"info", .obj [(b!"title", .str b!"y")])]

theorem half_reorder : Spec.Reorder halfSrc halfSrc' := .shuffle (List.Perm.swap ..)

theorem half_calls : ∃ l, Calls 2 l [1, 0] (runAll 2 [.make halfDest, .make halfSrc]) :=
  ⟨_, Calls.call (.make halfSrc) (Calls.call (room := 2) (.make halfDest) .start (Oapi.wfB_sound halfDest (by decide +kernel))) (Oapi.wfB_sound halfSrc (by decide +kernel))⟩

theorem half_legal {order : Json} (h : Spec.Reorder halfSrc order) : Legal [1, 0] (runAll 2 [.make halfDest, .make halfSrc]) (.merge 0 .strict 1 order) := by
  have hd : content (runAll 2 [.make halfDest, .make halfSrc]) 1 = some halfSrc := by decide +kernel
  exact ⟨by decide +kernel, by decide +kernel, fun j hj => by
    have : some halfSrc = some j := hd.symm.trans hj
    cases this; exact h⟩

/-- **C115**: what a merge that fails leaves behind depends on the order in which maps are visited, which Go does not specify: the same two documents, the same
error, and two different outcomes. -/
theorem C115_order_shows : ∃ (l : List (Cmd × Res (Option Nat))) (known : List Nat) (h : GoHeap.Heap) (c src : Nat) (o o' : Json) (e : Err), Calls 2 l known h ∧
    Legal known h (.merge c .strict src o) ∧ Legal known h (.merge c .strict src o') ∧
    (exec 2 h (.merge c .strict src o)).2 = .err e ∧ (exec 2 h (.merge c .strict src o')).2 = .err e ∧
    content (exec 2 h (.merge c .strict src o)).1 c ≠ content (exec 2 h (.merge c .strict src o')).1 c := by
  obtain ⟨l, hl⟩ := half_calls
  exact ⟨l, _, _, 0, 1, halfSrc, halfSrc', .collision, hl, half_legal (.refl _), half_legal half_reorder, by decide +kernel, by decide +kernel, by decide +kernel⟩

/-- The tags came in before the collision was met; the title stayed. -/
example : content (exec 2 (runAll 2 [.make halfDest, .make halfSrc]) (.merge 0 .strict 1 halfSrc')).1 0 =
    some (.obj [(b!"info", .obj [(b!"title", .str b!"x")]), (b!"tags", .arr [.str b!"a"])]) := by decide +kernel

end Oapi.Props
