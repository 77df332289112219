import Verif.Proofs.GoHeap12
import Verif.Props.GoHeap

/-! C109: what `Path` returns is the part itself. -/
namespace Oapi.Props
open Oapi.GoHeap Spec

section
variable {room : Nat} {l : List (Cmd × Res (Option Nat))} {known : List Nat} {h : GoHeap.Heap} {c : Nat} {p : Str} {L : Loc} {j x : Json}

/-- The new container. -/
theorem path_view (hc : Calls room l known h) (hk : c ∈ known) (hj : content h c = some j) (hs : b!"*" ∉ Gabs.dotPathToSlice p) (hn : NamesAll (Gabs.dotPathToSlice p) L)
    (hx : getAt j L = some x) : ∃ d F v A, WorldF h d F ∧ (∀ y ∈ known, (d y).isSome = true) ∧ d c = some j ∧ d h.objs.length = none ∧ Rep h.mem x v A ∧
      GoHeap.path p c h = (⟨h.mem, h.objs ++ [v]⟩, some h.objs.length) ∧ search (Gabs.dotPathToSlice p) (data h (some c)) h.mem = (h.mem, some v) := by
  obtain ⟨d, _, w, h3⟩ := calls_hist hc
  obtain ⟨j', hj'⟩ := Option.isSome_iff_exists.1 (h3 c hk)
  have e := w.doc hj'
  rw [show GoHeap.doc h.mem (data h (some c)) = some j from hj] at e
  cases e
  obtain ⟨F, w⟩ := w
  obtain ⟨v, A, f1, f2, -⟩ := view_focus _ L hs hn (w.1 c j hj').2 hx
  refine ⟨d, F, v, A, w, h3, hj', ?_, f2, by simp only [GoHeap.path, f1], f1⟩
  cases hd : d h.objs.length with
  | none => rfl
  | some y => exact absurd (w.1 _ _ hd).1 (by omega)

/-- **C109**: `Path` returns a container that holds what stands at the location; nothing else changes. -/
theorem C109_view (hc : Calls room l known h) (hk : c ∈ known) (hj : content h c = some j) (hs : b!"*" ∉ Gabs.dotPathToSlice p) (hn : NamesAll (Gabs.dotPathToSlice p) L)
    (hx : getAt j L = some x) : ∃ h' w, GoHeap.path p c h = (h', some w) ∧ w ∉ known ∧ content h' w = some x ∧ ∀ y ∈ known, content h' y = content h y := by
  obtain ⟨d, F, v, A, w, h3, hj', hnone, f2, f3, -⟩ := path_view hc hk hj hs hn hx
  refine ⟨_, _, f3, fun hm => ?_, ?_, fun y hy => ?_⟩
  · have := h3 _ hm; simp [hnone] at this
  · have e : data ⟨h.mem, h.objs ++ [v]⟩ (some h.objs.length) = v := by simp [data, List.getD]
    rw [content, e]
    exact doc_rep f2
  · obtain ⟨j', hj'⟩ := Option.isSome_iff_exists.1 (h3 y hy)
    have := (w.1 y j' hj').1
    have e : data ⟨h.mem, h.objs ++ [v]⟩ (some y) = data h (some y) := by simp [data, List.getD, List.getElem?_append_left this]
    rw [content, content, e]

/-- **C109**: from then on, as long as nothing else is written to the whole, whatever is written to the part (a map or a list) is written to the whole, at that
location and nowhere else; all other containers are as independent as before. -/
theorem C109_writes_through (hc : Calls room l known h) (hk : c ∈ known) (hj : content h c = some j) (hs : b!"*" ∉ Gabs.dotPathToSlice p)
    (hn : NamesAll (Gabs.dotPathToSlice p) L) (hx : getAt j L = some x) (hsc : scalar x = false) {h' : GoHeap.Heap} {w : Nat} (hp : GoHeap.path p c h = (h', some w))
    {l' : List (Cmd × Res (Option Nat))} {known' : List Nat} {h2 : GoHeap.Heap} (ha : Away room c (w :: known) h' l' known' h2) :
    ∃ d0 d, (∀ y ∈ w :: known, d0 y = content h' y ∧ (d0 y).isSome = true) ∧ ViewHist c w L d0 l' d ∧ (∀ y ∈ known', ∃ jy, d y = some jy ∧ content h2 y = some jy) ∧
      ∃ j' x', content h2 c = some j' ∧ content h2 w = some x' ∧ getAt j' L = some x' := by
  obtain ⟨d, F, v, A, wf, h3, hj', hnone, f2, f3, f4⟩ := path_view hc hk hj hs hn hx
  rw [f3] at hp
  cases hp
  have hcl := (wf.1 c j hj').1
  have hd : ∀ {y : Nat}, y < h.objs.length → data ⟨h.mem, h.objs ++ [v]⟩ (some y) = data h (some y) := by
    intro y hy; simp [data, List.getD, List.getElem?_append_left hy]
  have hw : data ⟨h.mem, h.objs ++ [v]⟩ (some h.objs.length) = v := by simp [data, List.getD]
  have hwo : without (d.upd h.objs.length x) h.objs.length = d := by
    rw [without_self]
    funext y
    simp only [without]
    split
    · rename_i e; rw [e, hnone]
    · rfl
  have V : ViewW c h.objs.length L (Gabs.dotPathToSlice p) ⟨h.mem, h.objs ++ [v]⟩ (d.upd h.objs.length x) F := by
    refine ⟨?_, by omega, by simp, ⟨j, x, ?_, by simp [Docs.upd], hx, hsc⟩, by rw [hd hcl, hw]; exact f4⟩
    · rw [hwo]
      refine ⟨fun y jy hy => ?_, wf.2⟩
      have := wf.1 y jy hy
      exact ⟨by simp; omega, by rw [hd this.1]; exact this.2⟩
    · simp only [Docs.upd]; rw [if_neg (by omega)]; exact hj'
  have hk0 : ∀ y ∈ h.objs.length :: known, ((d.upd h.objs.length x) y).isSome = true := by
    intro y hy
    simp only [Docs.upd]
    split
    · rfl
    · rename_i hne
      rcases List.mem_cons.1 hy with hy | hy
      · exact absurd hy hne
      · exact h3 y hy
  obtain ⟨d', v1, ⟨F', V'⟩, v3⟩ := away_hist V hs hn hk0 ha
  have hread : ∀ {H : GoHeap.Heap} {D : Docs} {G : Nat → List Nat}, ViewW c h.objs.length L (Gabs.dotPathToSlice p) H D G → ∀ {y jy}, D y = some jy → content H y = some jy := by
    intro H D G W y jy hy
    obtain ⟨-, B, hB⟩ := W.rep hs hn hy
    exact doc_rep hB
  refine ⟨_, d', fun y hy => ?_, v1, fun y hy => ?_, ?_⟩
  · obtain ⟨jy, e⟩ := Option.isSome_iff_exists.1 (hk0 y hy)
    rw [e, hread V e]
    exact ⟨rfl, rfl⟩
  · obtain ⟨jy, e⟩ := Option.isSome_iff_exists.1 (v3 y hy)
    exact ⟨jy, e, hread V' e⟩
  · obtain ⟨j', x', e1, e2, e3, -⟩ := V'.docs
    exact ⟨j', x', hread V' e1, hread V' e2, e3⟩

/-- **C109**: one `SetP` on the part. -/
theorem C109_setP_on_part (hc : Calls room l known h) (hk : c ∈ known) (hj : content h c = some j) (hs : b!"*" ∉ Gabs.dotPathToSlice p)
    (hn : NamesAll (Gabs.dotPathToSlice p) L) (hx : getAt j L = some x) (hsc : scalar x = false) {h' : GoHeap.Heap} {w : Nat} (hp : GoHeap.path p c h = (h', some w))
    {q : Str} {src : Nat} {js x' : Json} (hsrc : src ∈ w :: known) (hjs : content h' src = some js) (hset : Container.setP x q js = .ok x') :
    (exec room h' (.setP w q src)).2 = .ok none ∧ content (exec room h' (.setP w q src)).1 w = some x' ∧
      content (exec room h' (.setP w q src)).1 c = some (putAt x' L j) := by
  obtain ⟨h1, w1, k1, k2, k3, k4⟩ := C109_view hc hk hj hs hn hx
  rw [hp] at k1
  cases k1
  have hne : w ≠ c := fun e => k2 (e ▸ hk)
  obtain ⟨d0, d, e1, e2, e3, e4⟩ := C109_writes_through hc hk hj hs hn hx hsc hp
    (Away.call (room := room) (.setP w q src) .start ⟨List.mem_cons_self, hsrc⟩ (fun e => hne (by simpa [target] using e)))
  have hw0 : d0 w = some x := by rw [(e1 w List.mem_cons_self).1]; exact k3
  have hc0 : d0 c = some j := by rw [(e1 c (List.mem_cons_of_mem _ hk)).1, k4 c hk]; exact hj
  have hs0 : d0 src = some js := by rw [(e1 src hsrc).1]; exact hjs
  have one : ∀ {l1 d1}, ViewHist c w L d0 l1 d1 → l1 = [(.setP w q src, (exec room h' (.setP w q src)).2)] →
      (exec room h' (.setP w q src)).2 = .ok none ∧ d1 = (d0.upd w x').upd c (putAt x' L j) := by
    intro l1 d1 hv hl
    cases hv with
    | nil => cases hl
    | other v1 v2 v3 =>
      obtain ⟨z1, z2⟩ := List.append_inj' (hl.trans (List.nil_append _).symm) rfl
      cases z2
      exact absurd rfl v2
    | part v1 v2 v3 v4 v5 =>
      obtain ⟨z1, z2⟩ := List.append_inj' (hl.trans (List.nil_append _).symm) rfl
      subst z1
      simp only [List.cons.injEq, Prod.mk.injEq, and_true] at z2
      obtain ⟨rfl, rfl⟩ := z2
      have hd : ∀ {a b : Docs} {l0}, ViewHist c w L a l0 b → l0 = [] → b = a := by
        intro a b l0 hv e
        cases hv with
        | nil => rfl
        | other => simp at e
        | part => simp at e
      have := hd v1 rfl
      subst this
      obtain ⟨a, b, g1, g2, g3⟩ := v3
      rw [hw0] at g1
      rw [hs0] at g2
      cases g1
      cases g2
      rw [hset] at g3
      rcases g3 with ⟨y, g4, g5, rfl⟩ | ⟨e, g4, -⟩
      · cases g4
        refine ⟨g5, ?_⟩
        simp only [Docs.upd, if_neg (Ne.symm hne), if_true] at v4 v5
        rw [hc0] at v4
        cases v4
        cases v5
        rfl
      · cases g4
  obtain ⟨r1, r2⟩ := one e2 rfl
  rw [r2] at e3
  have hkn : ∀ y ∈ w :: known, y ∈ learn (exec room h' (.setP w q src)).2 (w :: known) := by
    intro y hy; rw [r1]; exact hy
  refine ⟨r1, ?_, ?_⟩
  · obtain ⟨jy, y1, y2⟩ := e3 w (hkn w List.mem_cons_self)
    simp [Docs.upd, hne] at y1
    rw [y2, y1]
  · obtain ⟨jy, y1, y2⟩ := e3 c (hkn c (List.mem_cons_of_mem _ hk))
    simp [Docs.upd] at y1
    rw [y2, y1]

/-- **C109**: a view of a scalar is a copy: calls on it change no other container. -/
theorem C109_scalar_copy (hc : Calls room l known h) (hk : c ∈ known) (hj : content h c = some j) (hs : b!"*" ∉ Gabs.dotPathToSlice p)
    (hn : NamesAll (Gabs.dotPathToSlice p) L) (hx : getAt j L = some x) (hsc : scalar x = true) {h' : GoHeap.Heap} {w : Nat} (hp : GoHeap.path p c h = (h', some w))
    {cmd : Cmd} (hl : Legal (w :: known) h' cmd) (ht : target cmd = some w) : ∀ y ∈ known, content (exec room h' cmd).1 y = content h y := by
  obtain ⟨d, F, v, A, wf, h3, hj', hnone, f2, f3, f4⟩ := path_view hc hk hj hs hn hx
  rw [f3] at hp
  cases hp
  have hA : A = [] := by
    cases x with
    | obj m => cases hsc
    | arr m => cases hsc
    | null => exact f2.2
    | bool b => exact f2.2
    | num b => exact f2.2
    | str b => exact f2.2
  subst hA
  have W : World ⟨h.mem, h.objs ++ [v]⟩ (d.upd h.objs.length x) := (world_new ⟨F, wf⟩ (Changes.refl _ _) f2 (by simp)).1
  have hk0 : ∀ y ∈ h.objs.length :: known, ((d.upd h.objs.length x) y).isSome = true := by
    intro y hy
    simp only [Docs.upd]
    split
    · rfl
    · rename_i hne
      rcases List.mem_cons.1 hy with hy | hy
      · exact absurd hy hne
      · exact h3 y hy
  obtain ⟨d', k1, k2, -⟩ := exec_step room W hk0 hl
  intro y hy
  obtain ⟨jy, hjy⟩ := Option.isSome_iff_exists.1 (h3 y hy)
  have hyw : y ≠ h.objs.length := fun e => by rw [e, hnone] at hjy; cases hjy
  have hd0 : (d.upd h.objs.length x) y = some jy := by simp only [Docs.upd, if_neg hyw, hjy]
  have hd : d' y = some jy := by
    have hu : ∀ z : Json, ((d.upd h.objs.length x).upd h.objs.length z) y = some jy := by
      intro z; rw [Docs.upd, if_neg hyw]; exact hd0
    cases cmd with
    | new => cases ht
    | make z => cases ht
    | clone z => cases ht
    | setP t q src =>
      cases ht
      obtain ⟨_, _, -, -, k | k⟩ := k1
      · obtain ⟨_, -, -, rfl⟩ := k; exact hu _
      · obtain ⟨_, -, -, rfl⟩ := k; exact hd0
    | merge t f src o =>
      cases ht
      obtain ⟨_, _, -, -, -, k | k⟩ := k1
      · obtain ⟨_, -, -, rfl⟩ := k; exact hu _
      · obtain ⟨_, _, _, -, -, -, -, rfl⟩ := k; exact hu _
  rw [content, content, k2.doc hd, World.doc ⟨F, wf⟩ hjy]

end

/-! The program of C107, with a view of a list. -/

/-- What the first container holds then. -/
def viewDoc : Json := (content (runAll 2 program) 0).getD .null

theorem view_doc : content (runAll 2 program) 0 = some viewDoc := by decide +kernel

/-- Writing to `info` writes to the document. -/
example : ∃ h' w x', GoHeap.path b!"info" 0 (runAll 2 program) = (h', some w) ∧ content (exec 2 h' (.setP w b!"tags.0" 1)).1 w = some x' ∧
    content (exec 2 h' (.setP w b!"tags.0" 1)).1 0 = some (putAt x' [.key b!"info"] viewDoc) ∧ putAt x' [.key b!"info"] viewDoc ≠ viewDoc := by
  obtain ⟨l, hc⟩ := program_calls
  have hs : b!"*" ∉ Gabs.dotPathToSlice b!"info" := by decide +kernel
  have hd : Gabs.dotPathToSlice b!"info" = [b!"info"] := by decide +kernel
  have hn : NamesAll (Gabs.dotPathToSlice b!"info") [.key b!"info"] := by rw [hd]; exact ⟨rfl, trivial⟩
  cases hx : getAt viewDoc [.key b!"info"] with
  | none => exact absurd hx (by decide +kernel)
  | some x =>
    obtain ⟨h', w, k1, k2, k3, k4⟩ := C109_view hc (by simp) view_doc hs hn hx
    have hsc : (getAt viewDoc [.key b!"info"]).map scalar = some false := by decide +kernel
    rw [hx] at hsc
    cases hy : content (runAll 2 program) 1 with
    | none => exact absurd hy (by decide +kernel)
    | some js =>
      have hset : ((getAt viewDoc [.key b!"info"]).bind fun x => (content (runAll 2 program) 1).map fun y =>
          (match Container.setP x b!"tags.0" y with | .ok x' => putAt x' [.key b!"info"] viewDoc ≠ viewDoc | _ => False : Bool)) = some true := by decide +kernel
      rw [hx, hy] at hset
      cases hr : Container.setP x b!"tags.0" js with
      | ok x' =>
        simp [hr] at hset
        obtain ⟨r1, r2, r3⟩ := C109_setP_on_part hc (by simp) view_doc hs hn hx (by simpa using hsc) k1 (q := b!"tags.0") (src := 1) (by simp) ((k4 1 (by simp)).trans hy) hr
        exact ⟨h', w, x', k1, r2, r3, hset⟩
      | err e => simp [hr] at hset
      | panic => simp [hr] at hset

end Oapi.Props
