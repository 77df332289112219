import Verif.Model.GoMerge
import Verif.Proofs.GoHeap13
import Verif.Props.Merge
import Verif.Proofs.Scan1

/-! `Containers.Merge` and `MergeWithRoot` in memory do what they do on documents. -/
namespace Oapi.GoHeap
open Spec (Reorder)

/-- A step of memory that keeps the containers of the caller: more containers, more memory. -/
theorem worldF_grow {h : Heap} {d : Docs} {F : Nat → List Nat} {m : Mem} (w : WorldF h d F) (hm : Changes [] h.mem m) (more : List Val) : WorldF ⟨m, h.objs ++ more⟩ d F := by
  obtain ⟨h1, h2⟩ := w
  refine ⟨fun c j hc => ?_, h2⟩
  obtain ⟨k1, k2⟩ := h1 c j hc
  refine ⟨by simp; omega, ?_⟩
  have : data ⟨m, h.objs ++ more⟩ (some c) = data h (some c) := by
    simp [data, List.getD, List.getElem?_append_left k1]
  rw [this]
  exact hm.frame k2 (by simp)

theorem merge_none (room : Nat) (f : Strategy) (c : Nat) (order : Json) (h : Heap) : merge room f c none order h = merge room f c (some h.objs.length) order h := by
  have : data h (some h.objs.length) = data h none := by simp [data]
  unfold merge cloneC
  rw [this]

/-- The source of a merge is a container, or there is none. -/
theorem merge_src (room : Nat) (f : Strategy) (c : Nat) (src : Option Nat) (order : Json) (h : Heap) :
    ∃ i, data h (some i) = data h src ∧ merge room f c src order h = merge room f c (some i) order h := by
  cases src with
  | some i => exact ⟨i, rfl, rfl⟩
  | none => exact ⟨h.objs.length, by simp [data], merge_none room f c order h⟩

theorem pure_strategy (f : Strategy) : f.pure = Container.mergeStrict ∨ f.pure = Container.mergeDefault ∨ f.pure = Container.mergeOverride := by
  cases f <;> simp [Strategy.pure]

/-- From `h` to `h'` only the parts of `c` and new memory were written, and containers were added. -/
structure Step (c : Nat) (h h' : Heap) (F F' : Nat → List Nat) : Prop where
  mem : Changes (F c) h.mem h'.mem
  len : h.objs.length ≤ h'.objs.length
  same : ∀ x, x ≠ c → x < h.objs.length → data h' (some x) = data h (some x)
  others : ∀ x, x ≠ c → F' x = F x
  parts : ∀ a ∈ F' c, a ∈ F c ∨ h.mem.length ≤ a

/-- How a merge into `c` ends, given how it ends on documents. -/
def Ends (d : Docs) (c : Nat) (h' : Heap) (F' : Nat → List Nat) (r : Res Unit) : Res Json → Prop
  | .ok j => r = .ok () ∧ WorldF h' (d.upd c j) F'
  | .err e => r = .err e ∧ ∃ j, WorldF h' (d.upd c j) F'
  | .panic => r = .panic ∧ ∃ j, WorldF h' (d.upd c j) F'

/-- A merge into a container that is an object, whatever the order. -/
theorem mergeIn_world (room : Nat) (f : Strategy) {h : Heap} {d : Docs} {F : Nat → List Nat} {c : Nat} {src : Option Nat} {m : Obj} {js : Json} {A : List Nat} (w : WorldF h d F)
    (hc : d c = some (.obj m)) (hs : Rep h.mem js (data h src) A) {ord : Json → Json} (ho : ∀ j, Reorder j (ord j)) :
    ∃ h' r F', mergeIn room f c src ord h = (h', r) ∧ Step c h h' F F' ∧ Ends d c h' F' r (Container.merge (.obj m) js f.pure) := by
  obtain ⟨h1, h2⟩ := w
  obtain ⟨i, e1, e2⟩ := merge_src room f c src (ord js) h
  rw [← e1] at hs
  have hwf := rep_wf _ _ _ hs
  have hcan := Json.canon_reorder (ho js) (Json.NodupKeys_of_WF _ hwf)
  obtain ⟨hh, G, m1, m2, m3, m4, m5⟩ := merge_rep room f (h1 c _ hc).1 (h1 c _ hc).2 hs hcan.1 ((Json.canon_of_WF _ hwf).symm.trans hcan.2)
  rw [Props.C18_order_independent (pure_strategy f) (rep_wf _ _ _ (h1 c _ hc).2) hwf (ho js) (.refl js), ← e2] at m5
  have hin : mergeIn room f c src ord h = merge room f c src (ord js) h := by
    unfold mergeIn
    rw [← e1, doc_rep hs]
    rfl
  rw [hin]
  cases hm : merge room f c src (ord js) h with
  | mk h' r =>
  rw [hm] at m5
  have hlt := (h1 c _ hc).1
  have out : ∀ {j'}, Out hh c (F c) G h' j' → ∃ F', Step c h h' F F' ∧ WorldF h' (d.upd c j') F' := by
    rintro j' ⟨o', F', k1, k2, k3, k4, k5⟩
    have hch : Changes (F c) h.mem h'.mem := by
      refine (m2.mono (by simp)).trans k3 ?_
      intro a ha hlt
      rcases List.mem_append.1 ha with ha | ha
      · exact ha
      · exact absurd (m3 a ha) (by omega)
    have hF : ∀ a ∈ F', a ∈ F c ∨ h.mem.length ≤ a := by
      intro a ha
      rcases k4 a ha with ha | ha | ha
      · exact .inl ha
      · exact .inr (m3 a ha)
      · exact .inr (Nat.le_trans m2.le ha)
    have hobj : h'.objs = (h.objs ++ [data hh (some h.objs.length)]).set c o' := by rw [k1, ← m1]
    refine ⟨_, ⟨hch, by rw [hobj]; simp, fun x hx hl => ?_, fun x hx => if_neg hx, fun a ha => ?_⟩, world_updF h1 h2 hc ⟨_, hobj⟩ k2 hch hF⟩
    · simp only [data, hobj, List.getD]
      rw [List.getElem?_set_ne (Ne.symm hx), List.getElem?_append_left hl]
    · rw [if_pos rfl] at ha; exact hF a ha
  cases hg : Container.merge (.obj m) js f.pure with
  | ok j' =>
    rw [hg] at m5
    obtain ⟨e, k⟩ := m5
    obtain ⟨F', g1, g2⟩ := out k
    exact ⟨h', r, F', rfl, g1, e, g2⟩
  | err e' =>
    rw [hg] at m5
    obtain ⟨e, j', -, k⟩ := m5
    obtain ⟨F', g1, g2⟩ := out k
    exact ⟨h', r, F', rfl, g1, e, j', g2⟩
  | panic =>
    rw [hg] at m5
    obtain ⟨e, j', k⟩ := m5
    obtain ⟨F', g1, g2⟩ := out k
    exact ⟨h', r, F', rfl, g1, e, j', g2⟩

theorem upd_upd (d : Docs) (c : Nat) (j j' : Json) : (d.upd c j).upd c j' = d.upd c j' := by
  funext x
  by_cases h : x = c <;> simp [Docs.upd, h]

/-- Both sides end alike: container `c` holds the document; nothing else of the caller has changed. -/
def WEnds (d : Docs) (c : Nat) (h' : Heap) (r : Res Unit) : Res Json → Prop
  | .ok j => r = .ok () ∧ World h' (d.upd c j)
  | .err e => r = .err e ∧ ∃ j, World h' (d.upd c j)
  | .panic => r = .panic ∧ ∃ j, World h' (d.upd c j)

/-! ### Containers.Merge -/

theorem mergeFrom_world (room : Nat) (f : Strategy) {ord : Nat → Json → Json} (ho : ∀ n j, Reorder j (ord n j)) {c : Nat} : ∀ (cc : List Nat) (js : List Json) (n : Nat) {h : Heap} {d : Docs}
    {m : Obj}, World h d → d c = some (.obj m) → cc.map d = js.map some → c ∉ cc →
    WEnds d c (mergeFrom room f c ord n cc h).1 (mergeFrom room f c ord n cc h).2 (Container.mergeFrom f.pure (.obj m) js)
  | [], [], n, h, d, m, w, hc, _, _ => by
    refine ⟨rfl, ?_⟩
    have : d.upd c (.obj m) = d := by
      funext x
      by_cases hx : x = c
      · rw [hx, upd_self, hc]
      · rw [upd_ne _ _ hx]
    rw [this]
    exact w
  | [], _ :: _, n, h, d, m, w, hc, he, _ => by simp at he
  | _ :: _, [], n, h, d, m, w, hc, he, _ => by simp at he
  | x :: cc, j :: js, n, h, d, m, w, hc, he, hn => by
    simp only [List.map_cons, List.cons.injEq] at he
    simp only [List.mem_cons, not_or] at hn
    obtain ⟨A, hA⟩ := w.rep he.1
    obtain ⟨F, w⟩ := w
    obtain ⟨h', r, F', g1, g2, g3⟩ := mergeIn_world room f w hc (src := some x) hA (ho n)
    simp only [mergeFrom, Container.mergeFrom, g1]
    cases hg : Container.merge (.obj m) j f.pure with
    | panic => rw [hg] at g3; obtain ⟨e, k, g3⟩ := g3; subst e; exact ⟨rfl, k, F', g3⟩
    | err e' => rw [hg] at g3; obtain ⟨e, k, g3⟩ := g3; subst e; exact ⟨rfl, k, F', g3⟩
    | ok j' =>
      rw [hg] at g3
      obtain ⟨e, g3⟩ := g3
      subst e
      obtain ⟨m', rfl⟩ := Scan.merge_isObj hg
      have := mergeFrom_world room f ho cc js (n + 1) (d := d.upd c (.obj m')) ⟨F', g3⟩ (upd_self _ _ _) (by
        rw [← he.2]
        exact List.map_congr_left fun y hy => upd_ne _ _ (by rintro rfl; exact hn.2 hy)) hn.2
      simp only
      unfold WEnds at this ⊢
      simp only [upd_upd] at this
      exact this

/-- `Containers.Merge` of containers the caller has. -/
theorem mergeAll_world (room : Nat) (f : Strategy) {ord : Nat → Json → Json} (ho : ∀ n j, Reorder j (ord n j)) {cc : List Nat} {js : List Json} {h : Heap} {d : Docs} (w : World h d)
    (hd : cc.map d = js.map some) :
    ∃ n, d n = none ∧ match Container.mergeAll f.pure js with
      | .ok j => (mergeAll room f ord cc h).2 = .ok n ∧ World (mergeAll room f ord cc h).1 (d.upd n j)
      | .err e => (mergeAll room f ord cc h).2 = .err e ∧ ∃ j, World (mergeAll room f ord cc h).1 (d.upd n j)
      | .panic => (mergeAll room f ord cc h).2 = .panic ∧ ∃ j, World (mergeAll room f ord cc h).1 (d.upd n j) := by
  obtain ⟨w1, w2⟩ := world_new w (Changes.grow [] h.mem [.map []]) (rep_new h.mem) (by simp)
  have hnot : h.objs.length ∉ cc := by
    intro hm
    have : d h.objs.length ∈ cc.map d := List.mem_map.2 ⟨_, hm, rfl⟩
    rw [hd, w2] at this
    simp at this
  have hs := mergeFrom_world room f ho cc js 0 w1 (upd_self _ _ _) (by
    rw [← hd]
    exact List.map_congr_left fun y hy => upd_ne _ _ (by rintro rfl; exact hnot hy)) hnot
  refine ⟨_, w2, ?_⟩
  unfold mergeAll Container.mergeAll
  simp only [WEnds, upd_upd] at hs
  simp only [new] at hs ⊢
  cases hb : mergeFrom room f h.objs.length ord 0 cc ⟨h.mem ++ [.map []], h.objs ++ [.map h.mem.length]⟩ with
  | mk h' r =>
  rw [hb] at hs
  cases hg : Container.mergeFrom f.pure (.obj []) js with
  | panic => rw [hg] at hs; obtain ⟨e, k⟩ := hs; simp only at e; subst e; exact ⟨rfl, k⟩
  | err e' => rw [hg] at hs; obtain ⟨e, k⟩ := hs; simp only at e; subst e; exact ⟨rfl, k⟩
  | ok j => rw [hg] at hs; obtain ⟨e, k⟩ := hs; simp only at e; subst e; exact ⟨rfl, k⟩

/-! ### MergeWithRoot -/

/-- A section, as a container that looks into the document. -/
theorem path_world (key : Str) {h : Heap} {d : Docs} {F : Nat → List Nat} {c : Nat} {j : Json} (w : WorldF h d F) (hc : d c = some j) :
    ∃ A, Rep (path key c h).1.mem (Container.data (Container.path j key)) (data (path key c h).1 (path key c h).2) A ∧ Changes [] h.mem (path key c h).1.mem ∧
      ∃ more, (path key c h).1.objs = h.objs ++ more := by
  have hs := search_rep (Gabs.dotPathToSlice key) (w.1 c j hc).2
  unfold path
  unfold Container.path
  cases hb : search (Gabs.dotPathToSlice key) (data h (some c)) h.mem with
  | mk m o =>
  rw [hb] at hs
  cases hg : Gabs.search (Gabs.dotPathToSlice key) j with
  | none =>
    rw [hg] at hs
    obtain ⟨e, k⟩ := hs
    simp only at e
    subst e
    exact ⟨[], ⟨rfl, rfl⟩, k, [], by simp⟩
  | some x =>
    rw [hg] at hs
    obtain ⟨v, A, e, k1, k2, k3⟩ := hs
    simp only at e
    subst e
    refine ⟨A, ?_, k2, [v], rfl⟩
    simpa [data, List.getD, Container.data] using k1

theorem isNil_rep {h : Mem} {j : Json} {v : Val} {A : List Nat} (hr : Rep h j v A) : isNil v = Container.isNil j := by
  cases j with
  | null => obtain ⟨rfl, _⟩ := hr; rfl
  | bool b => obtain ⟨rfl, _⟩ := hr; rfl
  | num n => obtain ⟨rfl, _⟩ := hr; rfl
  | str s => obtain ⟨rfl, _⟩ := hr; rfl
  | arr xs => obtain ⟨a, len, bs, G, rfl, _⟩ := hr; rfl
  | obj m => obtain ⟨_, a, kvs, G, rfl, _⟩ := hr; rfl

theorem bothNil_rep {h : Mem} {j j' : Json} {v v' : Val} {A A' : List Nat} (hr : Rep h j v A) (hr' : Rep h j' v' A') : bothNil v v' = OAPI.bothNil j j' := by
  unfold bothNil OAPI.bothNil
  rw [isNil_rep hr, isNil_rep hr']
  cases Container.isNil j with
  | ok b => cases b <;> rfl
  | _ => rfl

theorem Step.data {c : Nat} {h h' : Heap} {F F' : Nat → List Nat} (s : Step c h h' F F') {src : Option Nat} (hs : ∀ i, src = some i → i ≠ c ∧ i < h.objs.length) :
    data h' src = data h src := by
  cases src with
  | none => rfl
  | some i => exact s.same i (hs i rfl).1 (hs i rfl).2

/-- Both sections are merged into a new object, which overrides the section of `c`. -/
theorem mergeInto_world (room : Nat) {ord : Str → Nat → Json → Json} (ho : ∀ k n j, Reorder j (ord k n j)) (key : Str) (f : Strategy) {h : Heap} {d : Docs} {c : Nat} {m : Obj}
    {z y : Option Nat} {jz jy : Json} {A B : List Nat} (w : World h d) (hc : d c = some (.obj m)) (hz : Rep h.mem jz (data h z) A) (hy : Rep h.mem jy (data h y) B)
    (lz : ∀ i, z = some i → i < h.objs.length) (ly : ∀ i, y = some i → i < h.objs.length) :
    ∃ d' : Docs, (∀ x j, d x = some j → d' x = some j) ∧
      WEnds d' c (mergeInto room ord c key f z y h).1 (mergeInto room ord c key f z y h).2 (OAPI.mergeInto (.obj m) key f.pure jz jy) := by
  obtain ⟨F0, w⟩ := w
  obtain ⟨w1, hn⟩ := world_newF w (Changes.grow [] h.mem [.map []]) (rep_new h.mem) (by simp)
  have keep : ∀ (e : Docs), (∀ x, x ≠ h.objs.length → e x = d x) → ∀ x j, d x = some j → e x = some j := by
    intro e he x j hx
    rw [he x (by rintro rfl; rw [hn] at hx; cases hx)]
    exact hx
  have hcn : c ≠ h.objs.length := by rintro rfl; rw [hn] at hc; cases hc
  -- the new object
  have hnew : new h = (⟨h.mem ++ [.map []], h.objs ++ [.map h.mem.length]⟩, h.objs.length) := rfl
  have hdat : ∀ src : Option Nat, (∀ i, src = some i → i < h.objs.length) → data ⟨h.mem ++ [.map []], h.objs ++ [.map h.mem.length]⟩ src = data h src := by
    intro src hs
    cases src with
    | none => rfl
    | some i => simp [data, List.getD, List.getElem?_append_left (hs i rfl)]
  have hz1 : Rep (h.mem ++ [.map []]) jz (data ⟨h.mem ++ [.map []], h.objs ++ [.map h.mem.length]⟩ z) A := by
    rw [hdat z lz]; exact (Changes.grow [] h.mem [.map []]).frame hz (by simp)
  have hy1 : Rep (h.mem ++ [.map []]) jy (data ⟨h.mem ++ [.map []], h.objs ++ [.map h.mem.length]⟩ y) B := by
    rw [hdat y ly]; exact (Changes.grow [] h.mem [.map []]).frame hy (by simp)
  obtain ⟨h1, r1, F1, g1, s1, k1⟩ := mergeIn_world room f w1 (upd_self _ _ _) (src := z) hz1 (ho key 0)
  unfold mergeInto OAPI.mergeInto
  simp only [hnew, g1]
  have lost : ∀ {h' : Heap} {j : Json} {r : Res Unit} {F' : Nat → List Nat}, WorldF h' (d.upd h.objs.length j) F' →
      ∃ d' : Docs, (∀ x j, d x = some j → d' x = some j) ∧ ∃ j, World h' (d'.upd c j) := by
    intro h' j r F' w'
    refine ⟨d.upd h.objs.length j, keep _ (fun x hx => upd_ne _ _ hx), .obj m, F', ?_⟩
    have : (d.upd h.objs.length j).upd c (.obj m) = d.upd h.objs.length j := by
      funext x
      by_cases hx : x = c
      · rw [hx, upd_self, upd_ne _ _ hcn, hc]
      · rw [upd_ne _ _ hx]
    rw [this]
    exact w'
  cases e1 : Container.merge (.obj []) jz f.pure with
  | panic =>
    rw [e1] at k1
    obtain ⟨rfl, j, k1⟩ := k1
    rw [upd_upd] at k1
    obtain ⟨d', a, b⟩ := lost (r := .panic) k1
    exact ⟨d', a, rfl, b⟩
  | err e =>
    rw [e1] at k1
    obtain ⟨rfl, j, k1⟩ := k1
    rw [upd_upd] at k1
    obtain ⟨d', a, b⟩ := lost (r := .panic) k1
    exact ⟨d', a, rfl, b⟩
  | ok j1 =>
    rw [e1] at k1
    obtain ⟨rfl, k1⟩ := k1
    rw [upd_upd] at k1
    obtain ⟨m1, rfl⟩ := Scan.merge_isObj e1
    have hy2 : Rep h1.mem jy (data h1 y) B := by
      rw [s1.data (fun i hi => ⟨by have := ly i hi; omega, by have := ly i hi; simp; omega⟩)]
      refine s1.mem.frame hy1 ?_
      intro a ha hF
      simp only [if_pos] at hF
      have := rep_lt _ _ _ hy a ha
      simp only [List.mem_singleton] at hF
      omega
    obtain ⟨h2, r2, F2, g2, s2, k2⟩ := mergeIn_world room f k1 (upd_self _ _ _) (src := y) hy2 (ho key 1)
    simp only [g2]
    cases e2 : Container.merge (.obj m1) jy f.pure with
    | panic =>
      rw [e2] at k2
      obtain ⟨rfl, j, k2⟩ := k2
      rw [upd_upd] at k2
      obtain ⟨d', a, b⟩ := lost (r := .panic) k2
      exact ⟨d', a, rfl, b⟩
    | err e =>
      rw [e2] at k2
      obtain ⟨rfl, j, k2⟩ := k2
      rw [upd_upd] at k2
      obtain ⟨d', a, b⟩ := lost (r := .panic) k2
      exact ⟨d', a, rfl, b⟩
    | ok j2 =>
      rw [e2] at k2
      obtain ⟨rfl, k2⟩ := k2
      rw [upd_upd] at k2
      have hw2 : World h2 (d.upd h.objs.length j2) := ⟨F2, k2⟩
      have hdoc := hw2.doc (upd_self d h.objs.length j2)
      obtain ⟨A2, hA2⟩ := hw2.rep (upd_self d h.objs.length j2)
      have hwf : Json.WF (.obj [(key, j2)]) := by
        rw [Json.WF_obj]
        refine ⟨by simp [Obj.Sorted], ?_⟩
        rw [Json.WFO_iff]
        rintro ⟨k, v⟩ hm
        simp only [List.mem_singleton, Prod.mk.injEq] at hm
        rw [hm.2]
        exact rep_wf _ _ _ hA2
      obtain ⟨G, q1, q2, q3⟩ := alloc_rep (.obj [(key, j2)]) h2.mem hwf
      obtain ⟨w3, hn3⟩ := world_newF k2 q2 q1 q3
      have hc3 : c ≠ h2.objs.length := by
        rintro rfl
        rw [upd_ne _ _ hcn, hc] at hn3
        cases hn3
      have hmk : makeOne key h.objs.length h2 = (⟨(alloc (.obj [(key, j2)]) h2.mem).1, h2.objs ++ [(alloc (.obj [(key, j2)]) h2.mem).2]⟩, some h2.objs.length) := by
        unfold makeOne
        rw [hdoc]
        rfl
      have hv : Rep (alloc (.obj [(key, j2)]) h2.mem).1 (.obj [(key, j2)])
          (data ⟨(alloc (.obj [(key, j2)]) h2.mem).1, h2.objs ++ [(alloc (.obj [(key, j2)]) h2.mem).2]⟩ (some h2.objs.length)) G := by
        simpa [data, List.getD] using q1
      obtain ⟨h3, r3, F3, g3, s3, k3⟩ := mergeIn_world room .override w3 (by rw [upd_ne _ _ hc3, upd_ne _ _ hcn]; exact hc) hv (ho key 2)
      simp only [hmk, g3]
      refine ⟨(d.upd h.objs.length j2).upd h2.objs.length (.obj [(key, j2)]), ?_, ?_⟩
      · intro x j hx
        have := keep (d.upd h.objs.length j2) (fun x hx => upd_ne _ _ hx) x j hx
        rw [upd_ne _ _ (by rintro rfl; rw [hn3] at this; cases this)]
        exact this
      · change WEnds _ _ _ _ (Container.merge (.obj m) (.obj [(key, j2)]) Strategy.override.pure)
        cases e3 : Container.merge (.obj m) (.obj [(key, j2)]) Strategy.override.pure with
        | panic => rw [e3] at k3; obtain ⟨e, j, k3⟩ := k3; exact ⟨e, j, F3, k3⟩
        | err e' => rw [e3] at k3; obtain ⟨e, j, k3⟩ := k3; exact ⟨e, j, F3, k3⟩
        | ok j => rw [e3] at k3; obtain ⟨e, k3⟩ := k3; exact ⟨e, F3, k3⟩

/-- All containers keep their documents, except `c`. -/
def KeepsBut (d d' : Docs) (c : Nat) : Prop := ∀ x j, x ≠ c → d x = some j → d' x = some j

theorem mergeSection_world (room : Nat) {ord : Str → Nat → Json → Json} (ho : ∀ k n j, Reorder j (ord k n j)) (key : Str) (f : Strategy) {h : Heap} {d : Docs} {c r : Nat} {m : Obj}
    {jr : Json} (w : World h d) (hc : d c = some (.obj m)) (hr : d r = some jr) :
    ∃ d' : Docs, (∀ x j, d x = some j → d' x = some j) ∧
      WEnds d' c (mergeSection room ord r c key f h).1 (mergeSection room ord r c key f h).2 (OAPI.mergeSection jr (.obj m) key f.pure) := by
  obtain ⟨F, w⟩ := w
  obtain ⟨A, a1, a2, more, a3⟩ := path_world key w hc
  have w1 : WorldF (path key c h).1 d F := by
    have := worldF_grow w a2 more
    rw [← a3] at this
    exact this
  obtain ⟨B, b1, b2, more', b3⟩ := path_world key w1 hr
  have w2 : WorldF (path key r (path key c h).1).1 d F := by
    have := worldF_grow w1 b2 more'
    rw [← b3] at this
    exact this
  have len : ∀ (q : Str) (n : Nat) (g : Heap) (i : Nat), (path q n g).2 = some i → i < (path q n g).1.objs.length := by
    intro q n g i hi
    unfold path at hi ⊢
    split at hi
    · rename_i m v e
      cases hi
      simp
    · cases hi
  have lz := len key c h
  have hlt : (path key c h).1.objs.length ≤ (path key r (path key c h).1).1.objs.length := by rw [b3]; simp
  have hdat : data (path key r (path key c h).1).1 (path key c h).2 = data (path key c h).1 (path key c h).2 := by
    cases hz : (path key c h).2 with
    | none => rfl
    | some i => simp [data, b3, List.getD, List.getElem?_append_left (lz i hz)]
  have a1' : Rep (path key r (path key c h).1).1.mem (Container.data (Container.path (.obj m) key)) (data (path key r (path key c h).1).1 (path key c h).2) A := by
    rw [hdat]
    exact b2.frame a1 (by simp)
  unfold mergeSection OAPI.mergeSection
  simp only [bothNil_rep a1' b1]
  have same : d.upd c (.obj m) = d := by
    funext x
    by_cases hx : x = c
    · rw [hx, upd_self, hc]
    · rw [upd_ne _ _ hx]
  cases hn : OAPI.bothNil (Container.data (Container.path (.obj m) key)) (Container.data (Container.path jr key)) with
  | panic => exact ⟨d, fun _ _ h => h, rfl, .obj m, F, by rw [same]; exact w2⟩
  | err e => exact ⟨d, fun _ _ h => h, rfl, .obj m, F, by rw [same]; exact w2⟩
  | ok b =>
    cases b with
    | true => exact ⟨d, fun _ _ h => h, rfl, F, by rw [same]; exact w2⟩
    | false =>
      exact mergeInto_world room ho key f ⟨F, w2⟩ hc a1' b1 (fun i hi => Nat.lt_of_lt_of_le (lz i hi) hlt) (len key r _)

theorem mergeSections_world (room : Nat) {ord : Str → Nat → Json → Json} (ho : ∀ k n j, Reorder j (ord k n j)) {c r : Nat} {jr : Json} (hne : r ≠ c) :
    ∀ (l : List (Str × Strategy)) {h : Heap} {d : Docs} {m : Obj}, World h d → d c = some (.obj m) → d r = some jr →
    ∃ d' : Docs, KeepsBut d d' c ∧ WEnds d' c (mergeSections room ord r c l h).1 (mergeSections room ord r c l h).2
      (OAPI.mergeSections jr (l.map fun e => (e.1, e.2.pure)) (.obj m))
  | [], h, d, m, w, hc, hr => by
    refine ⟨d, fun _ _ _ h => h, rfl, ?_⟩
    have : d.upd c (.obj m) = d := by
      funext x
      by_cases hx : x = c
      · rw [hx, upd_self, hc]
      · rw [upd_ne _ _ hx]
    rw [this]
    exact w
  | (key, f) :: t, h, d, m, w, hc, hr => by
    obtain ⟨d', k, hs⟩ := mergeSection_world room ho key f w hc hr
    simp only [mergeSections, List.map_cons, OAPI.mergeSections]
    cases hb : mergeSection room ord r c key f h with
    | mk h' x =>
    rw [hb] at hs
    cases hg : OAPI.mergeSection jr (.obj m) key f.pure with
    | panic => rw [hg] at hs; obtain ⟨e, hs⟩ := hs; simp only at e; subst e; exact ⟨d', fun x j _ hx => k x j hx, rfl, hs⟩
    | err e' => rw [hg] at hs; obtain ⟨e, hs⟩ := hs; simp only at e; subst e; exact ⟨d', fun x j _ hx => k x j hx, rfl, hs⟩
    | ok j =>
      rw [hg] at hs
      obtain ⟨e, w'⟩ := hs
      simp only at e w'
      subst e
      have hobj : ∃ m', j = .obj m' := by
        have := Scan.mergeSections_isObj (root := jr) [(key, f.pure)] (m := m) (r := j) (by simp [OAPI.mergeSections, hg])
        exact this
      obtain ⟨m', rfl⟩ := hobj
      obtain ⟨d2, k2, hs2⟩ := mergeSections_world room ho hne t w' (upd_self _ _ _) (by rw [upd_ne _ _ hne]; exact k r jr hr)
      refine ⟨d2, fun x j hx h => k2 x j hx ?_, hs2⟩
      rw [upd_ne _ _ hx]
      exact k x j h

theorem sections_pure : sections.map (fun e => (e.1, e.2.pure)) = OAPI.sections := rfl

/-- `MergeWithRoot` in memory ends as on documents, and changes nothing but `c`. -/
theorem mergeWithRoot_world (room : Nat) {ord : Str → Nat → Json → Json} (ho : ∀ k n j, Reorder j (ord k n j)) {root : Json} (hw : Json.WF root) {h : Heap} {d : Docs} {c : Nat} {m : Obj}
    (w : World h d) (hc : d c = some (.obj m)) :
    ∃ d' : Docs, KeepsBut d d' c ∧ WEnds d' c (mergeWithRoot room ord root c h).1 (mergeWithRoot room ord root c h).2 (OAPI.mergeWithRoot root (.obj m)) := by
  obtain ⟨G, g1, g2, g3⟩ := alloc_rep root h.mem hw
  obtain ⟨w1, hn⟩ := world_new w g2 g1 g3
  have hne : h.objs.length ≠ c := by rintro rfl; rw [hn] at hc; cases hc
  obtain ⟨d', k, hs⟩ := mergeSections_world room ho hne sections w1 (by rw [upd_ne _ _ hne.symm]; exact hc) (upd_self _ _ _)
  rw [sections_pure] at hs
  refine ⟨d', fun x j hx h => k x j hx ?_, hs⟩
  rw [upd_ne _ _ (by rintro rfl; rw [hn] at h; cases h)]
  exact h

end Oapi.GoHeap
