import Verif.Proofs.GoHeap5

/-! Containers in memory are independent values. -/
namespace Oapi.GoHeap

/-- Every container the caller has is a tree of its own; `F` are its parts. -/
def WorldF (h : Heap) (d : Docs) (F : Nat → List Nat) : Prop :=
  (∀ c j, d c = some j → c < h.objs.length ∧ Rep h.mem j (data h (some c)) (F c)) ∧
    ∀ c c' j j', d c = some j → d c' = some j' → c ≠ c' → ∀ a ∈ F c, a ∉ F c'

/-- Every container the caller has is a tree of its own. -/
def World (h : Heap) (d : Docs) : Prop := ∃ F : Nat → List Nat, WorldF h d F

theorem World.doc {h : Heap} {d : Docs} (w : World h d) {c : Nat} {j : Json} (hc : d c = some j) : GoHeap.doc h.mem (data h (some c)) = some j := by
  obtain ⟨F, h1, -⟩ := w
  exact doc_rep (h1 c j hc).2

/-- A new container. -/
theorem world_newF {h : Heap} {d : Docs} {m : Mem} {o : Val} {j : Json} {G : List Nat} {F : Nat → List Nat} (w : WorldF h d F) (hm : Changes [] h.mem m) (hr : Rep m j o G)
    (hG : ∀ a ∈ G, h.mem.length ≤ a) :
    WorldF ⟨m, h.objs ++ [o]⟩ (d.upd h.objs.length j) (fun c => if c = h.objs.length then G else F c) ∧ d h.objs.length = none := by
  obtain ⟨h1, h2⟩ := w
  have hnone : d h.objs.length = none := by
    cases hd : d h.objs.length with
    | none => rfl
    | some x => exact absurd (h1 _ _ hd).1 (by omega)
  have hne : ∀ {c x}, d c = some x → c ≠ h.objs.length := by
    rintro c x hc rfl; rw [hnone] at hc; cases hc
  have hold : ∀ {c}, c ≠ h.objs.length → ∀ {x}, d.upd h.objs.length j c = some x → d c = some x := by
    intro c hc x hx; simpa [Docs.upd, hc] using hx
  refine ⟨⟨fun c x hx => ?_, fun c c' x x' hx hx' hcc a ha ha' => ?_⟩, hnone⟩
  · by_cases hc : c = h.objs.length
    · subst hc
      have : x = j := by simpa [Docs.upd] using hx.symm
      subst this
      refine ⟨by simp, ?_⟩
      simpa [data, List.getD] using hr
    · have := h1 c x (hold hc hx)
      refine ⟨by simp; omega, ?_⟩
      simp only [if_neg hc]
      have e : data ⟨m, h.objs ++ [o]⟩ (some c) = data h (some c) := by
        simp [data, List.getD, List.getElem?_append_left this.1]
      rw [e]
      exact hm.frame this.2 (by simp)
  · by_cases hc : c = h.objs.length
    · have hc' : c' ≠ h.objs.length := fun e => hcc (hc.trans e.symm)
      simp only [hc, if_true] at ha
      simp only [if_neg hc'] at ha'
      have := rep_lt _ _ _ (h1 c' x' (hold hc' hx')).2 a ha'
      have := hG a ha
      omega
    · simp only [if_neg hc] at ha
      by_cases hc' : c' = h.objs.length
      · simp only [hc', if_true] at ha'
        have := rep_lt _ _ _ (h1 c x (hold hc hx)).2 a ha
        have := hG a ha'
        omega
      · simp only [if_neg hc'] at ha'
        exact h2 c c' x x' (hold hc hx) (hold hc' hx') hcc a ha ha'

theorem world_new {h : Heap} {d : Docs} {m : Mem} {o : Val} {j : Json} {G : List Nat} (w : World h d) (hm : Changes [] h.mem m) (hr : Rep m j o G) (hG : ∀ a ∈ G, h.mem.length ≤ a) :
    World ⟨m, h.objs ++ [o]⟩ (d.upd h.objs.length j) ∧ d h.objs.length = none := by
  obtain ⟨F, w⟩ := w
  obtain ⟨h1, h2⟩ := world_newF w hm hr hG
  exact ⟨⟨_, h1⟩, h2⟩

/-- A container changes. -/
theorem world_updF {h : Heap} {d : Docs} {h' : Heap} {c : Nat} {o' : Val} {j0 j' : Json} {F : Nat → List Nat} {F' : List Nat}
    (h1 : ∀ c j, d c = some j → c < h.objs.length ∧ Rep h.mem j (data h (some c)) (F c))
    (h2 : ∀ c c' j j', d c = some j → d c' = some j' → c ≠ c' → ∀ a ∈ F c, a ∉ F c') (hd : d c = some j0)
    (hobj : ∃ more, h'.objs = (h.objs ++ more).set c o') (hr : Rep h'.mem j' o' F') (hch : Changes (F c) h.mem h'.mem) (hF : ∀ a ∈ F', a ∈ F c ∨ h.mem.length ≤ a) :
    WorldF h' (d.upd c j') (fun x => if x = c then F' else F x) := by
  obtain ⟨more, hobj⟩ := hobj
  have hdata : ∀ {x}, x < h.objs.length → x ≠ c → data h' (some x) = data h (some x) := by
    intro x hx hne
    simp [data, hobj, List.getD, List.getElem?_set, Ne.symm hne, List.getElem?_append_left hx]
  have hold : ∀ {x}, x ≠ c → ∀ {j}, d.upd c j' x = some j → d x = some j := by
    intro x hx j hj; simpa [Docs.upd, hx] using hj
  refine ⟨fun x j hx => ?_, fun x x' j j1 hx hx' hne a ha ha' => ?_⟩
  · by_cases e : x = c
    · subst e
      have hj : j = j' := by simpa [Docs.upd] using hx.symm
      subst hj
      have hl := (h1 x j0 hd).1
      refine ⟨by rw [hobj]; simp; omega, ?_⟩
      have : data h' (some x) = o' := by
        simp [data, hobj, List.getD, List.getElem?_set, show x < h.objs.length + more.length by omega]
      simpa [this] using hr
    · have hx' := h1 x j (hold e hx)
      refine ⟨by rw [hobj]; simp; omega, ?_⟩
      simp only [if_neg e]
      rw [hdata hx'.1 e]
      exact hch.frame hx'.2 fun a ha hc => h2 x c j j0 (hold e hx) hd e a ha hc
  · by_cases e : x = c
    · have e' : x' ≠ c := fun q => hne (e.trans q.symm)
      simp only [e, if_true] at ha
      simp only [if_neg e'] at ha'
      rcases hF a ha with ha | ha
      · exact h2 c x' j0 j1 hd (hold e' hx') (Ne.symm e') a ha ha'
      · exact absurd (rep_lt _ _ _ (h1 x' j1 (hold e' hx')).2 a ha') (by omega)
    · simp only [if_neg e] at ha
      by_cases e' : x' = c
      · simp only [e', if_true] at ha'
        rcases hF a ha' with ha' | ha'
        · exact h2 x c j j0 (hold e hx) hd e a ha ha'
        · exact absurd (rep_lt _ _ _ (h1 x j (hold e hx)).2 a ha) (by omega)
      · simp only [if_neg e'] at ha'
        exact h2 x x' j j1 (hold e hx) (hold e' hx') hne a ha ha'

theorem world_upd {h : Heap} {d : Docs} {h' : Heap} {c : Nat} {o' : Val} {j0 j' : Json} {F : Nat → List Nat} {F' : List Nat}
    (h1 : ∀ c j, d c = some j → c < h.objs.length ∧ Rep h.mem j (data h (some c)) (F c))
    (h2 : ∀ c c' j j', d c = some j → d c' = some j' → c ≠ c' → ∀ a ∈ F c, a ∉ F c') (hd : d c = some j0)
    (hobj : ∃ more, h'.objs = (h.objs ++ more).set c o') (hr : Rep h'.mem j' o' F') (hch : Changes (F c) h.mem h'.mem) (hF : ∀ a ∈ F', a ∈ F c ∨ h.mem.length ≤ a) :
    World h' (d.upd c j') := ⟨_, world_updF h1 h2 hd hobj hr hch hF⟩

theorem clone_total {h : Heap} {c : Nat} {j : Json} {F : List Nat} (hr : Rep h.mem j (data h (some c)) F) :
    ∃ m v G, cloneC (some c) h = (⟨m, h.objs ++ [v]⟩, h.objs.length) ∧ Rep m j v G ∧ Changes [] h.mem m ∧ ∀ a ∈ G, h.mem.length ≤ a := by
  obtain ⟨m, v, G, g1, g2, g3, g4⟩ := clone_rep hr
  exact ⟨m, v, G, by simp [cloneC, g1], g2, g3, g4⟩

/-- `Merge` of two containers, which may be the same one, or share memory. -/
theorem merge_rep (room : Nat) (f : Strategy) {h : Heap} {c src : Nat} {jc js order : Json} {F A : List Nat} (hc : c < h.objs.length)
    (hr : Rep h.mem jc (data h (some c)) F) (hs : Rep h.mem js (data h (some src)) A) (ho : Json.NodupKeys order) (hcan : js = Json.canon order) :
    ∃ h1 G, h1.objs = h.objs ++ [data h1 (some h.objs.length)] ∧ Changes [] h.mem h1.mem ∧ (∀ a ∈ G, h.mem.length ≤ a) ∧
      data h1 (some c) = data h (some c) ∧ MergeSpec h1 c F G (fun j' => ∃ p, BeginningOf p order ∧ Container.merge jc p f.pure = .ok j') (merge room f c (some src) order h) (Container.merge jc order f.pure) := by
  obtain ⟨m, v, G, g1, g2, g3, g4⟩ := clone_total hs
  have hlast : data ⟨m, h.objs ++ [v]⟩ (some h.objs.length) = v := by simp [data, List.getD]
  have hdc : data ⟨m, h.objs ++ [v]⟩ (some c) = data h (some c) := by simp [data, List.getD, List.getElem?_append_left hc]
  refine ⟨⟨m, h.objs ++ [v]⟩, G, by rw [hlast], g3, g4, hdc, ?_⟩
  have hrep : Rep m jc (data ⟨m, h.objs ++ [v]⟩ (some c)) F := by rw [hdc]; exact g3.frame hr (by simp)
  unfold merge
  rw [g1]
  have hcl : c < (h.objs ++ [v]).length := by simp; omega
  have hkeep : ∀ G, Out ⟨m, h.objs ++ [v]⟩ c F G ⟨m, h.objs ++ [v]⟩ jc := fun G => Out.keep hcl hrep (Changes.refl _ _)
  cases order with
  | obj t =>
    have hn := ho
    simp only [Json.NodupKeys] at hn
    have hv : Rep m (Json.canon (.obj t)) v G := by rw [← hcan]; exact g2
    obtain ⟨a, kvs, fp, rfl, hS⟩ := src_of_rep (F := F) hn.1 hv (fun a ha hg => by
      have := rep_lt _ _ _ hr a ha
      have := g4 a hg
      omega)
    simp only [hlast]
    exact (mergeMap_rep room f t [] hcl hrep hn.1 hn.2 hS).weaken fun _ ⟨p, h1, h2⟩ => ⟨.obj p, h1, h2⟩
  | null => exact ⟨rfl, hkeep G⟩
  | bool b => exact ⟨rfl, hkeep G⟩
  | num b => exact ⟨rfl, hkeep G⟩
  | str b => exact ⟨rfl, hkeep G⟩
  | arr b => exact ⟨rfl, hkeep G⟩

/-- `SetP` of the document of a container, which may be the same one, or share memory. -/
theorem setP_rep (room : Nat) (p : Str) {h : Heap} {c : Nat} {v : Val} {jc js : Json} {F A : List Nat}
    (hr : Rep h.mem jc (data h (some c)) F) (hs : Rep h.mem js v A) :
    match Container.setP jc p js with
    | .ok j' => ∃ h' o' F', setP room p v c h = .ok h' ∧ h'.objs = h.objs.set c o' ∧ Rep h'.mem j' o' F' ∧ Changes F h.mem h'.mem ∧ ∀ a ∈ F', a ∈ F ∨ h.mem.length ≤ a
    | .err e => setP room p v c h = .err e
    | .panic => setP room p v c h = .panic := by
  obtain ⟨m, v', G, g1, g2, g3, g4⟩ := clone_rep hs
  have hsp := set_rep room (Gabs.dotPathToSlice p) (g3.frame hr (by simp)) g2 (fun a ha hg => by
    have := rep_lt _ _ _ hr a ha
    have := g4 a hg
    omega)
  have e2 : Container.setP jc p js = Gabs.set js (Gabs.dotPathToSlice p) jc := rfl
  rw [e2]
  simp only [setP, g1, setC]
  rw [show data ⟨m, h.objs⟩ (some c) = data h (some c) from rfl]
  cases hg : Gabs.set js (Gabs.dotPathToSlice p) jc with
  | err e =>
    rw [hg] at hsp
    rw [show set room v' (Gabs.dotPathToSlice p) (data h (some c)) m = .err e from hsp]
  | panic =>
    rw [hg] at hsp
    rw [show set room v' (Gabs.dotPathToSlice p) (data h (some c)) m = .panic from hsp]
  | ok j' =>
    rw [hg] at hsp
    obtain ⟨h', o', F', k1, k2, k3, k4, k5⟩ := hsp
    rw [k1]
    refine ⟨_, o', F', rfl, rfl, k2, (g3.mono (by simp)).trans k3 (fun a ha _ => ha), fun a ha => ?_⟩
    rcases k4 a ha with ha | ha | ha
    · exact .inl ha
    · exact .inr (g4 a ha)
    · exact .inr (Nat.le_trans g3.le ha)

theorem set_no_panic (v : Json) : ∀ (p : List Str) (root : Bool) (j : Json), Gabs.setGo v root p j ≠ .panic
  | [], root, j => by simp [Gabs.setGo]
  | seg :: p, root, j => by
    cases j with
    | null => simp [Gabs.setGo]
    | bool b => simp [Gabs.setGo]
    | num b => simp [Gabs.setGo]
    | str b => simp [Gabs.setGo]
    | obj m =>
      cases p with
      | nil => simp [Gabs.setGo]
      | cons s q =>
        rw [setGo_obj]
        have := set_no_panic v (s :: q) false (Gabs.fill (Obj.lookup seg m))
        cases h : Gabs.setGo v false (s :: q) (Gabs.fill (Obj.lookup seg m)) with
        | panic => exact absurd h this
        | _ => simp [onOk]
    | arr xs =>
      rw [Gabs.setGo.eq_def]
      simp only
      repeat' split
      all_goals first
        | (intro h; cases h; done)
        | (rename_i h; exact absurd h (set_no_panic v _ _ _))

theorem setP_no_panic (j : Json) (p : Str) (v : Json) : Container.setP j p v ≠ .panic := by
  unfold Container.setP Gabs.set
  split
  · simp
  · exact set_no_panic _ _ _ _

mutual
theorem mergeMap_no_panic (f : Strategy) (t : List (Str × Json)) (c : Json) (path : List Str) : Container.mergeMap f.pure c path t ≠ .panic := by
  match t with
  | [] => simp [Container.mergeMap]
  | (k, v) :: t =>
    simp only [Container.mergeMap]
    have h1 := mergeOne_no_panic f v c (path ++ [k])
    split
    · exact mergeMap_no_panic f t _ _
    · simp
    · rename_i h; exact absurd h h1
termination_by structural t
theorem mergeOne_no_panic (f : Strategy) (v : Json) (c : Json) (path : List Str) : Container.mergeOne f.pure c path v ≠ .panic := by
  have hset : ∀ x, Gabs.set x path c ≠ .panic := fun x => by
    unfold Gabs.set
    split
    · simp
    · exact set_no_panic _ _ _ _
  have hcol : ∀ ex x, Container.collide f.pure c path ex x ≠ .panic := by
    intro ex x
    cases f with
    | strict => simp [Container.collide, Strategy.pure, Container.mergeStrict]
    | default => exact hset _
    | override => exact hset _
  rw [Container.mergeOne.eq_def]
  split
  · exact hset _
  · match v with
    | .obj t => 
      simp only
      split
      · exact mergeMap_no_panic f t _ _
      · exact hcol _ _
    | .null => exact hcol _ _
    | .bool b => exact hcol _ _
    | .num b => exact hcol _ _
    | .str b => exact hcol _ _
    | .arr b => exact hcol _ _
termination_by structural v
end

theorem merge_no_panic (f : Strategy) (c order : Json) : Container.merge c order f.pure ≠ .panic := by
  unfold Container.merge
  split
  · exact mergeMap_no_panic f _ _ _
  · simp

/-- Every call does to the documents what it would do if containers were values. -/
theorem exec_step (room : Nat) {h : Heap} {d : Docs} {known : List Nat} {cmd : Cmd} (w : World h d) (hk : ∀ c ∈ known, (d c).isSome = true) (hl : Legal known h cmd) :
    ∃ d', Effect d cmd (exec room h cmd).2 d' ∧ World (exec room h cmd).1 d' ∧ ∀ c ∈ learn (exec room h cmd).2 known, (d' c).isSome = true := by
  have hsome : ∀ {c}, c ∈ known → ∃ j, d c = some j := fun hc => Option.isSome_iff_exists.1 (hk _ hc)
  have hupd : ∀ (n : Nat) (j : Json), ∀ c ∈ n :: known, ((d.upd n j) c).isSome = true := by
    intro n j c hc
    simp only [Docs.upd]
    split
    · rfl
    · rename_i hne
      rcases List.mem_cons.1 hc with hc | hc
      · exact absurd hc hne
      · exact hk c hc
  have hupd' : ∀ (n : Nat) (j : Json), ∀ c ∈ known, ((d.upd n j) c).isSome = true := fun n j c hc => hupd n j c (List.mem_cons_of_mem _ hc)
  cases cmd with
  | new =>
    obtain ⟨w1, w2⟩ := world_new w (Changes.grow [] h.mem [.map []]) (rep_new h.mem) (by simp)
    exact ⟨_, ⟨_, w2, rfl, rfl⟩, w1, hupd _ _⟩
  | make j =>
    obtain ⟨F, g1, g2, g3⟩ := alloc_rep j h.mem hl
    obtain ⟨w1, w2⟩ := world_new w g2 g1 g3
    exact ⟨_, ⟨_, w2, rfl, rfl⟩, w1, hupd _ _⟩
  | clone c =>
    obtain ⟨j, hj⟩ := hsome hl
    obtain ⟨F, h1, h2⟩ := id w
    obtain ⟨m, v, G, g1, g2, g3, g4⟩ := clone_total (h1 c j hj).2
    obtain ⟨w1, w2⟩ := world_new w g3 g2 g4
    simp only [exec, g1]
    exact ⟨_, ⟨_, j, w2, hj, rfl, rfl⟩, w1, hupd _ _⟩
  | setP c p src =>
    obtain ⟨jc, hjc⟩ := hsome hl.1
    obtain ⟨js, hjs⟩ := hsome hl.2
    obtain ⟨F, h1, h2⟩ := id w
    have hs := setP_rep room p (h1 c jc hjc).2 (h1 src js hjs).2
    cases hg : Container.setP jc p js with
    | panic => exact absurd hg (setP_no_panic _ _ _)
    | err e =>
      rw [hg] at hs
      simp only [exec, show setP room p (data h (some src)) c h = .err e from hs]
      exact ⟨d, ⟨jc, js, hjc, hjs, .inr ⟨e, hg, rfl, rfl⟩⟩, w, hk⟩
    | ok j' =>
      rw [hg] at hs
      obtain ⟨h', o', F', k1, k2, k3, k4, k5⟩ := hs
      simp only [exec, k1]
      exact ⟨_, ⟨jc, js, hjc, hjs, .inl ⟨j', hg, rfl, rfl⟩⟩, world_upd h1 h2 hjc ⟨[], by simpa using k2⟩ k3 k4 k5, hupd' _ _⟩
  | merge c f src order =>
    obtain ⟨hl1, hl2, ho⟩ := hl
    obtain ⟨jc, hjc⟩ := hsome hl1
    obtain ⟨js, hjs⟩ := hsome hl2
    have ho := ho js (w.doc hjs)
    obtain ⟨F, h1, h2⟩ := id w
    have hwf := rep_wf _ _ _ (h1 src js hjs).2
    have hcan := Json.canon_reorder ho (Json.NodupKeys_of_WF _ hwf)
    obtain ⟨hh, G, m1, m2, m3, m4, m5⟩ := merge_rep room f (h1 c jc hjc).1 (h1 c jc hjc).2 (h1 src js hjs).2 hcan.1 ((Json.canon_of_WF _ hwf).symm.trans hcan.2)
    have out : ∀ {h' j'}, Out hh c (F c) G h' j' → World h' (d.upd c j') := by
      rintro h' j' ⟨o', F', k1, k2, k3, k4, k5⟩
      refine world_upd h1 h2 hjc ⟨_, by rw [k1, m1]⟩ k2 ((m2.mono (by simp)).trans k3 ?_) ?_
      · intro a ha hlt
        rcases List.mem_append.1 ha with ha | ha
        · exact ha
        · exact absurd (m3 a ha) (by omega)
      · intro a ha
        rcases k4 a ha with ha | ha | ha
        · exact .inl ha
        · exact .inr (m3 a ha)
        · exact .inr (Nat.le_trans m2.le ha)
    cases hm : merge room f c (some src) order h with
    | mk h' r =>
    rw [hm] at m5
    cases hg : Container.merge jc order f.pure with
    | panic => exact absurd hg (merge_no_panic _ _ _)
    | err e =>
      rw [hg] at m5
      obtain ⟨e1, j', ⟨p, hp1, hp2⟩, k⟩ := m5
      cases e1
      simp only [exec, hm]
      exact ⟨_, ⟨jc, js, hjc, hjs, ho, .inr ⟨e, j', p, hg, rfl, hp1, hp2, rfl⟩⟩, out k, hupd' _ _⟩
    | ok j' =>
      rw [hg] at m5
      obtain ⟨e1, k⟩ := m5
      cases e1
      simp only [exec, hm]
      exact ⟨_, ⟨jc, js, hjc, hjs, ho, .inl ⟨j', hg, rfl, rfl⟩⟩, out k, hupd' _ _⟩

theorem calls_hist {room : Nat} {l : List (Cmd × Res (Option Nat))} {known : List Nat} {h : Heap} (hc : Calls room l known h) :
    ∃ d, Hist (fun _ => none) l d ∧ World h d ∧ ∀ c ∈ known, (d c).isSome = true := by
  induction hc with
  | start => exact ⟨_, .nil _, ⟨fun _ => [], by simp, by simp⟩, by simp⟩
  | call cmd _ hl ih =>
    obtain ⟨d, h1, h2, h3⟩ := ih
    obtain ⟨d', k1, k2, k3⟩ := exec_step room h2 h3 hl
    exact ⟨d', .snoc h1 k1, k2, k3⟩

end Oapi.GoHeap
