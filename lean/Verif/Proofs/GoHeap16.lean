import Verif.Proofs.GoHeap15

/-! The spec files in memory. -/
namespace Oapi.GoHeap
open Container (File)
open Scan (Input Orders)
open Spec (Pairwise2)

/-- Container `w` is the file `f`. -/
def SameFile (d : Docs) (f : File) (w : HFile) : Prop := f.path = w.path ∧ d w.cont = some f.doc

theorem readAll_world : ∀ (fs : List File) {h : Heap} {d : Docs}, World h d → (∀ f ∈ fs, Json.WF f.doc) →
    ∃ d' : Docs, World (readAll fs h).1 d' ∧ (∀ x j, d x = some j → d' x = some j) ∧ Pairwise2 (SameFile d') fs (readAll fs h).2 ∧
      ((readAll fs h).2.map HFile.cont).Nodup ∧ ∀ x ∈ (readAll fs h).2.map HFile.cont, d x = none
  | [], h, d, w, _ => ⟨d, w, fun _ _ h => h, trivial, by simp [readAll], by simp [readAll]⟩
  | f :: t, h, d, w, hw => by
    obtain ⟨G, g1, g2, g3⟩ := alloc_rep f.doc h.mem (hw f (by simp))
    obtain ⟨w1, hn⟩ := world_new w g2 g1 g3
    obtain ⟨d', k1, k2, k3, k4, k5⟩ := readAll_world t w1 (fun f hf => hw f (by simp [hf]))
    simp only [readAll]
    have hnot : h.objs.length ∉ (readAll t (make f.doc h).1).2.map HFile.cont := by
      intro hm
      have := k5 _ hm
      rw [upd_self] at this
      cases this
    refine ⟨d', k1, fun x j hx => k2 x j ?_, ⟨⟨rfl, k2 _ _ (upd_self _ _ _)⟩, k3⟩, ?_, ?_⟩
    · rw [upd_ne _ _ (by rintro rfl; rw [hn] at hx; cases hx)]; exact hx
    · simp only [List.map_cons, List.nodup_cons]
      exact ⟨hnot, k4⟩
    · intro x hx
      simp only [List.map_cons, List.mem_cons] at hx
      rcases hx with rfl | hx
      · exact hn
      · have hne : x ≠ h.objs.length := by rintro rfl; exact hnot hx
        have := k5 x hx
        rw [upd_ne _ _ hne] at this
        exact this

theorem upd_same {d : Docs} {c : Nat} {j : Json} (hc : d c = some j) : d.upd c j = d := by
  funext x
  by_cases hx : x = c
  · rw [hx, upd_self, hc]
  · rw [upd_ne _ _ hx]

theorem scanRefs_world (room : Nat) (pkg : Str) {c : Nat} : ∀ (refs : List (Str × Json)) (ps : Pointers) {h : Heap} {d : Docs} {j : Json}, World h d → d c = some j →
    ∃ h' j', World h' (d.upd c j') ∧ match Specs.scanRefs pkg refs j ps with
      | .ok (k, ps') => scanRefs room pkg c refs ps h = (h', .ok ps') ∧ j' = k
      | .err e => scanRefs room pkg c refs ps h = (h', .err e)
      | .panic => scanRefs room pkg c refs ps h = (h', .panic)
  | [], ps, h, d, j, w, hc => ⟨h, j, by rw [upd_same hc]; exact w, rfl, rfl⟩
  | (key, v) :: t, ps, h, d, j, w, hc => by
    have skip := scanRefs_world room pkg t ps w hc
    cases v with
    | null => exact skip
    | bool _ => exact skip
    | num _ => exact skip
    | arr _ => exact skip
    | obj _ => exact skip
    | str x =>
      simp only [scanRefs, Specs.scanRefs]
      cases Specs.rewriteRef pkg x with
      | err e => exact ⟨h, j, by rw [upd_same hc]; exact w, rfl⟩
      | panic => exact ⟨h, j, by rw [upd_same hc]; exact w, rfl⟩
      | ok p =>
        simp only
        have hs := setP_world room key w hc (v := .str p.toStr) (js := .str p.toStr) (A := []) ⟨rfl, rfl⟩
        cases hg : Container.setP j key (.str p.toStr) with
        | panic => rw [hg] at hs; exact hs.elim
        | err e =>
          rw [hg] at hs
          simp only at hs
          simp only [hs]
          exact ⟨h, j, by rw [upd_same hc]; exact w, rfl⟩
        | ok j1 =>
          rw [hg] at hs
          obtain ⟨h1, e1, w1⟩ := hs
          simp only [e1]
          have := scanRefs_world room pkg t (Pointers.put p.toStr p ps) w1 (upd_self _ _ _)
          simp only [upd_upd] at this
          exact this

theorem existsC_world {h : Heap} {d : Docs} {c : Nat} {j : Json} (w : World h d) (hc : d c = some j) (p : Str) : existsC p c h = Container.existsP j p := by
  obtain ⟨A, hA⟩ := w.rep hc
  have hs := search_rep (Gabs.dotPathToSlice p) hA
  unfold existsC Container.existsP Gabs.existsAt
  cases hg : Gabs.search (Gabs.dotPathToSlice p) j with
  | none => rw [hg] at hs; rw [hs.1]; rfl
  | some x => rw [hg] at hs; obtain ⟨v, _, e, _⟩ := hs; rw [e]; rfl

theorem scanFile_world (room : Nat) (ord : List (Str × Json) → List (Str × Json)) (pkg : Str) (f : File) (v : HFile) (ps : Pointers) {h : Heap} {d : Docs} (w : World h d) (hf : SameFile d f v) :
    ∃ h' j', World h' (d.upd v.cont j') ∧ match Scan.scanFile ord pkg f ps with
      | .ok (o, ps') => ∃ o', scanFile room ord pkg v ps h = (h', .ok (o', ps')) ∧
          ((o = none ∧ o' = none) ∨ ∃ f', o = some f' ∧ o' = some v ∧ f'.path = v.path ∧ f'.doc = j')
      | .err e => scanFile room ord pkg v ps h = (h', .err e)
      | .panic => scanFile room ord pkg v ps h = (h', .panic) := by
  obtain ⟨hp, hc⟩ := hf
  have same : World h (d.upd v.cont f.doc) := by rw [upd_same hc]; exact w
  unfold scanFile Scan.scanFile
  rw [existsC_world w hc]
  by_cases he : Container.existsP f.doc b!"openapi" = false
  · simp only [if_pos he]
    exact ⟨h, f.doc, same, none, rfl, .inl ⟨trivial, rfl⟩⟩
  · simp only [if_neg he, extract, w.doc hc]
    cases Container.extractKey f.doc b!"$ref" with
    | err e => exact ⟨h, f.doc, same, rfl⟩
    | panic => exact ⟨h, f.doc, same, rfl⟩
    | ok refs =>
      simp only
      obtain ⟨h', j', k1, k2⟩ := scanRefs_world room pkg (ord refs) ps w hc
      cases hg : Specs.scanRefs pkg (ord refs) f.doc ps with
      | err e => rw [hg] at k2; simp only at k2; simp only [k2]; exact ⟨h', j', k1, rfl⟩
      | panic => rw [hg] at k2; simp only at k2; simp only [k2]; exact ⟨h', j', k1, rfl⟩
      | ok q =>
        obtain ⟨k, ps'⟩ := q
        rw [hg] at k2
        obtain ⟨k2, rfl⟩ := k2
        simp only [k2]
        exact ⟨h', j', k1, _, rfl, .inr ⟨_, rfl, rfl, hp, rfl⟩⟩

theorem scanFiles_world (room : Nat) (ord : Nat → List (Str × Json) → List (Str × Json)) (pkg : Str) : ∀ (fs : List File) (vs : List HFile) (i : Nat) (ps : Pointers) {h : Heap} {d : Docs},
    World h d → Pairwise2 (SameFile d) fs vs → (vs.map HFile.cont).Nodup →
    ∃ (h' : Heap) (d' : Docs), World h' d' ∧ (∀ x j, x ∉ vs.map HFile.cont → d x = some j → d' x = some j) ∧ match Scan.scanFiles ord pkg i fs ps with
      | .ok (l, ps') => ∃ l', scanFiles room ord pkg i vs ps h = (h', .ok (l', ps')) ∧ Pairwise2 (SameFile d') l l' ∧ ∀ x ∈ l', x ∈ vs
      | .err e => scanFiles room ord pkg i vs ps h = (h', .err e)
      | .panic => scanFiles room ord pkg i vs ps h = (h', .panic)
  | [], [], i, ps, h, d, w, _, _ => ⟨h, d, w, fun _ _ _ h => h, [], rfl, trivial, by simp⟩
  | [], _ :: _, _, _, _, _, _, hp, _ => hp.elim
  | _ :: _, [], _, _, _, _, _, hp, _ => hp.elim
  | f :: fs, v :: vs, i, ps, h, d, w, hp, hn => by
    simp only [List.map_cons, List.nodup_cons] at hn
    obtain ⟨h1, j1, w1, hs⟩ := scanFile_world room (ord i) pkg f v ps w hp.1
    have keep1 : ∀ x j, x ∉ (v :: vs).map HFile.cont → d x = some j → (d.upd v.cont j1) x = some j := by
      intro x j hx hd
      simp only [List.map_cons, List.mem_cons, not_or] at hx
      rw [upd_ne _ _ hx.1]
      exact hd
    simp only [scanFiles, Scan.scanFiles]
    cases hg : Scan.scanFile (ord i) pkg f ps with
    | err e => rw [hg] at hs; simp only at hs; simp only [hs]; exact ⟨h1, _, w1, keep1, rfl⟩
    | panic => rw [hg] at hs; simp only at hs; simp only [hs]; exact ⟨h1, _, w1, keep1, rfl⟩
    | ok q =>
      obtain ⟨o, ps1⟩ := q
      rw [hg] at hs
      obtain ⟨o', e1, ho⟩ := hs
      simp only [e1]
      have hp2 : Pairwise2 (SameFile (d.upd v.cont j1)) fs vs := by
        have : ∀ (fs : List File) (us : List HFile), (∀ u ∈ us, u ∈ vs) → Pairwise2 (SameFile d) fs us → Pairwise2 (SameFile (d.upd v.cont j1)) fs us := by
          intro fs
          induction fs with
          | nil => intro us _ h; cases us with
            | nil => trivial
            | cons _ _ => exact h.elim
          | cons f fs ih => intro us hu h; cases us with
            | nil => exact h.elim
            | cons u us =>
              refine ⟨⟨h.1.1, ?_⟩, ih us (fun x hx => hu x (by simp [hx])) h.2⟩
              rw [upd_ne _ _ (by intro e; exact hn.1 (e ▸ List.mem_map.2 ⟨u, hu u (by simp), rfl⟩))]
              exact h.1.2
        exact this fs vs (fun _ h => h) hp.2
      obtain ⟨h2, d2, w2, k2, hs2⟩ := scanFiles_world room ord pkg fs vs (i + 1) ps1 w1 hp2 hn.2
      have keep2 : ∀ x j, x ∉ (v :: vs).map HFile.cont → d x = some j → d2 x = some j := by
        intro x j hx hd
        refine k2 x j ?_ (keep1 x j hx hd)
        simp only [List.map_cons, List.mem_cons, not_or] at hx
        exact hx.2
      cases hg2 : Scan.scanFiles ord pkg (i + 1) fs ps1 with
      | err e => rw [hg2] at hs2; simp only at hs2; simp only [hs2]; exact ⟨h2, d2, w2, keep2, rfl⟩
      | panic => rw [hg2] at hs2; simp only at hs2; simp only [hs2]; exact ⟨h2, d2, w2, keep2, rfl⟩
      | ok q =>
        obtain ⟨l, ps2⟩ := q
        rw [hg2] at hs2
        obtain ⟨l', e2, hl, hsub⟩ := hs2
        simp only [e2]
        refine ⟨h2, d2, w2, keep2, _, rfl, ?_, ?_⟩
        · rcases ho with ⟨rfl, rfl⟩ | ⟨f', rfl, rfl, ho1, ho2⟩
          · exact hl
          · exact ⟨⟨ho1, by rw [ho2]; exact k2 _ _ hn.1 (upd_self _ _ _)⟩, hl⟩
        · intro x hx
          rcases List.mem_append.1 hx with hx | hx
          · rcases ho with ⟨rfl, rfl⟩ | ⟨f', rfl, rfl, ho1, ho2⟩
            · simp at hx
            · simp only [Option.toList, List.mem_singleton] at hx
              simp [hx]
          · exact List.mem_cons_of_mem _ (hsub x hx)

/-! ### The scanner -/

/-- The scanner of spec files is in the same state on both sides. -/
def SpecsRel (s : Heap × Res (List HFile × Pointers)) : Res (List File × Pointers) → Prop
  | .ok (fs, ps) => ∃ vs d, s.2 = .ok (vs, ps) ∧ World s.1 d ∧ Pairwise2 (SameFile d) fs vs
  | .err e => s.2 = .err e
  | .panic => s.2 = .panic

theorem pairwise2_keep {d d' : Docs} (hk : ∀ x j, d x = some j → d' x = some j) {fs : List File} {vs : List HFile} (h : Pairwise2 (SameFile d) fs vs) : Pairwise2 (SameFile d') fs vs :=
  pairwise2_mono (fun _ _ h => ⟨h.1, hk _ _ h.2⟩) h

variable {F : Type}

theorem specs_step (room : Nat) (inp : Input F) (o : Orders) (hw : ∀ p fs, inp.files p = .ok fs → ∀ f ∈ fs, Json.WF f.doc) :
    ∀ s t p, SpecsRel s t → SpecsRel ((specsScanner room inp o).scan s p).1 ((Scan.specsScanner inp o).scan t p).1 ∧
      ((specsScanner room inp o).scan s p).2 = ((Scan.specsScanner inp o).scan t p).2 := by
  rintro ⟨h, s⟩ t p hr
  cases t with
  | err e => simp only [SpecsRel] at hr; subst hr; exact ⟨rfl, rfl⟩
  | panic => simp only [SpecsRel] at hr; subst hr; exact ⟨rfl, rfl⟩
  | ok q =>
    obtain ⟨cc, ps⟩ := q
    obtain ⟨vs, d, e, w, hp⟩ := hr
    simp only at e w
    subst e
    simp only [specsScanner, Scan.specsScanner]
    cases hf : inp.files p with
    | err e => exact ⟨⟨vs, d, rfl, w, hp⟩, rfl⟩
    | panic => exact ⟨rfl, rfl⟩
    | ok ff =>
      simp only
      obtain ⟨d1, w1, k1, p1, n1, f1⟩ := readAll_world ff w (hw p ff hf)
      obtain ⟨h2, d2, w2, k2, hs⟩ := scanFiles_world room (o.refs p) (Scan.pathOf inp.heap p) ff (readAll ff h).2 0 ps w1 p1 n1
      have keep : ∀ x j, d x = some j → d2 x = some j := by
        intro x j hx
        refine k2 x j (fun hm => ?_) (k1 x j hx)
        rw [f1 x hm] at hx
        cases hx
      cases hg : Scan.scanFiles (o.refs p) (Scan.pathOf inp.heap p) 0 ff ps with
      | err e => rw [hg] at hs; simp only at hs; simp only [hs]; exact ⟨⟨vs, d2, rfl, w2, pairwise2_keep keep hp⟩, trivial⟩
      | panic => rw [hg] at hs; simp only at hs; simp only [hs]; exact ⟨rfl, trivial⟩
      | ok q =>
        obtain ⟨l, ps'⟩ := q
        rw [hg] at hs
        obtain ⟨l', e2, hl, _⟩ := hs
        simp only [e2]
        exact ⟨⟨vs ++ l', d2, rfl, w2, pairwise2_append (pairwise2_keep keep hp) hl⟩, trivial⟩

theorem specs_crash (s : Heap × Res (List HFile × Pointers)) (t : Res (List File × Pointers)) (h : SpecsRel s t) : Scan.Crashing.crashed s = Scan.Crashing.crashed t := by
  obtain ⟨g, s⟩ := s
  cases t with
  | ok q => obtain ⟨vs, d, e, _⟩ := h; simp only at e; subst e; rfl
  | err e => simp only [SpecsRel] at h; subst h; rfl
  | panic => simp only [SpecsRel] at h; subst h; rfl

/-- The scan of spec files in memory. -/
theorem scanSpecs_world (room : Nat) (inp : Input F) (o : Orders) (hw : ∀ p fs, inp.files p = .ok fs → ∀ f ∈ fs, Json.WF f.doc) (roots : List Nat) {h : Heap} {d : Docs} (w : World h d) :
    match Scan.flat (Scan.walk inp o.heap₂ roots (Scan.specsScanner inp o) (.ok ([], []))) with
    | .ok (fs, ps) => ∃ h' vs d', scanSpecs room inp o roots h = (h', .ok (vs, ps)) ∧ World h' d' ∧ Pairwise2 (SameFile d') fs vs
    | .err e => (scanSpecs room inp o roots h).2 = .err e
    | .panic => (scanSpecs room inp o roots h).2 = .panic := by
  have := Scan.walk_alike (inp := inp) (heap := o.heap₂) (roots := roots) (R := SpecsRel) (s := (h, .ok ([], []))) (t := .ok ([], []))
    (specs_step room inp o hw) specs_crash ⟨[], d, rfl, w, trivial⟩
  unfold scanSpecs
  cases hg : Scan.walk inp o.heap₂ roots (Scan.specsScanner inp o) (.ok ([], [])) with
  | err e => rw [hg] at this; simp only at this; simp only [this]; rfl
  | panic => rw [hg] at this; simp only at this; simp only [this, Scan.flat]
  | ok b =>
    rw [hg] at this
    obtain ⟨⟨h', r⟩, e, hr⟩ := this
    simp only [e, Scan.flat]
    cases b with
    | ok q =>
      obtain ⟨fs, ps⟩ := q
      obtain ⟨vs, d', e1, w1, p1⟩ := hr
      simp only at e1 w1
      subst e1
      exact ⟨h', vs, d', rfl, w1, p1⟩
    | err e => exact hr
    | panic => exact hr

end Oapi.GoHeap
