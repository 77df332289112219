import Verif.Proofs.GoHeap16
import Verif.Spec.GoScan

/-! A scan in memory. -/
namespace Oapi.GoHeap
open Container (File)
open Scan (Input Orders Prepared Outcome)
open Spec (Pairwise2 MOrdersOK DocsOK)

/-- A computation in memory and one on documents end alike; `R` relates their results. -/
def Sim {α β : Type} (R : α → β → Docs → Prop) (r : Heap × Res α) : Res β → Prop
  | .ok b => ∃ a d, r.2 = .ok a ∧ World r.1 d ∧ R a b d
  | .err e => r.2 = .err e
  | .panic => r.2 = .panic

theorem sim_bind {α β γ δ : Type} {R : α → β → Docs → Prop} {S : γ → δ → Docs → Prop} {x : M α} {y : Res β} {f : α → M γ} {g : β → Res δ} {h : Heap}
    (hx : Sim R (x h) y) (hf : ∀ h' a b d, y = .ok b → World h' d → R a b d → Sim S (f a h') (g b)) : Sim S ((x >>= f) h) (y >>= g) := by
  change Sim S (M.bind x f h) _
  unfold M.bind
  cases hb : x h with
  | mk h' r =>
  rw [hb] at hx
  cases y with
  | err e => have : r = .err e := hx; subst this; rfl
  | panic => have : r = .panic := hx; subst this; rfl
  | ok b =>
    obtain ⟨a, d, e, w, hR⟩ := hx
    simp only at e w
    subst e
    exact hf h' a b d rfl w hR

theorem sim_lift {α γ δ : Type} {S : γ → δ → Docs → Prop} {y : Res α} {f : α → M γ} {g : α → Res δ} {h : Heap} (hf : ∀ a, y = .ok a → Sim S (f a h) (g a)) :
    Sim S ((M.lift y >>= f) h) (y >>= g) := by
  cases y with
  | ok b => exact hf b rfl
  | err e => rfl
  | panic => rfl

variable {F : Type} {inp : Input F} {o : Orders} {mo : MOrders}

/-- Files are sorted alike. -/
theorem sort_alike {fs : List File} {vs : List HFile} {d : Docs} (hp : Pairwise2 (SameFile d) fs vs) {vs' : List HFile} (h1 : vs'.Perm vs)
    (h2 : vs'.Pairwise fun x y => Str.lt y.path x.path = false) : ∃ fs', Container.SortResult fs fs' ∧ Pairwise2 (SameFile d) fs' vs' := by
  obtain ⟨fs', p1, p2⟩ := pairwise2_perm h1.symm hp
  refine ⟨fs', ⟨p1, ?_⟩, p2⟩
  have e : fs'.map File.path = vs'.map HFile.path := pairwise2_map (fun _ _ h => h.1) p2
  have := (List.pairwise_map (f := HFile.path) (R := fun x y => Str.lt y x = false)).2 h2
  rw [← e] at this
  exact List.pairwise_map.1 this

/-- And the other way round. -/
theorem sort_alike' {fs : List File} {vs : List HFile} {d : Docs} (hp : Pairwise2 (SameFile d) fs vs) {fs' : List File} (h1 : Container.SortResult fs fs') :
    ∃ vs' : List HFile, vs'.Perm vs ∧ (vs'.Pairwise fun x y => Str.lt y.path x.path = false) ∧ Pairwise2 (SameFile d) fs' vs' := by
  obtain ⟨vs', p1, p2⟩ := pairwise2_perm h1.1.symm (pairwise2_flip hp)
  have p3 : Pairwise2 (SameFile d) fs' vs' := pairwise2_flip p2
  refine ⟨vs', p1, ?_, p3⟩
  have e : fs'.map File.path = vs'.map HFile.path := pairwise2_map (fun _ _ h => h.1) p3
  have := (List.pairwise_map (f := File.path) (R := fun x y => Str.lt y x = false)).2 h1.2
  rw [e] at this
  exact List.pairwise_map.1 this

theorem same_docs {fs : List File} {vs : List HFile} {d : Docs} (hp : Pairwise2 (SameFile d) fs vs) : (vs.map HFile.cont).map d = (fs.map File.doc).map some := by
  rw [List.map_map, List.map_map]
  exact (pairwise2_map (R := SameFile d) (f := some ∘ File.doc) (g := d ∘ HFile.cont) (fun _ _ h => h.2.symm) hp).symm

theorem mergeAll_sim (room : Nat) {ord : Nat → Json → Json} (ho : ∀ n j, Spec.Reorder j (ord n j)) {cc : List Nat} {js : List Json} {h : Heap} {d : Docs} (w : World h d)
    (hd : cc.map d = js.map some) : Sim (fun a b e => e a = some b) (mergeAll room .strict ord cc h) (Container.mergeAll Container.mergeStrict js) := by
  obtain ⟨n, _, hr⟩ := mergeAll_world room .strict ho w hd
  change match Container.mergeAll Container.mergeStrict js with
    | .ok j => _
    | .err e => _
    | .panic => _ at hr
  cases hg : Container.mergeAll Container.mergeStrict js with
  | panic => rw [hg] at hr; exact hr.1
  | err e => rw [hg] at hr; exact hr.1
  | ok j => rw [hg] at hr; exact ⟨n, _, hr.1, hr.2, upd_self _ _ _⟩

theorem mergeWithRoot_sim (room : Nat) {ord : Str → Nat → Json → Json} (ho : ∀ k n j, Spec.Reorder j (ord k n j)) {root : Json} (hw : Json.WF root) {h : Heap} {d : Docs} {c : Nat} {m : Obj}
    (w : World h d) (hc : d c = some (.obj m)) : Sim (fun _ b e => e c = some b) (mergeWithRoot room ord root c h) (OAPI.mergeWithRoot root (.obj m)) := by
  obtain ⟨d', _, hr⟩ := mergeWithRoot_world room ho hw w hc
  cases hg : OAPI.mergeWithRoot root (.obj m) with
  | panic => rw [hg] at hr; exact hr.1
  | err e => rw [hg] at hr; exact hr.1
  | ok j => rw [hg] at hr; exact ⟨(), _, hr.1, hr.2, upd_self _ _ _⟩

/-- Both sides are prepared alike. -/
def SamePre (a : HPrepared) (b : Prepared) (d : Docs) : Prop := a.exports = b.exports ∧ a.points = b.points ∧ d a.cont = some b.doc

theorem world_start : World ⟨[], []⟩ (fun _ => none) := ⟨fun _ => [], ⟨(fun _ _ h => by cases h), (fun _ _ _ _ h => by cases h)⟩⟩

/-- Both sides' sorted files have the same documents. -/
def FilesAlike (room : Nat) (inp : Input F) (o : Orders) (srt' : List HFile → List HFile) (srt : List File → List File) : Prop :=
  ∀ roots, inp.load = .ok roots → Sim (fun a b e => a.2 = b.2 ∧ ((srt' a.1).map HFile.cont).map e = ((srt b.1).map File.doc).map some)
    (scanSpecs room inp o roots ⟨[], []⟩) (Scan.flat (Scan.walk inp o.heap₂ roots (Scan.specsScanner inp o) (.ok ([], []))))

/-- Sorting containers sorts documents. -/
theorem files_to (room : Nat) (hs : ∀ l, Container.SortResult l (o.sort l)) (hm : MOrdersOK mo) (hd : DocsOK inp) :
    ∃ srt : List File → List File, (∀ l, Container.SortResult l (srt l)) ∧ FilesAlike room inp o mo.sort srt := by
  cases hl : inp.load with
  | err e => exact ⟨o.sort, hs, fun _ h => by rw [hl] at h; cases h⟩
  | panic => exact ⟨o.sort, hs, fun _ h => by rw [hl] at h; cases h⟩
  | ok roots =>
    have := scanSpecs_world room inp o hd.files roots world_start
    cases hg : Scan.flat (Scan.walk inp o.heap₂ roots (Scan.specsScanner inp o) (.ok ([], []))) with
    | err e => rw [hg] at this; exact ⟨o.sort, hs, fun r h => by rw [hl] at h; cases h; rw [hg]; exact this⟩
    | panic => rw [hg] at this; exact ⟨o.sort, hs, fun r h => by rw [hl] at h; cases h; rw [hg]; exact this⟩
    | ok q =>
      obtain ⟨fs, ps⟩ := q
      rw [hg] at this
      obtain ⟨h', vs, d', e1, w1, p1⟩ := this
      obtain ⟨fs', s1, s2⟩ := sort_alike p1 (hm.sort vs).1 (hm.sort vs).2
      refine ⟨fun l => if l = fs then fs' else o.sort l, fun l => ?_, fun r h => ?_⟩
      · by_cases e : l = fs
        · simp only [if_pos e]; rw [e]; exact s1
        · simp only [if_neg e]; exact hs l
      · rw [hl] at h
        cases h
        rw [hg, e1]
        exact ⟨_, d', rfl, w1, rfl, by simp only [if_true]; exact same_docs s2⟩

/-- Sorting documents can be done by sorting containers. -/
theorem files_from (room : Nat) (hs : ∀ l, Container.SortResult l (o.sort l)) (hm : MOrdersOK mo) (hd : DocsOK inp) :
    ∃ srt : List HFile → List HFile, (∀ l, (srt l).Perm l ∧ (srt l).Pairwise fun x y => Str.lt y.path x.path = false) ∧ FilesAlike room inp o srt o.sort := by
  cases hl : inp.load with
  | err e => exact ⟨mo.sort, hm.sort, fun _ h => by rw [hl] at h; cases h⟩
  | panic => exact ⟨mo.sort, hm.sort, fun _ h => by rw [hl] at h; cases h⟩
  | ok roots =>
    have := scanSpecs_world room inp o hd.files roots world_start
    cases hg : Scan.flat (Scan.walk inp o.heap₂ roots (Scan.specsScanner inp o) (.ok ([], []))) with
    | err e => rw [hg] at this; exact ⟨mo.sort, hm.sort, fun r h => by rw [hl] at h; cases h; rw [hg]; exact this⟩
    | panic => rw [hg] at this; exact ⟨mo.sort, hm.sort, fun r h => by rw [hl] at h; cases h; rw [hg]; exact this⟩
    | ok q =>
      obtain ⟨fs, ps⟩ := q
      rw [hg] at this
      obtain ⟨h', vs, d', e1, w1, p1⟩ := this
      obtain ⟨vs', s1, s2, s3⟩ := sort_alike' p1 (hs fs)
      refine ⟨fun l => if l = vs then vs' else mo.sort l, fun l => ?_, fun r h => ?_⟩
      · by_cases e : l = vs
        · simp only [if_pos e]; rw [e]; exact ⟨s1, s2⟩
        · simp only [if_neg e]; exact hm.sort l
      · rw [hl] at h
        cases h
        rw [hg, e1]
        exact ⟨_, d', rfl, w1, rfl, by simp only [if_true]; exact same_docs s3⟩

/-- The stages up to MergeWithRoot. -/
theorem prepare_sim (room : Nat) (hm : MOrdersOK mo) (hd : DocsOK inp) {srt' : List HFile → List HFile} {srt : List File → List File}
    (hf : FilesAlike room inp o srt' srt) (ops : List OAPI.Op → List OAPI.Op) :
    Sim SamePre (prepare room inp o { mo with sort := srt' } ⟨[], []⟩) (Scan.prepare inp { o with sort := srt, ops := ops }) := by
  unfold prepare Scan.prepare
  refine sim_lift fun roots hr => ?_
  refine sim_lift fun cmds _ => ?_
  refine sim_lift fun exports _ => ?_
  refine sim_bind (hf roots hr) ?_
  rintro h ⟨vs, ps⟩ ⟨fs, ps'⟩ d _ w ⟨rfl, hdoc⟩
  refine sim_bind (mergeAll_sim room hm.merge w hdoc) ?_
  intro h c j d hj w hc
  obtain ⟨m, rfl⟩ := Scan.mergeAll_isObj hj
  refine sim_lift fun pts _ => ?_
  refine sim_bind (mergeWithRoot_sim room hm.root hd.root w hc) ?_
  intro h _ j d _ w hc
  exact ⟨_, d, rfl, w, rfl, rfl, hc⟩

theorem resolveFn_wf (hd : DocsOK inp) (m : Types.PMap) (p : Pointer) (j : Json) (h : Scan.resolveFn inp o m p = .ok j) : Json.WF j := by
  unfold Scan.resolveFn at h
  split at h
  · rename_i d hl
    cases h
    obtain ⟨x, hx⟩ : ∃ x, (x, j) ∈ inp.override := by
      clear hd
      revert hl
      generalize inp.override = l
      intro hl
      induction l with
      | nil => cases hl
      | cons e t ih =>
        obtain ⟨k, v⟩ := e
        simp only [List.lookup] at hl
        split at hl
        · cases hl; exact ⟨k, by simp⟩
        · obtain ⟨x, hx⟩ := ih hl; exact ⟨x, by simp [hx]⟩
    exact hd.override _ hx
  · split at h
    · split at h
      · unfold Scan.make at h
        split at h
        · cases h
          exact (Scan.refsIn_all _).wf ⟨hd.nums, hd.ints⟩
        · cases h
      · cases h
      · cases h
    · cases h

/-- Both sides end alike. -/
def EndAlike (r : Heap × Res Nat) : Res Json → Prop
  | .ok j => ∃ h' c, r = (h', .ok c) ∧ doc h'.mem (data h' (some c)) = some j
  | .err e => r.2 = .err e
  | .panic => r.2 = .panic

/-- The default operations are applied alike, if the operations are visited alike. -/
theorem finish_sim (room : Nat) (hq : ∀ l, (o.defops l).Perm l) (hd : DocsOK inp) (fuel : Nat) {h : Heap} {d : Docs} {a : HPrepared} {b : Prepared}
    (w : World h d) (hp : SamePre a b d) :
    (∀ ops mops, EndAlike (finish room inp o { mo with ops := mops } fuel a h) (Scan.finish inp { o with ops := ops } fuel b)) ∨
    ∃ (l : List OAPI.Op) (vs : List HOp) (R : OAPI.Op → HOp → Prop), Pairwise2 R l vs ∧ ∀ ops mops, (ops l).Perm l → (mops vs).Perm vs → Pairwise2 R (ops l) (mops vs) →
      EndAlike (finish room inp o { mo with ops := mops } fuel a h) (Scan.finish inp { o with ops := ops } fuel b) := by
  obtain ⟨hp1, hp2, hp3⟩ := hp
  have hcfg : Scan.cfg inp o { exports := a.exports, doc := .null, points := a.points } = Scan.cfg inp o b := by
    unfold Scan.cfg
    rw [hp1, hp2]
  obtain ⟨d', w', _, hr⟩ := resolve_sim room (Scan.cfg inp o b) (fun p j => resolveFn_wf hd b.points p j) fuel w hp3
  have hfin : ∀ mops, finish room inp o { mo with ops := mops } fuel a h = M.bind (resolve room (Scan.cfg inp o b) fuel a.cont)
      (fun c => M.bind (setDefaults room inp.matches_ mops (o.defops inp.defops) c) fun _ => M.lift (.ok c)) h := by
    intro mops
    unfold finish
    rw [hcfg]
    rfl
  have hval : ∀ ops, Scan.finish inp { o with ops := ops } fuel b = match Resolver.resolve (Scan.cfg inp o b) fuel b.doc with
      | .err e => .err e
      | .panic => .panic
      | .ok c => match OAPI.paths c with
        | .err e => .err e
        | .panic => .panic
        | .ok l => OAPI.runDefaults inp.matches_ c (ops l) (o.defops inp.defops) := fun _ => rfl
  simp only [hval, hfin, M.bind]
  cases hb : resolve room (Scan.cfg inp o b) fuel a.cont h with
  | mk h1 r =>
  rw [hb] at hr w'
  simp only at hr w'
  cases hg : Resolver.resolve (Scan.cfg inp o b) fuel b.doc with
  | err e => rw [hg] at hr; simp only at hr; subst hr; exact .inl fun _ _ => rfl
  | panic => rw [hg] at hr; simp only at hr; subst hr; exact .inl fun _ _ => rfl
  | ok j =>
    rw [hg] at hr
    obtain ⟨c, _, e1, hc⟩ := hr
    subst e1
    simp only
    obtain ⟨G, g1, g2⟩ := w'
    have hpi := paths_inv (g1 c j hc).1 (g1 c j hc).2 [] (by simp)
    unfold setDefaults
    cases hpp : OAPI.paths j with
    | panic => rw [hpp] at hpi; exact hpi.elim
    | err e => rw [hpp] at hpi; simp only at hpi; simp only [hpi]; exact .inl fun _ _ => rfl
    | ok l =>
      rw [hpp] at hpi
      obtain ⟨h2, vs, e2, R, r1, r2⟩ := hpi
      refine .inr ⟨l, vs, R, r1, fun ops mops p1 p2 p3 => ?_⟩
      have I := r2 _ _ p1 p2 p3
      have hrun := inv_applyDefaults room inp.matches_ (o.defops inp.defops) (fun q hq' => by
        obtain ⟨j, h1, h2⟩ := hd.defops q ((hq _).mem_iff.1 hq')
        exact (Json.canon_reorder h2 (Json.NodupKeys_of_WF _ h1)).1) I
      simp only [e2, OAPI.runDefaults]
      cases hx : OAPI.applyDefaults inp.matches_ (o.defops inp.defops) ⟨j, ops l⟩ with
      | err e => rw [hx] at hrun; simp only at hrun; simp only [hrun]; rfl
      | panic => rw [hx] at hrun; simp only at hrun; simp only [hrun]; rfl
      | ok st =>
        rw [hx] at hrun
        obtain ⟨h3, F', D', e3, I'⟩ := hrun
        simp only [e3]
        exact ⟨h3, c, rfl, doc_rep I'.rep⟩

/-- What a caller gets for a document. -/
def endOf : Res Json → Outcome
  | .ok j => Scan.newOAPI j
  | .err e => .ret none (some e)
  | .panic => .panic

theorem end_outcome {r : Heap × Res Nat} {v : Res Json} (h : EndAlike r v) : outcome r = endOf v := by
  cases v with
  | ok j =>
    obtain ⟨h', c, rfl, hd⟩ := h
    simp only [outcome, hd, endOf]
  | err e => obtain ⟨h1, r⟩ := r; have : r = .err e := h; subst this; rfl
  | panic => obtain ⟨h1, r⟩ := r; have : r = .panic := h; subst this; rfl

theorem scan_of (room : Nat) (hm : MOrdersOK mo) (hq : ∀ l, (o.defops l).Perm l) (hd : DocsOK inp) (fuel : Nat) {srt' : List HFile → List HFile} {srt : List File → List File}
    (hf : FilesAlike room inp o srt' srt) :
    (∀ ops mops, scan room inp o { mo with sort := srt', ops := mops } fuel = Scan.scan inp { o with sort := srt, ops := ops } fuel) ∨
    ∃ (l : List OAPI.Op) (vs : List HOp) (R : OAPI.Op → HOp → Prop), Pairwise2 R l vs ∧ ∀ ops mops, (ops l).Perm l → (mops vs).Perm vs → Pairwise2 R (ops l) (mops vs) →
      scan room inp o { mo with sort := srt', ops := mops } fuel = Scan.scan inp { o with sort := srt, ops := ops } fuel := by
  have s2 := prepare_sim room hm hd hf o.ops
  have hsc : ∀ mops, scan room inp o { mo with sort := srt', ops := mops } fuel =
      outcome (M.bind (prepare room inp o { mo with sort := srt' }) (finish room inp o { mo with ops := mops } fuel) ⟨[], []⟩) := fun _ => rfl
  have hvl : ∀ ops, Scan.scan inp { o with sort := srt, ops := ops } fuel = match Scan.prepare inp { o with sort := srt, ops := o.ops } with
      | .ok b => endOf (Scan.finish inp { o with ops := ops } fuel b)
      | .err e => .ret none (some e)
      | .panic => .panic := by
    intro ops
    have h1 : Scan.prepare inp { o with sort := srt, ops := ops } = Scan.prepare inp { o with sort := srt, ops := o.ops } := rfl
    have h2 : ∀ b, Scan.finish inp { o with sort := srt, ops := ops } fuel b = Scan.finish inp { o with ops := ops } fuel b := fun _ => rfl
    unfold Scan.scan
    rw [h1]
    cases Scan.prepare inp { o with sort := srt, ops := o.ops } with
    | ok b => simp only [h2]; cases Scan.finish inp { o with ops := ops } fuel b <;> rfl
    | err e => rfl
    | panic => rfl
  simp only [hsc, hvl, M.bind]
  cases hb : prepare room inp o { mo with sort := srt' } ⟨[], []⟩ with
  | mk h r =>
  rw [hb] at s2
  cases hg : Scan.prepare inp { o with sort := srt, ops := o.ops } with
  | err e => rw [hg] at s2; have : r = .err e := s2; subst this; exact .inl fun _ _ => rfl
  | panic => rw [hg] at s2; have : r = .panic := s2; subst this; exact .inl fun _ _ => rfl
  | ok b =>
    rw [hg] at s2
    obtain ⟨a, d, e, w, hp⟩ := s2
    simp only at e w
    subst e
    simp only
    rcases finish_sim (o := o) (mo := mo) room hq hd fuel w hp with k | ⟨l, vs, R, h1, k⟩
    · exact .inl fun ops mops => end_outcome (k ops mops)
    · exact .inr ⟨l, vs, R, h1, fun ops mops p1 p2 p3 => end_outcome (k ops mops p1 p2 p3)⟩

/-- What memory gives, documents give. -/
theorem scan_to (room : Nat) (ho : Spec.OrdersOK inp o) (hm : MOrdersOK mo) (hd : DocsOK inp) (fuel : Nat) :
    ∃ srt ops, (∀ l, Container.SortResult l (srt l)) ∧ (∀ l, (ops l).Perm l) ∧ scan room inp o mo fuel = Scan.scan inp { o with sort := srt, ops := ops } fuel := by
  obtain ⟨srt, s1, s2⟩ := files_to room ho.sort hm hd
  rcases scan_of room hm ho.defops hd fuel s2 with k | ⟨l, vs, R, h1, k⟩
  · exact ⟨srt, o.ops, s1, ho.ops, k o.ops mo.ops⟩
  · obtain ⟨l', p1, p2⟩ := pairwise2_perm (hm.ops vs).symm h1
    refine ⟨srt, fun x => if x = l then l' else o.ops x, s1, fun x => ?_, k _ mo.ops ?_ (hm.ops vs) ?_⟩
    · by_cases e : x = l
      · simp only [if_pos e]; rw [e]; exact p1
      · simp only [if_neg e]; exact ho.ops x
    · simp only [if_true]; exact p1
    · simp only [if_true]; exact p2

/-- What documents give, memory gives. -/
theorem scan_from (room : Nat) (ho : Spec.OrdersOK inp o) (hm : MOrdersOK mo) (hd : DocsOK inp) (fuel : Nat) :
    ∃ mo', MOrdersOK mo' ∧ scan room inp o mo' fuel = Scan.scan inp o fuel := by
  classical
  obtain ⟨srt, s1, s2⟩ := files_from room ho.sort hm hd
  rcases scan_of room hm ho.defops hd fuel s2 with k | ⟨l, vs, R, h1, k⟩
  · exact ⟨{ mo with sort := srt }, ⟨s1, hm.merge, hm.root, hm.ops⟩, k o.ops mo.ops⟩
  · obtain ⟨vs', p1, p2⟩ := pairwise2_perm (ho.ops l).symm (pairwise2_flip h1)
    refine ⟨{ mo with sort := srt, ops := fun x => if x = vs then vs' else mo.ops x }, ⟨s1, hm.merge, hm.root, fun x => ?_⟩, k o.ops _ (ho.ops l) ?_ ?_⟩
    · by_cases e : x = vs
      · simp only [if_pos e]; rw [e]; exact p1
      · simp only [if_neg e]; exact hm.ops x
    · simp only [if_true]; exact p1
    · simp only [if_true]; exact pairwise2_flip p2

end Oapi.GoHeap
