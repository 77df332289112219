import Verif.Proofs.Prep2

/-! The stages before the resolution, in terms of the input: the theorem (C77). -/
namespace Oapi.Scan
open Spec Container Types

variable {F : Type} {inp : Input F} {o : Orders}

theorem visited_path (hi : InputOK inp) {p : Nat} (h : Visited inp p) : GoPkg (pathOf inp.heap p) := by
  obtain ⟨roots, r, h0, h1, h2⟩ := h
  have hg := hi.graph roots h0
  have hlt : p < inp.heap.length := by
    have : ∀ r p, PkgReach inp.stdpkg inp.heap r p → r < inp.heap.length → p < inp.heap.length := by
      intro r p hr
      induction hr with
      | refl _ => exact id
      | step _ hi' _ ih => intro _; exact ih (hg.imports _ _ hi')
    exact this r p h2 (hg.roots r h1)
  have : pathOf inp.heap p = inp.heap[p].path := by simp [pathOf, List.getElem?_eq_getElem hlt]
  rw [this]
  exact hi.paths _ (List.getElem_mem hlt)

theorem absolute_newRef {pkg x y : Str} (hp : GoPkg pkg) (h : Absolute pkg x y) : y = Props.newRef pkg x := by
  cases h with
  | here h1 h2 h3 =>
    obtain ⟨q, e1, _, _, _, e2⟩ := Props.C08_local_becomes_absolute pkg x hp.1 hp.2 _ h1 h2 h3
    simp [Props.newRef, e1, e2]
  | other h1 h2 => simp [Props.newRef, Specs.rewriteRef, h1, h2]

theorem newRef_absolute {pkg x : Str} {p : Pointer} (hp : GoPkg pkg) (h : Pointer.parse x = .ok p) : Absolute pkg x (Props.newRef pkg x) := by
  by_cases hl : p.url.scheme = b!"go" ∧ p.pkgPath = []
  · have := Absolute.here (pkg := pkg) h hl.1 hl.2
    rwa [absolute_newRef hp this] at this
  · have := Absolute.other (pkg := pkg) h hl
    rwa [absolute_newRef hp this] at this

theorem merging_docs (hi : InputOK inp) {roots : List Nat} (hr : inp.load = .ok roots) :
    ∀ f ∈ merging inp (plan inp.stdpkg inp.heap roots), ObjDoc f := by
  intro g hg
  obtain ⟨p, i, d, hs, e⟩ := mem_merging hi hr hg
  have hok := specAt_ok hi hs
  obtain ⟨m, rfl⟩ := hok.object
  refine ⟨mapRefsO (Props.newRef (pathOf inp.heap p)) m, by rw [e]; simp only [mapRefs], ?_⟩
  have := mapRefs_wf (Props.newRef (pathOf inp.heap p)) _ hok.wf
  simpa only [mapRefs] using this

/-- The merge of the specifications. -/
theorem merge_specs (hi : InputOK inp) {roots : List Nat} (hr : inp.load = .ok roots)
    (hrd : ∀ p i d x, SpecAt inp p i d → HasRef d x → ∃ ptr, Pointer.parse x = .ok ptr) {a : List File}
    (ha : SortResult (merging inp (plan inp.stdpkg inp.heap roots)) a) :
    ((∃ c, mergeAll mergeStrict (a.map File.doc) = .ok c) ↔
      ∀ p i d p' i' d', SpecAt inp p i d → SpecAt inp p' i' d' → Collide d d' → p = p' ∧ i = i') ∧
    ∀ c, mergeAll mergeStrict (a.map File.doc) = .ok c → Merged inp c := by
  have hdocs : ∀ f ∈ a, ObjDoc f := fun f hf => merging_docs hi hr f (ha.1.mem_iff.1 hf)
  obtain ⟨cc, hcc, hw⟩ := objDocs hdocs
  have hpw : (cc.Pairwise fun x y => ¬ Collide (.obj x) (.obj y)) ↔
      ∀ p i d p' i' d', SpecAt inp p i d → SpecAt inp p' i' d' → Collide d d' → p = p' ∧ i = i' := by
    rw [← merging_apart hi hr]
    have e1 : (cc.Pairwise fun x y => ¬ Collide (.obj x) (.obj y)) ↔ (a.map File.doc).Pairwise fun x y => ¬ Collide x y := by
      rw [hcc, List.pairwise_map]
    have e2 : ((merging inp (plan inp.stdpkg inp.heap roots)).Pairwise fun x y => ¬ Collide x.doc y.doc) ↔
        ((merging inp (plan inp.stdpkg inp.heap roots)).map File.doc).Pairwise fun x y => ¬ Collide x y := by rw [List.pairwise_map]
    rw [e1, e2]
    exact (ha.1.map File.doc).pairwise_iff (fun h h' => h (collide_symm h'))
  rw [hcc]
  rcases Props.C19_strict_list cc hw with ⟨h1, r, h2, h3, h4⟩ | ⟨h1, h2⟩
  · refine ⟨⟨fun _ => hpw.1 h1, fun _ => ⟨r, h2⟩⟩, ?_⟩
    intro c hc
    rw [h2] at hc
    cases hc
    obtain ⟨m, hm⟩ := mergeAll_isObj h2
    refine ⟨⟨m, hm⟩, h3, ?_⟩
    intro path n hne
    rw [h4 path n hne]
    constructor
    · rintro ⟨d, hd, hn⟩
      have : Json.obj d ∈ a.map File.doc := by rw [hcc]; exact List.mem_map.2 ⟨d, hd, rfl⟩
      obtain ⟨g, hg, e⟩ := List.mem_map.1 this
      obtain ⟨p, i, d', hs, e'⟩ := mem_merging hi hr (ha.1.mem_iff.1 hg)
      refine ⟨p, i, d', Props.newRef (pathOf inp.heap p), hs, ?_, ?_⟩
      · intro x hx
        obtain ⟨ptr, hp⟩ := hrd p i d' x hs hx
        exact newRef_absolute (visited_path hi hs.1) hp
      · rw [← e', e]; exact hn
    · rintro ⟨p, i, d, f, hs, hf, hn⟩
      obtain ⟨g, hg, e⟩ := merging_mem hi hr hs
      rw [mapRefs_congr d (specAt_ok hi hs).wf (fun x hx => absolute_newRef (visited_path hi hs.1) (hf x hx)), ← e] at hn
      have : g.doc ∈ a.map File.doc := List.mem_map.2 ⟨g, ha.1.mem_iff.2 hg, rfl⟩
      rw [hcc] at this
      obtain ⟨d, hd, e⟩ := List.mem_map.1 this
      exact ⟨d, hd, by rw [e]; exact hn⟩
  · refine ⟨⟨?_, fun h => absurd (hpw.2 h) h1⟩, ?_⟩
    · rintro ⟨c, hc⟩; rw [h2] at hc; cases hc
    · intro c hc; rw [h2] at hc; cases hc

theorem merged_unique {c c' : Json} (h : Merged inp c) (h' : Merged inp c') : c = c' := by
  refine nodeAt_ext _ _ h.wf h'.wf fun p => ?_
  cases p with
  | nil =>
    obtain ⟨m, rfl⟩ := h.object
    obtain ⟨m', rfl⟩ := h'.object
    rfl
  | cons k p =>
    apply Option.ext
    intro n
    rw [h.nodes _ _ (by simp), h'.nodes _ _ (by simp)]

theorem cleanLoad_iff (hi : InputOK inp) {roots : List Nat} (hr : inp.load = .ok roots) :
    CleanLoad inp roots ↔ ∀ p pkg, Visited inp p → inp.heap[p]? = some pkg → pkg.errors = [] := by
  constructor
  · intro h p pkg hv hp; exact h p pkg ((visited_plan hi hr p).2 hv) hp
  · intro h p pkg hv hp; exact h p pkg ((visited_plan hi hr p).1 hv) hp

/-- The stage of the commands. -/
theorem cmds_stage (hi : InputOK inp) (hd : DistinctPaths inp) {roots : List Nat} (hr : inp.load = .ok roots) {heap : Pkgs.Heap}
    (hs : SameGraph inp.heap heap) :
    (∀ c, walk inp heap roots (cmdsScanner inp) [] = .ok c → c = allCmds inp (plan inp.stdpkg inp.heap roots)) ∧
    ((∃ c, walk inp heap roots (cmdsScanner inp) [] = .ok c) ↔ CleanLoad inp roots ∧
      ∀ p, Visited inp p → ∃ cs, Cmds.scan (pathOf inp.heap p) (inp.comments p) = .ok cs) := by
  have hg := hi.graph roots hr
  have hnone := cmds_none (inp := inp) (plan inp.stdpkg inp.heap roots) []
  have hall : (∀ p ∈ plan inp.stdpkg inp.heap roots, ∃ cs, Cmds.scan (pathOf inp.heap p) (inp.comments p) = .ok cs) ↔
      ∀ p, Visited inp p → ∃ cs, Cmds.scan (pathOf inp.heap p) (inp.comments p) = .ok cs := by
    constructor
    · intro h p hp; exact h p ((visited_plan hi hr p).2 hp)
    · intro h p hp; exact h p ((visited_plan hi hr p).1 hp)
  refine ⟨?_, ?_⟩
  · intro c hc
    obtain ⟨_, h2, h3⟩ := (walk_iff hg hs _ _ _).1 hc
    rw [cmds_result _ _ (plan_nodup hg) (fun p hp q hq e => hd p q ((visited_plan hi hr p).1 hp) ((visited_plan hi hr q).1 hq) e)
      (fun p hp => by simp) (hnone.1 h2)] at h3
    rw [← h3]; rfl
  · rw [← hall, ← hnone]
    constructor
    · rintro ⟨c, hc⟩
      obtain ⟨h1, h2, _⟩ := (walk_iff hg hs _ _ _).1 hc
      exact ⟨h1, h2⟩
    · rintro ⟨h1, h2⟩
      exact ⟨_, (walk_iff hg hs _ _ _).2 ⟨h1, h2, rfl⟩⟩

/-- The stage of the specifications. -/
theorem specs_stage (hi : InputOK inp) (ho : OrdersOK inp o) {roots : List Nat} (hr : inp.load = .ok roots) {heap : Pkgs.Heap}
    (hs : SameGraph inp.heap heap) :
    (∀ files ps, walk inp heap roots (specsScanner inp o) (.ok ([], [])) = .ok (.ok (files, ps)) →
      files = merging inp (plan inp.stdpkg inp.heap roots) ∧ PtrOK ps ∧ ∀ k, (∃ p, Pointers.get k ps = some p) ↔
        ∃ p ∈ plan inp.stdpkg inp.heap roots, ∃ f ∈ filesOf inp p, existsP f.doc b!"openapi" = true ∧ ∃ x, HasRef f.doc x ∧ Props.newRef (pathOf inp.heap p) x = k) ∧
    ((∃ r, walk inp heap roots (specsScanner inp o) (.ok ([], [])) = .ok (.ok r)) ↔ CleanLoad inp roots ∧
      (∀ p, Visited inp p → ∃ fs, inp.files p = .ok fs) ∧ ∀ p i d x, SpecAt inp p i d → HasRef d x → ∃ ptr, Pointer.parse x = .ok ptr) := by
  have hg := hi.graph roots hr
  obtain ⟨g1, g2⟩ := specs_gives hi ho (plan inp.stdpkg inp.heap roots) (cc := []) (ps := []) .nil
  have hall : (∀ p ∈ plan inp.stdpkg inp.heap roots, ∃ fs, inp.files p = .ok fs ∧ ∀ f ∈ fs, existsP f.doc b!"openapi" = true → RefsRead f.doc) ↔
      (∀ p, Visited inp p → ∃ fs, inp.files p = .ok fs) ∧ ∀ p i d x, SpecAt inp p i d → HasRef d x → ∃ ptr, Pointer.parse x = .ok ptr := by
    constructor
    · intro h
      refine ⟨fun p hp => ?_, fun p i d x hsp hx => ?_⟩
      · obtain ⟨fs, h1, _⟩ := h p ((visited_plan hi hr p).2 hp); exact ⟨fs, h1⟩
      · obtain ⟨hv, fs', f, h2, h3, rfl, h4⟩ := hsp
        obtain ⟨fs, h1, h5⟩ := h p ((visited_plan hi hr p).2 hv)
        rw [h1] at h2; cases h2
        exact h5 f (List.mem_of_getElem? h3) (isSpec_exists h4) x hx
    · rintro ⟨h1, h2⟩ p hp
      have hv := (visited_plan hi hr p).1 hp
      obtain ⟨fs, h3⟩ := h1 p hv
      refine ⟨fs, h3, fun f hf hof x hx => ?_⟩
      obtain ⟨i, hi'⟩ := List.getElem?_of_mem hf
      exact h2 p i f.doc x ⟨hv, fs, f, h3, hi', rfl, exists_isSpec (hi.files p fs h3 f hf hof) hof⟩ hx
  refine ⟨?_, ?_⟩
  · intro files ps h
    obtain ⟨_, h2, h3⟩ := (walk_iff hg hs _ _ _).1 h
    obtain ⟨e1, e2, e3, _⟩ := g2 h2 files ps h3
    refine ⟨by rw [e1]; rfl, e2, fun k => ?_⟩
    rw [e3]
    constructor
    · rintro (⟨p, h⟩ | h)
      · cases h
      · exact h
    · exact .inr
  · rw [← hall, ← g1]
    constructor
    · rintro ⟨r, h⟩
      obtain ⟨h1, h2, h3⟩ := (walk_iff hg hs _ _ _).1 h
      exact ⟨h1, h2, r, h3⟩
    · rintro ⟨h1, h2, r, h3⟩
      exact ⟨r, (walk_iff hg hs _ _ _).2 ⟨h1, h2, h3⟩⟩

/-- What it takes for a scan to get as far as resolving references. -/
structure PreparableNo (inp : Input F) : Prop where
  /-- The packages can be loaded, without errors. -/
  loads : ∃ roots, inp.load = .ok roots
  clean : ∀ p pkg, Visited inp p → inp.heap[p]? = some pkg → pkg.errors = []
  /-- Every command in every comment is well-formed, and no two commands export pointers of the same text. -/
  commands : ∀ p, Visited inp p → ∃ cs, Cmds.scan (pathOf inp.heap p) (inp.comments p) = .ok cs
  once : ∀ p i n ptr p' i' n' ptr', CommandNo inp p i n ptr → CommandNo inp p' i' n' ptr' → ptr.toStr = ptr'.toStr → p = p' ∧ i = i'
  /-- The files of every package can be read, and the references of the specifications among them. -/
  files : ∀ p, Visited inp p → ∃ fs, inp.files p = .ok fs
  refs : ∀ p i d x, SpecAt inp p i d → HasRef d x → ∃ ptr, Pointer.parse x = .ok ptr
  /-- No two specifications bind the same key path, except to objects. -/
  apart : ∀ p i d p' i' d', SpecAt inp p i d → SpecAt inp p' i' d' → Collide d d' → p = p' ∧ i = i'
  /-- No asked-for type contains the predeclared type `error`. -/
  errors : ∀ pkg name t, ObjectNo inp pkg name t → ¬ MeetsError inp.prog.env (under inp.prog.env t)
  /-- The union of the specifications can be merged with the root document (see C21). -/
  root : ∀ c, Merged inp c → ∃ d, OAPI.mergeWithRoot inp.root c = .ok d

/-- What a prepared scan holds. -/
structure PreparesNo (inp : Input F) (pre : Prepared) : Prop where
  exports : ∀ x : Resolver.Export, x ∈ pre.exports ↔ x.kind = .schema ∧ ∃ p i, CommandNo inp p i x.name x.ptr
  doc : ∃ c, Merged inp c ∧ OAPI.mergeWithRoot inp.root c = .ok pre.doc
  types : ∃ runs, scanPkgs inp.prog runs [] = .ok pre.points ∧ ∀ pkg name t, Requested inp.prog runs pkg name t ↔ ObjectNo inp pkg name t

theorem prepareNo_gives (hi : InputOK inp) (ho : OrdersOK inp o) (hd : DistinctPaths inp) {pre : Prepared} (h : prepare inp o = .ok pre) :
    PreparesNo inp pre := by
  obtain ⟨roots, cmds, files, ps, c, h1, h2, h3, h4, h5, h6, h7⟩ := prepare_ok h
  have e1 := (cmds_stage hi hd h1 ho.heap₁).1 _ h2
  obtain ⟨e2, e3, e4⟩ := (specs_stage hi ho h1 ho.heap₂).1 _ _ h4
  have hrd := ((specs_stage hi ho h1 ho.heap₂).2.1 ⟨_, h4⟩).2.2
  obtain ⟨hpp, hk⟩ := pointers_asked hi h1 ((ho.commands cmds).trans (.of_eq e1)) e3 e4 hrd
  refine ⟨(exports_iff hi h1 ((ho.exports cmds).trans (.of_eq e1))).2 _ h3, ?_, ?_⟩
  · refine ⟨c, (merge_specs hi h1 hrd ⟨(ho.sort files).1.trans (.of_eq e2), (ho.sort files).2⟩).2 c h5, h7⟩
  · obtain ⟨_, h6a⟩ := (walk_iff (hi.graph roots h1) ho.heap₃ _ _ _).1 h6
    exact ⟨_, (types_runs _).1 h6a, fun pkg name t => requested_iff hi ho h1 hpp hk⟩

theorem prepareNo_iff (hi : InputOK inp) (ho : OrdersOK inp o) (hd : DistinctPaths inp) :
    (∃ pre, prepare inp o = .ok pre) ↔ PreparableNo inp := by
  constructor
  · rintro ⟨pre, h⟩
    have hpre := prepareNo_gives hi ho hd h
    obtain ⟨roots, cmds, files, ps, c, h1, h2, h3, h4, h5, h6, h7⟩ := prepare_ok h
    have e1 := (cmds_stage hi hd h1 ho.heap₁).1 _ h2
    obtain ⟨e2, e3, e4⟩ := (specs_stage hi ho h1 ho.heap₂).1 _ _ h4
    obtain ⟨hcl, hcm⟩ := (cmds_stage hi hd h1 ho.heap₁).2.1 ⟨_, h2⟩
    obtain ⟨_, hfs, hrd⟩ := (specs_stage hi ho h1 ho.heap₂).2.1 ⟨_, h4⟩
    refine ⟨⟨roots, h1⟩, (cleanLoad_iff hi h1).1 hcl, hcm, (exports_iff hi h1 ((ho.exports cmds).trans (.of_eq e1))).1.1 ⟨_, h3⟩, hfs, hrd,
      (merge_specs hi h1 hrd ⟨(ho.sort files).1.trans (.of_eq e2), (ho.sort files).2⟩).1.1 ⟨c, h5⟩, ?_, ?_⟩
    · intro pkg name t hr hm
      obtain ⟨runs, hs, hreq⟩ := hpre.types
      have := (Props.C36_panics_iff_error hi.prog runs []).1.2 ⟨pkg, name, t, (hreq _ _ _).2 hr, hm⟩
      rw [hs] at this; cases this
    · intro c' hc'
      have : c = c' := merged_unique ((merge_specs hi h1 hrd ⟨(ho.sort files).1.trans (.of_eq e2), (ho.sort files).2⟩).2 c h5) hc'
      exact ⟨_, this ▸ h7⟩
  · intro hp
    obtain ⟨roots, h1⟩ := hp.loads
    have hcl := (cleanLoad_iff hi h1).2 hp.clean
    obtain ⟨cmds, h2⟩ := (cmds_stage hi hd h1 ho.heap₁).2.2 ⟨hcl, hp.commands⟩
    have e1 := (cmds_stage hi hd h1 ho.heap₁).1 _ h2
    obtain ⟨exp, h3⟩ := (exports_iff hi h1 ((ho.exports cmds).trans (.of_eq e1))).1.2 hp.once
    obtain ⟨⟨files, ps⟩, h4⟩ := (specs_stage hi ho h1 ho.heap₂).2.2 ⟨hcl, hp.files, hp.refs⟩
    obtain ⟨e2, e3, e4⟩ := (specs_stage hi ho h1 ho.heap₂).1 _ _ h4
    obtain ⟨c, h5⟩ := (merge_specs hi h1 hp.refs ⟨(ho.sort files).1.trans (.of_eq e2), (ho.sort files).2⟩).1.2 hp.apart
    obtain ⟨d, h7⟩ := hp.root c ((merge_specs hi h1 hp.refs ⟨(ho.sort files).1.trans (.of_eq e2), (ho.sort files).2⟩).2 c h5)
    obtain ⟨hpp, hk⟩ := pointers_asked hi h1 ((ho.commands cmds).trans (.of_eq e1)) e3 e4 hp.refs
    obtain ⟨m, hm⟩ : ∃ m, scanPkgs inp.prog (runsOf inp o (Pointers.merge (Pointers.merge [] (Cmds.mapPointers (o.commands cmds) [])) ps)
        (plan inp.stdpkg inp.heap roots)) [] = .ok m := by
      rcases (Props.C36_panics_iff_error hi.prog (runsOf inp o (Pointers.merge (Pointers.merge [] (Cmds.mapPointers (o.commands cmds) [])) ps)
        (plan inp.stdpkg inp.heap roots)) []).2 with hm | hm
      · obtain ⟨pkg, name, t, hr, he⟩ := (Props.C36_panics_iff_error hi.prog _ []).1.1 hm
        exact absurd he (hp.errors pkg name t ((requested_iff hi ho h1 hpp hk).1 hr))
      · exact hm
    have h6 := (walk_iff (hi.graph roots h1) ho.heap₃ (typesScanner inp o (Pointers.merge (Pointers.merge [] (Cmds.mapPointers (o.commands cmds) [])) ps))
      (.ok []) (.ok m)).2 ⟨hcl, (types_runs _).2 hm⟩
    refine ⟨⟨exp, d, m⟩, ?_⟩
    unfold prepare
    simp only [h1, bind, Res.bind, h2, h3, h4, flat, h5, h6, h7]
    rfl

end Oapi.Scan
