import Verif.Proofs.Crash2

/-! When a scan panics (C99): whole scans. -/
namespace Oapi.Scan
open Spec Container Types

variable {F : Type} {inp : Input F} {o : Orders}

theorem walk_np {σ : Type} [Crashing σ] {heap : Pkgs.Heap} {roots : List Nat} (hg : GraphOK inp.heap roots) (hs : SameGraph inp.heap heap)
    (fn : Pkgs.Scanner σ) (s : σ) : walk inp heap roots fn s ≠ .panic := by
  unfold walk
  rw [← Props.C49_order_independent inp.stdpkg inp.heap heap fn s roots hg hs]
  obtain ⟨st, e, h⟩ := Props.C49_terminates inp.stdpkg inp.heap fn s roots hg
  rw [h]
  simp only
  split
  · intro h; cases h
  · cases e <;> simp

/-- Reading specifications never panics, if reading files does not. -/
theorem specs_np (hi : InputOK inp) (ho : OrdersOK inp o) (hf : ∀ p, inp.files p ≠ .panic) : ∀ (l : List Nat) {cc : List File} {ps : Pointers},
    PtrOK ps → (runScanner (specsScanner inp o) (.ok (cc, ps)) l).1 ≠ .panic := by
  intro l
  induction l with
  | nil => intro cc ps _; simp [runScanner]
  | cons p l ih =>
    intro cc ps hp
    change (runScanner (specsScanner inp o) ((specsScanner inp o).scan (.ok (cc, ps)) p).1 l).1 ≠ .panic
    cases h1 : inp.files p with
    | panic => exact absurd h1 (hf p)
    | err e =>
      rw [show (specsScanner inp o).scan (.ok (cc, ps)) p = (.ok (cc, ps), some (inp.msg e)) by simp [specsScanner, h1]]
      exact ih hp
    | ok fs =>
      obtain ⟨g1, _, g2⟩ := scanFiles_gives (ho.refs p) (path_bytes hi p) fs 0 (hi.files p fs h1) hp
      cases h2 : scanFiles (o.refs p) (pathOf inp.heap p) 0 fs ps with
      | panic => exact absurd h2 g1
      | err e =>
        rw [show (specsScanner inp o).scan (.ok (cc, ps)) p = (.ok (cc, ps), some (inp.msg e)) by simp [specsScanner, h1, h2]]
        exact ih hp
      | ok r =>
        obtain ⟨r, ps'⟩ := r
        rw [show (specsScanner inp o).scan (.ok (cc, ps)) p = (.ok (cc ++ r, ps'), none) by simp [specsScanner, h1, h2]]
        exact ih (g2 r ps' h2).2.ok

theorem types_runs_panic {pp : Pointers} : ∀ (l : List Nat) {m : Types.PMap},
    ((∀ x ∈ (runScanner (typesScanner inp o pp) (.ok m) l).2, x = none) ∧ (runScanner (typesScanner inp o pp) (.ok m) l).1 = .panic) ↔
    Types.scanPkgs inp.prog (runsOf inp o pp l) m = .panic := by
  intro l
  induction l with
  | nil => intro m; simp [runScanner, runsOf, Types.scanPkgs]
  | cons p l ih =>
    intro m
    rw [runScanner_cons_none]
    change (_ ∧ (runScanner (typesScanner inp o pp) ((typesScanner inp o pp).scan (.ok m) p).1 l).1 = .panic) ↔ _
    simp only [runsOf, List.map_cons, Types.scanPkgs]
    cases hs : Types.scanPkg inp.prog (pathOf inp.heap p) ((o.pointers p pp).map Prod.snd) m with
    | err e => simp [typesScanner, hs]
    | panic =>
      rw [show (typesScanner inp o pp).scan (.ok m) p = (.panic, none) by simp [typesScanner, hs]]
      simp only [true_and]
      rw [types_panic]
      simp only [and_true, iff_true]
      have : ∀ l : List Nat, ∀ x ∈ (runScanner (typesScanner inp o pp) .panic l).2, x = none := by
        intro l
        induction l with
        | nil => simp [runScanner]
        | cons q l ih => rw [runScanner_cons_none]; exact ⟨rfl, ih⟩
      exact this l
    | ok m1 =>
      rw [show (typesScanner inp o pp).scan (.ok m) p = (.ok m1, none) by simp [typesScanner, hs]]
      simp only [true_and]
      exact ih

theorem merge_specs_np (hi : InputOK inp) {roots : List Nat} (hr : inp.load = .ok roots) {a : List File}
    (ha : SortResult (merging inp (plan inp.stdpkg inp.heap roots)) a) : mergeAll mergeStrict (a.map File.doc) ≠ .panic := by
  have hdocs : ∀ f ∈ a, ObjDoc f := fun f hf => merging_docs hi hr f (ha.1.mem_iff.1 hf)
  obtain ⟨cc, hcc, hw⟩ := objDocs hdocs
  rw [hcc]
  rcases Props.C19_strict_list cc hw with ⟨_, r, h2, _⟩ | ⟨_, h2⟩ <;> rw [h2] <;> simp

theorem gathers_no : Gathers inp → (∃ roots, inp.load = .ok roots) ∧
    (∀ p pkg, Visited inp p → inp.heap[p]? = some pkg → pkg.errors = []) ∧
    CmdsRead inp ∧
    (∀ p i n ptr p' i' n' ptr', CommandNo inp p i n ptr → CommandNo inp p' i' n' ptr' → ptr.toStr = ptr'.toStr → p = p' ∧ i = i') := by
  intro h
  have hc : CmdsRead inp := cmdsRead_iff.2 h.commands
  exact ⟨h.loads, h.clean, hc, (once_iff hc).2 h.once⟩

/-- The stages before the types: all well exactly if the input can be gathered. -/
structure Stages (inp : Input F) (o : Orders) (roots : List Nat) (cmds : List (Str × List Cmds.Cmd)) (exp : List Resolver.Export) (files : List File)
    (ps : Pointers) (c : Json) : Prop where
  hload : inp.load = .ok roots
  hcmds : walk inp o.heap₁ roots (cmdsScanner inp) [] = .ok cmds
  hexports : Cmds.exportedComponents (o.exports cmds) = .ok exp
  hspecs : walk inp o.heap₂ roots (specsScanner inp o) (.ok ([], [])) = .ok (.ok (files, ps))
  hmerge : mergeAll mergeStrict ((o.sort files).map File.doc) = .ok c

theorem stages_gathers (hi : InputOK inp) (ho : OrdersOK inp o) (hd : DistinctPaths inp) {roots cmds exp files ps c}
    (h : Stages inp o roots cmds exp files ps c) : Gathers inp := by
  obtain ⟨h1, h2, h3, h4, h5⟩ := h
  have e1 := (cmds_stage hi hd h1 ho.heap₁).1 _ h2
  obtain ⟨e2, e3, e4⟩ := (specs_stage hi ho h1 ho.heap₂).1 _ _ h4
  obtain ⟨hcl, hcm⟩ := (cmds_stage hi hd h1 ho.heap₁).2.1 ⟨_, h2⟩
  obtain ⟨_, hfs, hrd⟩ := (specs_stage hi ho h1 ho.heap₂).2.1 ⟨_, h4⟩
  have hc : CmdsRead inp := hcm
  exact ⟨⟨roots, h1⟩, (cleanLoad_iff hi h1).1 hcl, cmdsRead_iff.1 hc,
    (once_iff hc).1 ((exports_iff hi h1 ((ho.exports cmds).trans (.of_eq e1))).1.1 ⟨_, h3⟩), hfs, hrd,
    (merge_specs hi h1 hrd ⟨(ho.sort files).1.trans (.of_eq e2), (ho.sort files).2⟩).1.1 ⟨c, h5⟩⟩

theorem gathers_stages (hi : InputOK inp) (ho : OrdersOK inp o) (hd : DistinctPaths inp) (h : Gathers inp) :
    ∃ roots cmds exp files ps c, Stages inp o roots cmds exp files ps c := by
  obtain ⟨⟨roots, h1⟩, g2, g3, g4⟩ := gathers_no h
  have hcl := (cleanLoad_iff hi h1).2 g2
  obtain ⟨cmds, h2⟩ := (cmds_stage hi hd h1 ho.heap₁).2.2 ⟨hcl, g3⟩
  have e1 := (cmds_stage hi hd h1 ho.heap₁).1 _ h2
  obtain ⟨exp, h3⟩ := (exports_iff hi h1 ((ho.exports cmds).trans (.of_eq e1))).1.2 g4
  obtain ⟨⟨files, ps⟩, h4⟩ := (specs_stage hi ho h1 ho.heap₂).2.2 ⟨hcl, h.files, h.refs⟩
  obtain ⟨e2, e3, e4⟩ := (specs_stage hi ho h1 ho.heap₂).1 _ _ h4
  obtain ⟨c, h5⟩ := (merge_specs hi h1 h.refs ⟨(ho.sort files).1.trans (.of_eq e2), (ho.sort files).2⟩).1.2 h.apart
  exact ⟨roots, cmds, exp, files, ps, c, h1, h2, h3, h4, h5⟩

theorem stages_merged (hi : InputOK inp) (ho : OrdersOK inp o) {roots cmds exp files ps c}
    (h : Stages inp o roots cmds exp files ps c) : Merged inp c := by
  obtain ⟨h1, h2, h3, h4, h5⟩ := h
  obtain ⟨e2, e3, e4⟩ := (specs_stage hi ho h1 ho.heap₂).1 _ _ h4
  obtain ⟨_, hfs, hrd⟩ := (specs_stage hi ho h1 ho.heap₂).2.1 ⟨_, h4⟩
  exact (merge_specs hi h1 hrd ⟨(ho.sort files).1.trans (.of_eq e2), (ho.sort files).2⟩).2 c h5

/-- The stage of the types: well, or a panic; and a panic exactly if an asked-for type contains `error`. -/
theorem stages_types (hi : InputOK inp) (ho : OrdersOK inp o) (hd : DistinctPaths inp) {roots cmds exp files ps c}
    (h : Stages inp o roots cmds exp files ps c) :
    let w := flat (walk inp o.heap₃ roots (typesScanner inp o (Pointers.merge (Pointers.merge [] (Cmds.mapPointers (o.commands cmds) [])) ps)) (.ok []))
    ((w = .panic ∧ AsksForError inp) ∨ ((∃ m, w = .ok m) ∧ ¬ AsksForError inp)) := by
  intro w
  have hga := stages_gathers hi ho hd h
  have hc : CmdsRead inp := cmdsRead_iff.2 hga.commands
  obtain ⟨h1, h2, h3, h4, h5⟩ := h
  have e1 := (cmds_stage hi hd h1 ho.heap₁).1 _ h2
  obtain ⟨hcl, _⟩ := (cmds_stage hi hd h1 ho.heap₁).2.1 ⟨_, h2⟩
  obtain ⟨e2, e3, e4⟩ := (specs_stage hi ho h1 ho.heap₂).1 _ _ h4
  obtain ⟨hpp, hk⟩ := pointers_asked hi h1 ((ho.commands cmds).trans (.of_eq e1)) e3 e4 hga.refs
  obtain ⟨k1, k2⟩ := Props.C36_panics_iff_error hi.prog (runsOf inp o (Pointers.merge (Pointers.merge [] (Cmds.mapPointers (o.commands cmds) [])) ps)
    (plan inp.stdpkg inp.heap roots)) []
  have hask : scanPkgs inp.prog (runsOf inp o (Pointers.merge (Pointers.merge [] (Cmds.mapPointers (o.commands cmds) [])) ps)
      (plan inp.stdpkg inp.heap roots)) [] = .panic ↔ AsksForError inp := by
    rw [k1]
    unfold AsksForError
    constructor
    · rintro ⟨pkg, name, t, hr, hm⟩; exact ⟨pkg, name, t, (object_iff hc).1 ((requested_iff hi ho h1 hpp hk).1 hr), hm⟩
    · rintro ⟨pkg, name, t, hr, hm⟩; exact ⟨pkg, name, t, (requested_iff hi ho h1 hpp hk).2 ((object_iff hc).2 hr), hm⟩
  rcases k2 with hm | ⟨m, hm⟩
  · refine .inl ⟨?_, hask.1 hm⟩
    have := (walk_gen (hi.graph roots h1) ho.heap₃ _ _ _).2 ⟨.inl rfl, ((types_runs_panic _).2 hm).2⟩
    simp only [w, this, flat]
  · refine .inr ⟨⟨m, ?_⟩, fun ha => by rw [hask.2 ha] at hm; cases hm⟩
    have := (walk_iff (hi.graph roots h1) ho.heap₃ _ _ _).2 ⟨hcl, (types_runs _).2 hm⟩
    simp only [w, this, flat]

/-- Without these stages there is an error. -/
theorem not_gathers (hi : InputOK inp) (ho : OrdersOK inp o) (hd : DistinctPaths inp) (hs : Sound inp) (h : ¬ Gathers inp) :
    ∃ e, prepare inp o = .err e := by
  unfold prepare
  simp only [bind, Res.bind]
  cases h1 : inp.load with
  | panic => exact absurd h1 hs.load
  | err e => exact ⟨e, rfl⟩
  | ok roots =>
  simp only
  cases h2 : walk inp o.heap₁ roots (cmdsScanner inp) [] with
  | panic => exact absurd h2 (walk_np (hi.graph roots h1) ho.heap₁ _ _)
  | err e => exact ⟨e, rfl⟩
  | ok cmds =>
  simp only
  cases h3 : Cmds.exportedComponents (o.exports cmds) with
  | panic => exact absurd h3 (Props.C48_no_panic _)
  | err e => exact ⟨e, rfl⟩
  | ok exp =>
  simp only
  cases h4 : walk inp o.heap₂ roots (specsScanner inp o) (.ok ([], [])) with
  | panic => exact absurd h4 (walk_np (hi.graph roots h1) ho.heap₂ _ _)
  | err e => exact ⟨e, rfl⟩
  | ok r =>
  cases r with
  | panic =>
    obtain ⟨_, h⟩ := (walk_gen (hi.graph roots h1) ho.heap₂ _ _ _).1 h4
    exact absurd h (specs_np hi ho hs.files _ .nil)
  | err e => exact ⟨e, rfl⟩
  | ok r =>
  obtain ⟨files, ps⟩ := r
  simp only [flat]
  obtain ⟨e2, e3, e4⟩ := (specs_stage hi ho h1 ho.heap₂).1 _ _ h4
  cases h5 : mergeAll mergeStrict ((o.sort files).map File.doc) with
  | panic => exact absurd h5 (merge_specs_np hi h1 ⟨(ho.sort files).1.trans (.of_eq e2), (ho.sort files).2⟩)
  | err e => exact ⟨e, rfl⟩
  | ok c => exact absurd (stages_gathers hi ho hd ⟨h1, h2, h3, h4, h5⟩) h

/-- What the stages from the types on give. -/
theorem gathers_prepare (hi : InputOK inp) (ho : OrdersOK inp o) (hd : DistinctPaths inp) (h : Gathers inp) :
    ∃ c exp, Merged inp c ∧ ((prepare inp o = .panic ∧ AsksForError inp) ∨ (¬ AsksForError inp ∧
      ∃ m, prepare inp o = (OAPI.mergeWithRoot inp.root c).bind fun d => .ok ⟨exp, d, m⟩)) := by
  obtain ⟨roots, cmds, exp, files, ps, c, hst⟩ := gathers_stages hi ho hd h
  refine ⟨c, exp, stages_merged hi ho hst, ?_⟩
  have ht := stages_types hi ho hd hst
  obtain ⟨h1, h2, h3, h4, h5⟩ := hst
  unfold prepare
  simp only [bind, Res.bind, h1, h2, h3, h4, flat, h5]
  rcases ht with ⟨h6, h7⟩ | ⟨⟨m, h6⟩, h7⟩
  · left
    refine ⟨?_, h7⟩
    simp only [flat] at h6
    rw [h6]
  · right
    refine ⟨h7, m, ?_⟩
    simp only [flat] at h6
    rw [h6]
    simp only
    cases OAPI.mergeWithRoot inp.root c <;> rfl

theorem merged_isObj {c : Json} (h : Merged inp c) : ∃ m, c = .obj m := h.object

theorem prepare_panic (hi : InputOK inp) (ho : OrdersOK inp o) (hd : DistinctPaths inp) (hs : Sound inp) :
    prepare inp o = .panic ↔ Gathers inp ∧ (AsksForError inp ∨ ScalarSection inp) := by
  obtain ⟨r, hr, hrw, hz⟩ := hs.root
  have hroot : ∀ c, Merged inp c → (OAPI.mergeWithRoot inp.root c = .panic ↔ ScalarSection inp) := by
    intro c hc
    obtain ⟨m, rfl⟩ := hc.object
    have hp := OAPI.mergeWithRoot_panic hc.wf hrw hz
    rw [hr, hp]
    constructor
    · intro h; exact ⟨.obj m, hc, by rw [hr]; exact h⟩
    · rintro ⟨c', hc', h⟩
      rw [merged_unique hc' hc, hr] at h
      exact h
  by_cases hg : Gathers inp
  · obtain ⟨c, exp, hc, h | ⟨h1, m, h2⟩⟩ := gathers_prepare hi ho hd hg
    · exact ⟨fun _ => ⟨hg, .inl h.2⟩, fun _ => h.1⟩
    · rw [h2]
      cases h3 : OAPI.mergeWithRoot inp.root c with
      | panic => exact ⟨fun _ => ⟨hg, .inr ((hroot c hc).1 h3)⟩, fun _ => rfl⟩
      | ok d =>
        refine ⟨fun h => (by cases h), ?_⟩
        rintro ⟨_, h | h⟩
        · exact absurd h h1
        · rw [(hroot c hc).2 h] at h3; cases h3
      | err e =>
        refine ⟨fun h => (by cases h), ?_⟩
        rintro ⟨_, h | h⟩
        · exact absurd h h1
        · rw [(hroot c hc).2 h] at h3; cases h3
  · obtain ⟨e, he⟩ := not_gathers hi ho hd hs hg
    rw [he]
    exact ⟨fun h => (by cases h), fun h => absurd h.1 hg⟩

theorem scalars_collide {k : Str} {m m' : Obj} {v v' : Json} (hv : Obj.lookup k m = some v) (hv' : Obj.lookup k m' = some v')
    (hsc : scalar v = true ∨ scalar v' = true) : Collide (.obj m) (.obj m') := by
  have key : ∀ (m : Obj) (v : Json), Obj.lookup k m = some v → ∃ n, nodeAt (.obj m) [k] = some n ∧ (scalar v = true → n ≠ .obj) := by
    intro m v hv
    rw [Container.nodeAt_obj_cons, hv]
    cases v <;> simp [nodeAt, scalar]
  obtain ⟨n, e1, e2⟩ := key m v hv
  obtain ⟨n', e1', e2'⟩ := key m' v' hv'
  refine ⟨_, n, n', e1, e1', ?_⟩
  rintro ⟨rfl, rfl⟩
  rcases hsc with h | h
  · exact e2 h rfl
  · exact e2' h rfl

/-! ### The resolution -/

theorem RefsIn.wf {enc : Enc F} (he : EncNum enc) {P : Pointer → Prop} {s : Schema F} (h : RefsIn P s) : Json.WF (schemaJson enc s) := by
  induction h with
  | mk h0 _ _ _ _ h1 h2 h3 h4 =>
    rename_i r a items additional oneOf properties _ _ _ _
    rw [schemaJson_mk, Json.WF_obj]
    refine ⟨present_sorted (by rw [schemaFields_names]; exact fieldNames_sorted), ?_⟩
    rw [Json.WFO_iff]
    rintro ⟨k, v⟩ hm
    have hm := present_mem hm
    simp only [schemaFields, List.mem_cons, List.not_mem_nil, or_false, Prod.mk.injEq] at hm
    have hfl : ∀ b, some v = flag b → Json.WF v := by
      intro b hb; unfold flag at hb; split at hb <;> cases hb; simp [Json.WF]
    have htx : ∀ b, some v = text b → Json.WF v := by
      intro b hb; unfold text at hb; split at hb <;> cases hb; simp [Json.WF]
    have hin : ∀ b : Option Int, some v = b.map enc.int → Json.WF v := by
      intro b hb
      obtain ⟨i, _, e⟩ := Option.map_eq_some_iff.1 hb.symm
      obtain ⟨n, hn⟩ := he.2 i
      rw [← e, hn]; simp [Json.WF]
    have hnu : ∀ b : Option F, some v = b.map enc.num → Json.WF v := by
      intro b hb
      obtain ⟨i, _, e⟩ := Option.map_eq_some_iff.1 hb.symm
      obtain ⟨n, hn⟩ := he.1 i
      rw [← e, hn]; simp [Json.WF]
    have hts : ∀ b, some v = texts b → Json.WF v := by
      intro b hb; unfold texts at hb; split at hb <;> cases hb
      rw [Json.WF_arr, Json.WFL_iff]
      intro x hx
      obtain ⟨y, _, rfl⟩ := List.mem_map.1 hx
      simp [Json.WF]
    have hre : (some v = r.map fun p => .str p.toStr) → Json.WF v := by
      intro hb
      obtain ⟨i, _, e⟩ := Option.map_eq_some_iff.1 hb.symm
      rw [← e]; simp [Json.WF]
    have hopt : ∀ (i : Option (Schema F)), (∀ s, i = some s → Json.WF (schemaJson enc s)) → some v = schemaOpt enc i → Json.WF v := by
      intro i hi hb
      cases i with
      | none => cases hb
      | some s => cases hb; exact hi s rfl
    rcases hm with ⟨rfl, e⟩ | ⟨rfl, e⟩ | ⟨rfl, e⟩ | ⟨rfl, e⟩ | ⟨rfl, e⟩ | ⟨rfl, e⟩ | ⟨rfl, e⟩ | ⟨rfl, e⟩ | ⟨rfl, e⟩ | ⟨rfl, e⟩ | ⟨rfl, e⟩ | ⟨rfl, e⟩ |
      ⟨rfl, e⟩ | ⟨rfl, e⟩ | ⟨rfl, e⟩ | ⟨rfl, e⟩ | ⟨rfl, e⟩ | ⟨rfl, e⟩ | ⟨rfl, e⟩ | ⟨rfl, e⟩ | ⟨rfl, e⟩ | ⟨rfl, e⟩ | ⟨rfl, e⟩ | ⟨rfl, e⟩ | ⟨rfl, e⟩
    all_goals first
      | exact hfl _ e
      | exact htx _ e
      | exact hin _ e
      | exact hnu _ e
      | exact hts _ e
      | exact hre e
      | exact hopt _ h1 e
      | exact hopt _ h2 e
      | skip
    · cases oneOf with
      | nil => cases e
      | cons s l =>
        cases e
        rw [Json.WF_arr, Json.WFL_iff]
        intro x hx
        obtain ⟨s', hs', rfl⟩ := schemaList_mem hx
        exact h3 s' hs'
    · cases properties with
      | nil => cases e
      | cons s l =>
        cases e
        rw [Json.WF_obj]
        refine ⟨schemaProps_sorted, ?_⟩
        rw [Json.WFO_iff]
        rintro ⟨k, x⟩ hx
        obtain ⟨s', hs', rfl⟩ := schemaProps_mem hx
        exact h4 k s' hs'

theorem encNum (hs : SchemasOK inp) : EncNum inp.enc := ⟨hs.nums, hs.ints⟩

theorem resolveFn_wf (hi : InputOK inp) (ho : OrdersOK inp o) (hs : SchemasOK inp) (hso : Sound inp) {pre : Prepared} (hp : prepare inp o = .ok pre)
    {p : Pointer} {d : Json} (h : resolveFn inp o pre.points p = .ok d) : Json.WF d := by
  rcases resolveFn_stands hi ho hs hp h with h | ⟨_, _, u, s, _, h, rfl⟩
  · exact hso.override _ (lookup_mem' h)
  · exact (schemaOf_refs hs (by assumption)).wf (encNum hs)

/-- A pointer whose resolution panics: one of scheme go, without an override and not registered. -/
theorem resolveFn_panic (hi : InputOK inp) (ho : OrdersOK inp o) (hs : SchemasOK inp) {pre : Prepared} (hp : prepare inp o = .ok pre)
    {p : Pointer} (h : resolveFn inp o pre.points p = .panic) :
    p.url.scheme = b!"go" ∧ (∀ d, (p.toStr, d) ∉ inp.override) ∧ ¬ Registered pre.points p := by
  unfold resolveFn at h
  cases hl : inp.override.lookup p.toStr with
  | some d' => rw [hl] at h; cases h
  | none =>
    rw [hl] at h
    simp only at h
    have hno : ∀ d', (p.toStr, d') ∉ inp.override := by
      intro d' hd'
      have := List.lookup_eq_none_iff.1 hl _ hd'
      simp at this
    split at h
    · rename_i hsch
      refine ⟨hsch, hno, ?_⟩
      obtain ⟨runs, hc⟩ := scan_converts hi ho hs hp
      obtain ⟨runs', hr⟩ := prepare_scanned hi ho hp
      have hinv := scan_inv hi.prog hr
      rintro hreg
      obtain ⟨u, hu⟩ := (registered_find hinv).1 hreg
      have hfp : (ctx inp o pre.points p.toStr).m.findType p = pre.points.findType p := hinv.find_perm (ho.types _ _) p
      split at h
      · unfold make at h; split at h <;> cases h
      · cases h
      · rename_i hp'
        rcases Props.C38_outcome (hc p.toStr) (hfp.trans hu) with ⟨_, e', h1, _⟩ | ⟨_, s, h1⟩ <;> rw [hp'] at h1 <;> cases h1
    · cases h

theorem prepared_wf (hi : InputOK inp) (ho : OrdersOK inp o) (hd : DistinctPaths inp) (hso : Sound inp) {pre : Prepared} (hp : prepare inp o = .ok pre) :
    Json.WF pre.doc := by
  obtain ⟨c, hc, hm⟩ := (prepare_gives hi ho hd hp).doc
  obtain ⟨r, hr, hrw, hz⟩ := hso.root
  obtain ⟨m, rfl⟩ := hc.object
  rw [hr] at hm
  by_cases hcc : ∀ k R, (k, R) ∈ ruleOf → Composite (section_ (.obj m) k)
  · rcases Props.C21_sections_follow_rules hc.wf hrw (fun k R h => ⟨hcc k R h, hz k R h⟩) with ⟨out, h1, h2, _⟩ | ⟨h1, _⟩
    · rw [hm] at h1; cases h1; exact h2
    · rw [hm] at h1; cases h1
  · have : ∃ k R, (k, R) ∈ ruleOf ∧ ¬ Composite (section_ (.obj m) k) := by
      apply Classical.byContradiction
      intro hno
      refine hcc fun k R h => Classical.byContradiction fun hn => hno ⟨k, R, h, hn⟩
    obtain ⟨k, R, hk, hnc⟩ := this
    obtain ⟨e, he, rfl, rfl⟩ := OAPI.mem_ruleOf.1 hk
    rcases OAPI.mergeSections_scalar OAPI.table_ok hc.wf hrw (fun e he => hz e.key e.R (OAPI.mem_ruleOf.2 ⟨e, he, rfl, rfl⟩)) ⟨e, he, hnc⟩ with h | h
    · rw [show OAPI.mergeWithRoot (.obj r) (.obj m) = _ from h] at hm; cases hm
    · rw [show OAPI.mergeWithRoot (.obj r) (.obj m) = _ from h] at hm; cases hm

theorem meets_dangling (hi : InputOK inp) (ho : OrdersOK inp o) (hs : SchemasOK inp) {pre : Prepared} (hp : prepare inp o = .ok pre)
    {j : Json} {p : Pointer} (h : Resolver.Meets (cfg inp o pre) j p) (hn : ¬ Registered pre.points p) :
    ∃ x, (RefLike j x ∨ ∃ e ∈ inp.override, RefLike e.2 x) ∧ Pointer.parse x = .ok p := by
  induction h with
  | here h1 h2 => exact ⟨_, .inl h1, h2.1⟩
  | later h1 h2 h3 h4 ih =>
    obtain ⟨x, hx, hpx⟩ := ih hn
    refine ⟨x, .inr ?_, hpx⟩
    rcases hx with hx | hx
    · rcases resolveFn_stands hi ho hs hp h3 with h | ⟨_, _, u, s, _, h, rfl⟩
      · exact ⟨_, lookup_mem' h, hx⟩
      · exfalso
        obtain ⟨q, ⟨v, hq⟩, rfl⟩ := (schemaOf_refs hs h).doc (encNum hs) hx
        obtain ⟨runs', hr⟩ := prepare_scanned hi ho hp
        have hinv := scan_inv hi.prog hr
        obtain ⟨pkg, f, t, hg, _⟩ := hinv.pts v q hq.1
        obtain ⟨p', a1, a2, a3⟩ := hg.parses hi.prog
        rw [hpx] at a1; cases a1
        exact hn ((registered_find hinv).2 ⟨v, (hinv.find _ v).2 ⟨q, hq.1, a3.symm⟩⟩)
    · exact hx

theorem finish_panic (hi : InputOK inp) (ho : OrdersOK inp o) (hd : DistinctPaths inp) (hs : SchemasOK inp) (hso : Sound inp) {pre : Prepared}
    (hp : prepare inp o = .ok pre) {fuel : Nat} (h : finish inp o fuel pre = .panic) : DanglingGo inp pre := by
  unfold finish at h
  split at h
  · cases h
  · rename_i hr
    obtain ⟨p, h1, h2⟩ := Resolver.resolve_panic (cfg := cfg inp o pre) ho.resolver (fun p d h => resolveFn_wf hi ho hs hso hp h)
      (prepared_wf hi ho hd hso hp) hr
    obtain ⟨h3, h4, h5⟩ := resolveFn_panic hi ho hs hp h2
    obtain ⟨x, hx, hpx⟩ := meets_dangling hi ho hs hp h1 h5
    exact ⟨x, p, hx, hpx, h3, h4, h5⟩
  · split at h
    · cases h
    · rename_i hp'; exact absurd hp' (OAPI.paths_np _)
    · exact absurd h (OAPI.runDefaults_np hso.matcher _ _ _)

end Oapi.Scan
