import Verif.Props.Whole
import Verif.Proofs.Prep5

/-! C77, C78: what a scan takes from packages, comments and files before it resolves references. -/
namespace Oapi.Props
open Spec Types
open Scan (Input Orders Prepared prepare scan)

variable {F : Type} {inp : Input F} {o : Orders} {pre : Prepared}

/-! ### C47, in terms of comments -/

/-- C47: the comments of a package are accepted exactly if every command in them is a schema command or one without effect. -/
theorem C47_comments_accepted_iff (pkg : Str) (groups : List (List Str)) : (∃ cs, Cmds.scan pkg groups = .ok cs) ↔
    ∀ t body, t ∈ groups.flatten → CommandIn t body → (∃ name ptr, ExportText pkg body name ptr) ∨ RootText body := Cmds.scan_ok_iff

/-- C47: and then they export exactly what the schema commands in them say. -/
theorem C47_comments_export (pkg : Str) (groups : List (List Str)) (cs : List Cmds.Cmd) (h : Cmds.scan pkg groups = .ok cs) (name : Str) (ptr : Pointer) :
    (name, ptr) ∈ schemaPtrs cs ↔ ∃ t ∈ groups.flatten, ∃ body, CommandIn t body ∧ ExportText pkg body name ptr := by
  rw [Scan.schemaPtrs_mem]
  constructor
  · rintro ⟨args, hm⟩
    obtain ⟨j, hj⟩ := List.getElem?_of_mem hm
    obtain ⟨i, t, body, h1, h2, h3, _⟩ := (Cmds.scan_commands h).1 ⟨args, hj⟩
    exact ⟨t, List.mem_of_getElem? h1, body, h2, h3⟩
  · rintro ⟨t, ht, body, h2, h3⟩
    obtain ⟨i, hi⟩ := List.getElem?_of_mem ht
    obtain ⟨args, hj⟩ := (Cmds.scan_commands h).2 ⟨i, t, body, hi, h2, h3, rfl⟩
    exact ⟨args, List.mem_of_getElem? hj⟩

/-! ### C77 -/

/-- C77: a scan gets as far as resolving references exactly if the input is preparable: packages load without errors, every command is
well-formed and none exports what another exports, every file can be read, every reference of a specification can be parsed, no two
specifications collide, no asked-for type contains `error`, and the root document can be merged in. -/
theorem C77_prepared_iff (hi : InputOK inp) (ho : OrdersOK inp o) (hd : DistinctPaths inp) :
    (∃ pre, prepare inp o = .ok pre) ↔ Preparable inp := Scan.prepare_iff hi ho hd

/-- C77: otherwise no scan returns a document. -/
theorem C77_unprepared_no_document (hi : InputOK inp) (ho : OrdersOK inp o) (hd : DistinctPaths inp) (h : ¬ Preparable inp) (fuel : Nat) :
    ¬ HasDoc (scan inp o fuel) := by
  unfold scan
  cases hp : prepare inp o with
  | ok pre => exact absurd ((C77_prepared_iff hi ho hd).1 ⟨pre, hp⟩) h
  | err e => simp [HasDoc]
  | panic => simp [HasDoc]

/-- C77: the exported components are those of the commands in the comments of scanned packages: one per command, all schemas. -/
theorem C77_exports (hi : InputOK inp) (ho : OrdersOK inp o) (hd : DistinctPaths inp) (h : prepare inp o = .ok pre) (x : Resolver.Export) :
    x ∈ pre.exports ↔ x.kind = .schema ∧ ∃ p i, CommandAt inp p i x.name x.ptr := (Scan.prepare_gives hi ho hd h).exports x

/-- C77: the document is the union of all specifications in the scanned packages, with references made absolute, merged with the root
document; that union is unique. -/
theorem C77_document (hi : InputOK inp) (ho : OrdersOK inp o) (hd : DistinctPaths inp) (h : prepare inp o = .ok pre) :
    ∃ c, Merged inp c ∧ OAPI.mergeWithRoot inp.root c = .ok pre.doc ∧ ∀ c', Merged inp c' → c' = c := by
  obtain ⟨c, h1, h2⟩ := (Scan.prepare_gives hi ho hd h).doc
  exact ⟨c, h1, h2, fun c' h' => Scan.merged_unique h' h1⟩

/-- C77: the types with a pointer are those reached from the objects that scanned packages declare and that a command or a reference asks
for. -/
theorem C77_types (hi : InputOK inp) (ho : OrdersOK inp o) (hd : DistinctPaths inp) (h : prepare inp o = .ok pre) (v : GoType) :
    (∃ q, q ∈ pre.points.at v) ↔ ∃ pkg name t, ObjectAskedFor inp pkg name t ∧ TReach inp.prog.env (under inp.prog.env t) v := by
  obtain ⟨runs, hs, hreq⟩ := (Scan.prepare_gives hi ho hd h).types
  constructor
  · rintro ⟨q, hq⟩
    obtain ⟨pkg, name, t, hr, hv⟩ := C36_only_reachable hi.prog hs hq
    exact ⟨pkg, name, t, (hreq _ _ _).1 hr, hv⟩
  · rintro ⟨pkg, name, t, hr, hv⟩
    exact C36_registers_reachable hi.prog hs ((hreq _ _ _).2 hr) hv

/-- C77: and the pointer `go://pkg#/Name/tok/…` into such an object leads to the type it names, if following its tokens does not come through
a type twice; in particular the pointer to the object itself. -/
theorem C77_asked_for_is_registered (hi : InputOK inp) (ho : OrdersOK inp o) (hd : DistinctPaths inp) (h : prepare inp o = .ok pre)
    {pkg name : Str} {t c : GoType} (hr : ObjectAskedFor inp pkg name t) {toks : List Str} (hf : follow inp.prog.env t toks = some c)
    (hn : (passes inp.prog.env t toks).Nodup) : ∃ q ∈ pre.points.at (under inp.prog.env c), q.toStr = goText pkg (name :: toks) := by
  obtain ⟨runs, hs, hreq⟩ := (Scan.prepare_gives hi ho hd h).types
  exact C36_simple_paths hi.prog hs ((hreq _ _ _).2 hr) hf hn

/-- C77: every scalar of the prepared document is in the root document or in a specification, at the same place; references of
specifications are made absolute. -/
theorem C77_nothing_invented (hi : InputOK inp) (ho : OrdersOK inp o) (hd : DistinctPaths inp) {root : Obj} (hroot : inp.root = .obj root)
    (hrw : Json.WF (.obj root)) (hz : ∀ k R, (k, R) ∈ ruleOf → Composite (section_ (.obj root) k)) (h : prepare inp o = .ok pre)
    {L : Loc} {v : Json} (hv : getAt pre.doc L = some v) (hsc : scalar v = true) :
    getAt (.obj root) L = some v ∨ ∃ p i d, SpecAt inp p i d ∧ Carries (Scan.pathOf inp.heap p) d L v :=
  Scan.prepared_back hi ho hd hroot hrw hz h hv hsc

/-! ### C78 -/

/-- C78: if two specifications, in whatever scanned packages or files, have an `openapi` member that is a string (or any other scalar), no
scan returns a document. -/
theorem C78_two_specifications (hi : InputOK inp) (ho : OrdersOK inp o) (hd : DistinctPaths inp) {p i p' i' : Nat} {m m' : Obj} {v v' : Json}
    (h : SpecAt inp p i (.obj m)) (h' : SpecAt inp p' i' (.obj m')) (hne : ¬ (p = p' ∧ i = i'))
    (hv : Obj.lookup b!"openapi" m = some v) (hv' : Obj.lookup b!"openapi" m' = some v') (hsc : scalar v = true ∨ scalar v' = true) (fuel : Nat) :
    ¬ HasDoc (scan inp o fuel) := by
  refine C77_unprepared_no_document hi ho hd ?_ fuel
  intro hp
  refine hne (hp.apart p i _ p' i' _ h h' ?_)
  have key : ∀ (m : Obj) (v : Json), Obj.lookup b!"openapi" m = some v → ∃ n, nodeAt (.obj m) [b!"openapi"] = some n ∧ (scalar v = true → n ≠ .obj) := by
    intro m v hv
    rw [Container.nodeAt_obj_cons, hv]
    cases v <;> simp [nodeAt, scalar]
  obtain ⟨n, e1, e2⟩ := key m v hv
  obtain ⟨n', e1', e2'⟩ := key m' v' hv'
  refine ⟨_, n, n', e1, e1', ?_⟩
  rintro ⟨rfl, rfl⟩
  rcases hsc with h | h
  · exact e2 h rfl
  · exact e2' h rfl

/-! ### C79 -/

/-- C79: a reference in a path item of a specification, in whatever package, is in the prepared document at the same place, made absolute. -/
theorem C79_references_of_paths (hi : InputOK inp) (ho : OrdersOK inp o) (hd : DistinctPaths inp) {root : Obj} (hroot : inp.root = .obj root)
    (hrw : Json.WF (.obj root)) (hz : ∀ k R, (k, R) ∈ ruleOf → Composite (section_ (.obj root) k)) (h : prepare inp o = .ok pre)
    {p i : Nat} {d : Json} (hs : SpecAt inp p i d) {P : Str} {L : Loc} {x y : Str}
    (hx : getAt d (.key b!"paths" :: .key P :: L ++ [.key refKey]) = some (.str x)) (hy : Absolute (Scan.pathOf inp.heap p) x y) :
    getAt pre.doc (.key b!"paths" :: .key P :: L ++ [.key refKey]) = some (.str y) :=
  Scan.prepared_ref hi ho hd hroot hrw hz h hs hx hy

/-- C79: so if it refers to a Go object, or a part of one, that does not exist, and nothing overrides it, no scan returns a document; unless
a specification or the root document has another value with the same printed path, which may hide the reference (see C14). -/
theorem C79_missing_object (hi : InputOK inp) (ho : OrdersOK inp o) (hd : DistinctPaths inp) {root : Obj} (hroot : inp.root = .obj root)
    (hrw : Json.WF (.obj root)) (hz : ∀ k R, (k, R) ∈ ruleOf → Composite (section_ (.obj root) k))
    {p i : Nat} {d : Json} (hs : SpecAt inp p i d) {P : Str} {L : Loc} {x pkg : Str} {f : Fragment}
    (hx : getAt d (.key b!"paths" :: .key P :: L ++ [.key refKey]) = some (.str x)) (hpkg : GoPkg pkg)
    (hf : ∀ t ∈ f, (47 : UInt8) ∉ t ∧ (126 : UInt8) ∉ t ∧ (37 : UInt8) ∉ t) (hy : Absolute (Scan.pathOf inp.heap p) x (goText pkg f))
    (hov : ∀ d, (goText pkg f, d) ∉ inp.override) (hno : denotesGo inp.prog pkg f = none)
    (hl : OnlyAt inp (.key b!"paths" :: .key P :: L ++ [.key refKey])) (fuel : Nat) :
    ¬ HasDoc (scan inp o fuel) := by
  by_cases hprep : Preparable inp
  · obtain ⟨pre, h⟩ := (C77_prepared_iff hi ho hd).2 hprep
    have hr := C79_references_of_paths hi ho hd hroot hrw hz h hs hx hy
    have htok : ∀ t ∈ f, Types.TokOK t := fun t ht => ⟨(hf t ht).1, (hf t ht).2.1⟩
    have hpc : (37 : UInt8) ∉ f.toStr := by
      rw [Types.toStr_plain htok]
      intro hm
      obtain ⟨t, ht, hm⟩ := List.mem_flatMap.1 hm
      rcases List.mem_append.1 hm with hm | hm
      · exact absurd hm (by decide)
      · exact (hf t ht).2.2 hm
    obtain ⟨q, h1, h2, h3, h4, h5⟩ := Pointer.parse_go hpkg.1 hpkg.2 hpc
    have htext : goText pkg f = b!"go://" ++ pkg ++ 35 :: f.toStr := by
      rw [goText, Types.toStr_plain htok]; simp
    have hq : q.toStr = goText pkg f := by
      have := h5 f
      rw [← h4] at this
      rw [htext, ← h4]
      exact this
    refine C58_no_document ho h (Scan.prepared_doc_wf hi ho hd hroot hrw hz h) (L := .key b!"paths" :: .key P :: L) (x := goText pkg f) (p := q)
      ⟨hr, htext ▸ h1, by rw [h2]; decide⟩ (Scan.prepared_lone hi ho hd hroot hrw hz h hl) ?_
    refine ⟨by rw [hq]; exact hov, fun _ hreg => ?_⟩
    obtain ⟨runs, hsc, _⟩ := (Scan.prepare_gives hi ho hd h).types
    obtain ⟨u, qs, q', hm, hq', e⟩ := hreg
    have hat := (Types.scan_inv hi.prog hsc)
    obtain ⟨pkg', f', t, hg, _⟩ := hat.pts u q' (by rw [Types.at_of_mem hat.nodup hm]; exact hq')
    rw [hg.text, hq] at e
    obtain ⟨rfl, rfl⟩ := Types.goText_inj hg.pkgOK hpkg hg.toks htok e
    have := hg.denotes
    rw [hno] at this
    cases this
  · exact C77_unprepared_no_document hi ho hd hprep fuel

end Oapi.Props
