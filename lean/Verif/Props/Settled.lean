import Verif.Proofs.Settled2

/-! C117: finished documents. -/
namespace Oapi.Props
open Spec Container
open Scan (Input Orders Prepared prepare scan cfg)

variable {F : Type} {inp : Input F} {o : Orders} {pre : Prepared}

/-- C117: if the union of the specifications has nothing left to do, every scan returns it as it is, in whatever order Go iterates its maps. -/
theorem C117_settled_document (hi : InputOK inp) (ho : OrdersOK inp o) (hd : DistinctPaths inp) (hp : Preparable inp) {d : Json}
    (hm : Merged inp d) (hs : Complete inp d) (hdef : DefaultsOK inp d) (n : Nat) : scan inp o (n + 1) = .ret (some d) (some .decode) :=
  Scan.scan_settled hi ho hd hp hm hs hdef n

/-- C117: in particular, if there is only one specification, and it has nothing left to do, a scan returns the specification. -/
theorem C117_unchanged (hi : InputOK inp) (ho : OrdersOK inp o) (hd : DistinctPaths inp) (hp : Preparable inp) {p i : Nat} {d : Json}
    (h : SpecAt inp p i d) (hone : ∀ p' i' d', SpecAt inp p' i' d' → p' = p ∧ i' = i) (hs : Complete inp d) (hdef : DefaultsOK inp d) (n : Nat) :
    scan inp o (n + 1) = .ret (some d) (some .decode) := by
  obtain ⟨hv, fs, f, h1, h2, h3, hspec⟩ := h
  have hok : SpecFileOK d := by
    rw [← h3]
    refine hi.files p fs h1 f (List.mem_of_getElem? h2) ?_
    rw [h3]
    exact Scan.isSpec_exists hspec
  refine C117_settled_document hi ho hd hp (Scan.merged_single (p := p) (i := i) ⟨hv, fs, f, h1, h2, h3, hspec⟩ hok.object hok.wf ?_
    fun x hx => hs.refs x (Scan.hasRef_refLike hx)) hs hdef n
  rintro p' i' d' hd'
  obtain ⟨rfl, rfl⟩ := hone p' i' d' hd'
  obtain ⟨_, fs', f', g1, g2, g3, _⟩ := hd'
  rw [h1] at g1; cases g1
  rw [h2] at g2; cases g2
  rw [← g3, h3]

/-- C117: a document none of whose references has a scheme is resolved to itself, whatever is exported and however references are resolved. -/
theorem C117_nothing_to_resolve {cfg : Resolver.Cfg} {m : Obj} (hw : Json.WF (.obj m)) (ho : ∀ n l, MapOrder l (cfg.ord n l))
    (h : ∀ x, RefLike (.obj m) x → ∃ p, Pointer.parse x = .ok p ∧ p.url.scheme = []) (n : Nat) :
    Resolver.resolve cfg (n + 1) (.obj m) = .ok (.obj m) := Scan.resolve_local hw ho h n

/-- C117: a reference into the document whose tokens need no percent-encoding is left alone, if it is written with the escapes of JSON pointers. -/
theorem C117_local_references {f : Fragment} (hne : f ≠ []) (hp : (37 : UInt8) ∉ f.toStr) : Standing (35 :: f.toStr) := by
  obtain ⟨rf, h⟩ := Pointer.Parse_frag (raw := []) (by simp) (show Url.parse [] = some {} by decide) rfl hp
  have hf : f.toStr ≠ [] := by
    cases f with
    | nil => exact absurd rfl hne
    | cons t f => simp [Fragment.toStr]
  refine ⟨⟨_, f⟩, Pointer.parse_of (x := 35 :: f.toStr) (by simp) (by simpa using hf) h (Fragment.new_toStr f), rfl, ?_⟩
  have : Url.toStr { ({} : Url.URL) with fragment := [], rawFragment := rf } = [] := by
    have h1 : Url.escape Url.Mode.path [] = [] := by decide
    simp [Url.toStr, Url.authPath, Url.escapedPath, h1, show Url.colonFirst [] = false by decide]
  simp only [Pointer.toStr]
  exact congrArg (· ++ 35 :: f.toStr) this

/-- C117: in particular, the references to components that a scan writes are left alone by the next. -/
theorem C117_component_references {e : Resolver.Export} (hn : CleanName e.name) (hp : (37 : UInt8) ∉ e.name) : Standing (localText e) := by
  rw [← Resolver.local_text hn]
  have hu : Url.toStr {} = [] := by decide
  rw [show Pointer.toStr { fragment := e.fragment } = 35 :: e.fragment.toStr from congrArg (· ++ 35 :: e.fragment.toStr) hu]
  refine C117_local_references (by rw [Resolver.fragment_eq hn]; simp) ?_
  have : 35 :: e.fragment.toStr = localText e := by
    rw [← Resolver.local_text hn]; exact (congrArg (· ++ 35 :: e.fragment.toStr) hu).symm
  intro hm
  have hm : (37 : UInt8) ∈ localText e := by rw [← this]; exact List.mem_cons_of_mem _ hm
  have hk : (37 : UInt8) ∉ e.kind.key := by cases e.kind <;> decide
  simp only [localText, List.mem_append, List.mem_cons] at hm
  rcases hm with (hm | hm) | hm | hm
  · revert hm; decide
  · exact hk hm
  · cases hm
  · exact hp hm

/-- C117: what a scan returns has nothing left to do: let the first scan be one that returns a document without external references (C65),
in which authors write local references as the library does.  Then a scan with this document as its only specification, nothing in its root
document, and the same default operations, returns the document unchanged, whatever its packages export. -/
theorem C117_scanned_again (hi : InputOK inp) (hs : SchemasOK inp) (ho : OrdersOK inp o) (hdi : DistinctPaths inp) (hp : prepare inp o = .ok pre)
    (hr : Resolvable inp o pre) (h1 : OneShortest inp.prog.env pre.points) (hd : DefaultsOK inp pre.doc)
    {root : Obj} (hroot : inp.root = .obj root) (hrw : Json.WF (.obj root)) (hz : ∀ k R, (k, R) ∈ ruleOf → Composite (section_ (.obj root) k))
    (hdef : ∀ d ∈ inp.defops, ∀ x, HasRef d.2 x → Standing x) (hper : ∀ e ∈ pre.exports, (37 : UInt8) ∉ e.name)
    (hst : ∀ x p, HasRef pre.doc x ∨ (∃ e ∈ inp.override, HasRef e.2 x) → Pointer.parse x = .ok p → p.url.scheme = [] → p.toStr = x) :
    ∃ out N, (∀ o', OrdersOK inp o' → ∀ fuel, N ≤ fuel → scan inp o' fuel = .ret (some out) (some .decode)) ∧
      ∀ (inp' : Input F) (o' : Orders) (p i : Nat), InputOK inp' → OrdersOK inp' o' → DistinctPaths inp' → Preparable inp' →
        SpecAt inp' p i out → (∀ p' i' d', SpecAt inp' p' i' d' → p' = p ∧ i' = i) →
        (∃ r, inp'.root = .obj r ∧ Json.WF (.obj r) ∧ ∀ k R, (k, R) ∈ ruleOf → Missing (section_ (.obj r) k)) →
        inp'.defops = inp.defops → inp'.matches_ = inp.matches_ →
        ∀ n, scan inp' o' (n + 1) = .ret (some out) (some .decode) := by
  have hset := Scan.scan_setting hi ho hs hp hr
  have hsolv := Scan.scan_solvable hi ho hs hp hr
  obtain ⟨r, out, ⟨n, hn⟩, hfin, hall⟩ := Scan.finish_one hi ho hp hset hr.cycles hsolv h1 hd
  obtain ⟨out', N', hall', hrefs⟩ := C65_one_document hi hs ho hp hr h1 hd
  have hsame : out' = out := by
    have e1 := hall o ho (max _ N') (Nat.le_max_left _ _)
    rw [hall' o ho _ (Nat.le_max_right _ _)] at e1
    cases e1; rfl
  subst hsame
  refine ⟨out', _, hall, ?_⟩
  intro inp' o' p i hi' ho' hdi' hp' hspec hone hroot' hdefs hmt
  obtain ⟨hpl, hrwf⟩ := Resolver.resolved_paths hset.good hset.tidy hset.receives hset.bare hd.items hd.plain hn
  obtain ⟨defops', hperm, hops⟩ := hfin.ops
  have hstand : ∀ x, HasRef out' x → Standing x := by
    intro x hx
    rcases hrefs x hx with ⟨q, g1, g2, g3⟩ | ⟨e, he, rfl, _⟩ | ⟨d, hdm, hdx⟩
    · exact ⟨q, g1, g2, hst x q g3 g1 g2⟩
    · exact C117_component_references (hr.names e he) (hper e he)
    · exact hdef d hdm x hdx
  have hopback : ∀ P M b, opAt out' P M = some b → ∃ a c, opAt r P M = some a ∧ opAt pre.doc P M = some c ∧
      OpOutcome (hits inp.matches_ defops' P M) a b := by
    intro P M b hb
    obtain ⟨a, ha, hab⟩ := Scan.opsRelated_back hops hb hpl.items
    obtain ⟨c, hc, _⟩ := hpl.ops P M a ha
    exact ⟨a, c, ha, hc, hab⟩
  have hitems := Scan.opsRelated_items hops hpl.items
  have hokout : SpecFileOK out' := by
    obtain ⟨_, fs, f, g1, g2, g3, g4⟩ := hspec
    rw [← g3]
    refine hi'.files p fs g1 f (List.mem_of_getElem? g2) ?_
    rw [g3]
    exact Scan.isSpec_exists g4
  have hrefl : ∀ x, RefLike out' x → Standing x := by
    rintro x ⟨L, k, hx, rfl | ⟨a, rfl⟩⟩
    · exact hstand x ⟨L, hx⟩
    · exact absurd hx (hokout.routed.plain L a x)
  have hsec : ∀ k R, (k, R) ∈ ruleOf → Scan.SecOK (section_ out' k) := by
    intro k R hk
    by_cases hkp : k = b!"paths"
    · subst hkp
      rcases hitems with h | ⟨ps, h, _⟩
      · exact .inl h
      · exact .inr ⟨ps, h⟩
    · obtain ⟨c, hc1, hc2, _⟩ := C77_document hi ho hdi hp
      have hdoc := Scan.merge_sections hc1 hroot hrw hz hc2 hk
      obtain ⟨m, hm⟩ := Scan.prepare_isObj hp
      obtain ⟨D, T, e1, e2, _, _⟩ := C31_result_is_the_expansion hset hr.cycles hn
      have hset' := hset
      rw [hm] at hset' hdoc e2
      obtain ⟨mD, hmD⟩ := Scan.expansion_obj hset'.bare e2
      have hD := Scan.expansion_section hset' e2 hdoc
      rw [hmD] at hD e1
      obtain ⟨mr, g1, g2⟩ := Scan.add_section T mD hD
      rw [← e1] at g1
      have := hfin.rest k [] hkp
      rw [g1] at this
      have hgs : ∀ j, getAt j [.key k] = section_ j k := by
        intro j
        simp only [getAt, section_]
        cases child j (.key k) <;> rfl
      rw [hgs, hgs] at this
      rw [this]
      exact g2
  have hhits : ∀ P M, hits inp'.matches_ inp'.defops P M = hits inp.matches_ inp.defops P M := fun P M => by rw [hdefs, hmt]
  have hfilled : ∀ P M b, opAt out' P M = some b →
      (∀ e ∈ hits inp.matches_ inp.defops P M, e = .obj []) ∨ ((∃ m, b = .obj m) ∧ ∀ e ∈ hits inp.matches_ inp.defops P M, Fills b e b) := by
    intro P M b hb
    obtain ⟨a, c, _, _, hab⟩ := hopback P M b hb
    have hpm := OAPI.hits_perm (mt := inp.matches_) hperm P M
    rcases Scan.outcome_filled hab with h | ⟨g1, g2⟩
    · exact .inl fun e he => h e (hpm.mem_iff.2 he)
    · exact .inr ⟨g1, fun e he => g2 e (hpm.mem_iff.2 he)⟩
  refine C117_unchanged hi' ho' hdi' hp' hspec hone ⟨hrefl, hsec, ?_, ?_⟩ ?_
  · obtain ⟨r', k1, k2, k3⟩ := hroot'
    exact ⟨r', k1, k2, fun k R hk => .inl (k3 k R hk)⟩
  · intro P M b hb e he
    rw [hhits] at he
    rcases hfilled P M b hb with h | ⟨g1, g2⟩
    · exact .inl (h e he)
    · exact .inr ⟨g1, g2 e he⟩
  · refine ⟨hitems, ?_, by rw [hdefs]; exact hd.defs, ?_, ?_, ?_, ?_⟩
    · rintro P x q ⟨g1, g2, g3⟩
      obtain ⟨q', f1, f2, _⟩ := hstand x ⟨[.key b!"paths", .key P], g1⟩
      rw [g2] at f1; cases f1
      exact g3 f2
    · rw [hdefs, hmt]
      intro P M b hb hne
      obtain ⟨a, c, _, hc, _⟩ := hopback P M b hb
      exact hd.nodots P M c hc hne
    · rw [hdefs, hmt]
      intro d hdm P M b hb
      obtain ⟨a, c, _, hc, _⟩ := hopback P M b hb
      exact hd.answers d hdm P M c hc
    · intro P M b hb
      rw [hhits]
      rcases hfilled P M b hb with h | ⟨g1, _⟩
      · exact .inl h
      · exact .inr (.inr g1)
    · intro P M b hb
      rw [hhits]
      obtain ⟨a, c, _, hc, _⟩ := hopback P M b hb
      exact hd.agree P M c hc

/-- C117: with a root document this holds only as long as it defines no components: if a specification (such as the document of an earlier scan)
and the root document bind the same key path below `components`, and not both to objects, no scan returns a document. -/
theorem C117_component_of_root (hi : InputOK inp) (ho : OrdersOK inp o) (hd : DistinctPaths inp) {root : Obj} (hroot : inp.root = .obj root)
    (hrw : Json.WF (.obj root)) (hz : ∀ k R, (k, R) ∈ ruleOf → Composite (section_ (.obj root) k)) {p i : Nat} {d : Json} (h : SpecAt inp p i d)
    {k : Str} {q : List Str} {x y : Node} (hx : nodeAt d (b!"components" :: k :: q) = some x)
    (hy : nodeAt (.obj root) (b!"components" :: k :: q) = some y) (hne : ¬ (x = .obj ∧ y = .obj)) (fuel : Nat) : ¬ HasDoc (scan inp o fuel) := by
  intro hdoc
  have hp : Preparable inp := Classical.byContradiction fun hn => C77_unprepared_no_document hi ho hd hn fuel hdoc
  obtain ⟨pre, hpre⟩ := (C77_prepared_iff hi ho hd).2 hp
  obtain ⟨c, h1, h2, _⟩ := C77_document hi ho hd hpre
  obtain ⟨m, rfl⟩ := h1.object
  rw [hroot] at h2
  have hpkg : GoPkg (Scan.pathOf inp.heap p) := Scan.visited_path hi h.1
  have hf : ∀ x, HasRef d x → Absolute (Scan.pathOf inp.heap p) x (newRef (Scan.pathOf inp.heap p) x) := by
    intro x hx
    obtain ⟨ptr, hptr⟩ := hp.refs p i d x h hx
    exact Scan.newRef_absolute hpkg hptr
  have hsh := Scan.shape_mapRefs (newRef (Scan.pathOf inp.heap p)) (b!"components" :: k :: q) d
  rw [hx] at hsh
  obtain ⟨x', hx', hxo⟩ : ∃ x', nodeAt (mapRefs (newRef (Scan.pathOf inp.heap p)) d) (b!"components" :: k :: q) = some x' ∧ (x' = .obj → x = .obj) := by
    cases e : nodeAt (mapRefs (newRef (Scan.pathOf inp.heap p)) d) (b!"components" :: k :: q) with
    | none => rw [e] at hsh; cases x <;> cases hsh
    | some x' =>
      refine ⟨x', rfl, ?_⟩
      rintro rfl
      rw [e] at hsh
      cases x with
      | obj => rfl
      | leaf j => cases hsh
  have hc := (h1.nodes (b!"components" :: k :: q) x' (by simp)).2 ⟨p, i, d, _, h, hf, hx'⟩
  have hmem : ∀ (m : Obj) (n : Node), nodeAt (.obj m) (b!"components" :: k :: q) = some n →
      nodeAt (members (section_ (.obj m) b!"components")) (k :: q) = some n := by
    intro m n hn
    rw [Container.nodeAt_obj_cons] at hn
    rw [show section_ (.obj m) b!"components" = Obj.lookup b!"components" m from rfl]
    cases e : Obj.lookup b!"components" m with
    | none => rw [e] at hn; cases hn
    | some v =>
      rw [e] at hn
      cases v with
      | obj s => exact hn
      | _ => cases hn
  have hcz := Scan.merged_composite h1.wf hrw hz h2
  have := (C21_fails_iff_component_collides h1.wf hrw (fun k R hk => ⟨hcz k R hk, hz k R hk⟩)).2
    ⟨k :: q, x', y, hmem m x' hc, hmem root y hy, fun ⟨e1, e2⟩ => hne ⟨hxo e1, e2⟩⟩
  rw [h2] at this
  cases this

end Oapi.Props
