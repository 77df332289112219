import Verif.Proofs.System2
import Verif.Proofs.Prep4
import Verif.Proofs.Crash3

/-! A run that reads its own output (C101). -/
namespace Oapi.System
open Spec Scan

variable {F L : Type} {inp : Input F} {o : Orders} {pre : Prepared}

/-! ### The document keeps `openapi` -/

theorem root_keeps_other {c root : Obj} {out : Json} (hc : Json.WF (.obj c)) (hr : Json.WF (.obj root))
    (hz : ∀ k R, (k, R) ∈ ruleOf → Composite (section_ (.obj root) k)) (h : OAPI.mergeWithRoot (.obj root) (.obj c) = .ok out)
    {k : Str} (hk : ∀ R, (k, R) ∉ ruleOf) : section_ out k = section_ (.obj c) k := by
  have hzc : ∀ k R, (k, R) ∈ ruleOf → Composite (section_ (.obj c) k) := by
    intro k R hk
    cases hs : section_ (.obj c) k with
    | none => exact .inl rfl
    | some w =>
      by_cases h1 : scalar w = true
      · by_cases h2 : w = .null
        · exact .inr ⟨w, rfl, .inl h2⟩
        · rcases Props.C21_scalar_section_crashes hc hr hz hk hs h1 h2 with e | e <;> rw [e] at h <;> cases h
      · exact .inr ⟨w, rfl, .inr (by simpa using h1)⟩
  rcases Props.C21_sections_follow_rules hc hr (fun k R hk => ⟨hzc k R hk, hz k R hk⟩) with ⟨out', e, _, h', _⟩ | ⟨e, _⟩
  · rw [h] at e
    cases e
    exact h' k hk
  · rw [h] at e; cases e

theorem lookup_mapRefs (f : Str → Str) {k : Str} (hk : k ≠ refKey) {v : Json} (hv : scalar v = true) :
    ∀ {m : List (Str × Json)}, Obj.lookup k m = some v → Obj.lookup k (mapRefsO f m) = some v
  | (k', v') :: t, h => by
    simp only [Obj.lookup] at h
    by_cases e : k = k'
    · subst e
      rw [if_pos rfl] at h
      have h : v' = v := Option.some.inj h
      subst h
      cases v' <;> simp_all [mapRefsO, Obj.lookup, mapRefs, scalar]
    · rw [if_neg e] at h
      have := lookup_mapRefs f hk hv h
      cases v' <;> simp [mapRefsO, Obj.lookup, e, this]

/-- What a specification says for `openapi` is in the prepared document. -/
theorem prepared_openapi (hi : InputOK inp) (ho : OrdersOK inp o) (hd : DistinctPaths inp) (hs : Sound inp) (h : prepare inp o = .ok pre)
    {p i : Nat} {m : Obj} (hsp : SpecAt inp p i (.obj m)) {v : Json} (hv : Obj.lookup b!"openapi" m = some v) (hsc : scalar v = true) :
    getAt pre.doc [.key b!"openapi"] = some v := by
  obtain ⟨c, hm, hmr⟩ := (prepare_gives hi ho hd h).doc
  have hprep := (prepare_iff hi ho hd).1 ⟨pre, h⟩
  obtain ⟨cm, rfl⟩ := hm.object
  obtain ⟨root, hroot, hrw, hz⟩ := hs.root
  rw [hroot] at hmr
  have h1 := root_keeps_other (k := b!"openapi") hm.wf hrw hz hmr (by intro R; simp [ruleOf])
  have h2 := (hm.nodes [b!"openapi"] (.leaf v) (by simp)).2 ⟨p, i, .obj m, Props.newRef (pathOf inp.heap p), hsp, fun x hx => by
    obtain ⟨ptr, hp⟩ := hprep.refs p i _ x hsp hx
    exact newRef_absolute (visited_path hi hsp.1) hp, by
      rw [mapRefs]
      simp only [nodeAt, lookup_mapRefs (Props.newRef (pathOf inp.heap p)) (by decide) hsc hv]
      exact Container.nodeAt_leaf (by cases v <;> first | rfl | cases hsc)⟩
  have h3 := getAt_leaf _ _ h2
  have h4 : section_ (.obj cm) b!"openapi" = some v := by
    change (match child (.obj cm) (.key b!"openapi") with | some c => getAt c [] | none => none) = some v at h3
    unfold section_
    cases hc : child (.obj cm) (.key b!"openapi") with
    | none => rw [hc] at h3; cases h3
    | some c => rw [hc] at h3; exact h3
  rw [h4, section_] at h1
  show (match child pre.doc (.key b!"openapi") with | some c => getAt c [] | none => none) = some v
  rw [h1]
  rfl

theorem getAt_scalar {v : Json} (h : scalar v = true) (s : Step) (l : Loc) : getAt v (s :: l) = none := by
  have : child v s = none := by cases v <;> first | (simp [scalar] at h; done) | (cases s <;> rfl)
  rw [getAt, this]

/-- … and in the document of the scan. -/
theorem document_openapi {pre : Prepared} (hs : Settled inp o pre) {v : Json} (hv : getAt pre.doc [.key b!"openapi"] = some v) (hsc : scalar v = true) {m : Obj}
    (h : ∀ k L, k ≠ b!"paths" → (∀ R x p, RefAt pre.doc R x p → Apart (.key k :: L) R) → (∀ e ∈ pre.exports, Apart (.key k :: L) (compLoc e)) →
        getAt (.obj m) (.key k :: L) = getAt pre.doc (.key k :: L)) : Obj.lookup b!"openapi" m = some v := by
  have h1 := h b!"openapi" [] (by decide) (fun R x p hr => ?_) fun e _ => ?_
  · rw [hv] at h1
    simp only [getAt, child] at h1
    cases hl : Obj.lookup b!"openapi" m with
    | none => rw [hl] at h1; cases h1
    | some c => rw [hl] at h1; exact h1
  · constructor
    · rintro ⟨R', rfl⟩
      have := hr.1
      rw [List.append_assoc, getAt_append, hv] at this
      cases R' with
      | nil => rw [Option.bind_some, List.nil_append, getAt_scalar hsc] at this; cases this
      | cons s R' => rw [Option.bind_some, List.cons_append, getAt_scalar hsc] at this; cases this
    · rintro ⟨R', hR⟩
      cases R with
      | nil => exact hs.resolvable.doc.bare x p hr
      | cons s R =>
        injection hR with e1 e2
        obtain ⟨rfl, rfl⟩ := List.append_eq_nil_iff.1 e2
        subst e1
        have := hr.1
        rw [getAt_append, hv, Option.bind_some, getAt_scalar hsc] at this
        cases this
  · constructor
    · rintro ⟨R', hR⟩
      injection hR with e1 e2
      exact absurd e1 (by decide)
    · rintro ⟨R', hR⟩
      injection hR with e1 e2
      exact absurd e1 (by decide)

/-! ### The files of the package with the output -/

variable {w : World F L} {disk : Disk} {ff : Cli.Flags} {nolog : Bool} {p : Nat} {dir : Str}

theorem readAll_snoc {fs : Read.FS} {f : Container.File} {q : Str} (h : Read.readFile fs q = .ok f) :
    ∀ {l : List Str} {fl}, Read.readAll fs l = .ok fl → Read.readAll fs (l ++ [q]) = .ok (fl ++ [f])
  | [], fl, e => by
    cases e
    simp [Read.readAll, h]
  | a :: l, fl, e => by
    rw [Read.readAll] at e
    rw [List.cons_append, Read.readAll]
    split at e
    · cases e
    · cases e
    · rename_i c hc
      split at e
      · cases e
      · cases e
      · rename_i cc hcc
        cases e
        rw [readAll_snoc h hcc]
        rfl

theorem own_files (h : SeparateOutput w disk ff nolog) (hw : OwnSpec w disk ff nolog p dir) {t : Str} {fs : List Container.File} {f : Container.File}
    (hfs : (scanInput w disk ff nolog).files p = .ok fs) (hf : Read.readFile (fsOf w (put disk (outputOf w disk ff) (some t))) (outputOf w disk ff) = .ok f) :
    (scanInput w (put disk (outputOf w disk ff) (some t)) ff nolog).files p = .ok (fs ++ [f]) := by
  have hne : dir ≠ outputOf w disk ff := by
    rw [hw.output]
    intro e
    have := congrArg List.length e
    simp at this
  have hne' : ∀ n, n ≠ b!"oapi.json" → dir ++ b!"/" ++ n ≠ outputOf w disk ff := by
    intro n hn e
    rw [hw.output] at e
    exact hn (List.append_cancel_left e)
  rw [files_dir hw.visited hw.place] at hfs
  rw [files_after h hw.visited hw.place hne]
  have hl : (fsOf w disk).lstat (dir ++ b!"/" ++ b!"oapi.json") = false := by
    rw [← hw.output]; simp [fsOf, hw.absent]
  have e1 : Props.presentSpecs (fsOf w (put disk (outputOf w disk ff) (some t))) dir = Props.presentSpecs (fsOf w disk) dir ++ [outputOf w disk ff] := by
    have hl' : (fsOf w (put disk (outputOf w disk ff) (some t))).lstat (dir ++ b!"/" ++ b!"oapi.json") = true := by
      rw [← hw.output]; simp [fsOf, put]
    simp only [Props.presentSpecs, specNames, List.filter_cons, List.filter_nil]
    rw [lstat_put (hne' b!"oapi.yaml" (by decide)), lstat_put (hne' b!"oapi.yml" (by decide)), hl, hl']
    cases (fsOf w disk).lstat (dir ++ b!"/" ++ b!"oapi.yaml") <;> cases (fsOf w disk).lstat (dir ++ b!"/" ++ b!"oapi.yml") <;> simp [hw.output]
  rw [e1]
  refine readAll_snoc hf ?_
  rw [← hfs]
  refine readAll_congr fun q hq => ?_
  obtain ⟨n, hn, rfl⟩ := List.mem_map.1 hq
  refine readFile_put (hne' n ?_)
  rintro rfl
  have := (List.mem_filter.1 hn).2
  rw [hl] at this
  cases this

theorem other_files (h : SeparateOutput w disk ff nolog) (hw : OwnSpec w disk ff nolog p dir) {t : Option Str} {q : Nat}
    (hq : Visited (scanInput w disk ff nolog) q) (hne : q ≠ p) :
    (scanInput w (put disk (outputOf w disk ff) t) ff nolog).files q = (scanInput w disk ff nolog).files q := by
  obtain ⟨dir', hd, hne'⟩ := h.dirs q hq
  refine files_unchanged h hq hd hne' fun n hn e => hne (hw.only q hq ?_)
  rw [hw.output] at e
  have hs : ∀ n ∈ specNames, (47 : UInt8) ∉ n := by decide
  have : dir' = dir := by
    have key : ∀ (a b n n' : Str), (47 : UInt8) ∉ n → (47 : UInt8) ∉ n' → a ++ 47 :: n = b ++ 47 :: n' → a = b := by
      intro a
      induction a with
      | nil =>
        intro b n n' h1 h2 e
        cases b with
        | nil => rfl
        | cons c b =>
          injection e with _ e
          exact absurd (by rw [e]; simp) h1
      | cons c a ih =>
        intro b n n' h1 h2 e
        cases b with
        | nil =>
          injection e with _ e
          exact absurd (by rw [← e]; simp) h2
        | cons c' b =>
          injection e with e1 e
          rw [e1, ih b n n' h1 h2 e]
    refine key _ _ n b!"oapi.json" (hs n hn) (by decide) ?_
    simpa [List.append_assoc] using e
  exact this ▸ hd

/-- An output that is no specification does not change the next scan. -/
theorem scan_after_null (h : SeparateOutput w disk ff nolog) (hw : OwnSpec w disk ff nolog p dir) (hi : InputOK (scanInput w disk ff nolog))
    {fs : List Container.File} (hfs : (scanInput w disk ff nolog).files p = .ok fs) {t : Str} {f : Container.File}
    (hf : Read.readFile (fsOf w (put disk (outputOf w disk ff) (some t))) (outputOf w disk ff) = .ok f) (hno : Container.existsP f.doc b!"openapi" = false)
    {o : Orders} (ho : OrdersOK (scanInput w disk ff nolog) o) (fuel : Nat) :
    scan (scanInput w (put disk (outputOf w disk ff) (some t)) ff nolog) o fuel = scan (scanInput w disk ff nolog) o fuel := by
  rw [scanned_after h]
  refine scan_congr hi.graph ho.heap₂ (fun q hv st => ?_) fuel
  by_cases hq : q = p
  · subst hq
    exact specsScanner_ignored hfs (own_files h hw hfs hf) hno st
  · exact specsScanner_same (other_files h hw hv hq) st

/-- An output that is a specification beside another one makes the next scan fail. -/
theorem scan_after_document (h : SeparateOutput w disk ff nolog) (hw : OwnSpec w disk ff nolog p dir) (hi : InputOK (scanInput w disk ff nolog))
    (hd : DistinctPaths (scanInput w disk ff nolog)) (hs : Sound (scanInput w disk ff nolog))
    {fs : List Container.File} (hfs : (scanInput w disk ff nolog).files p = .ok fs) {t : Str} {m : Obj}
    (hf : Read.readFile (fsOf w (put disk (outputOf w disk ff) (some t))) (outputOf w disk ff) = .ok ⟨outputOf w disk ff, .obj m⟩)
    (hm : SpecFileOK (.obj m)) {u : Json} (hu : Obj.lookup b!"openapi" m = some u)
    {q i : Nat} {d : Obj} (hq : SpecAt (scanInput w disk ff nolog) q i (.obj d)) {v : Json} (hv : Obj.lookup b!"openapi" d = some v) (hsc : scalar v = true)
    {o : Orders} (ho : OrdersOK (scanInput w disk ff nolog) o) : ∃ e, ∀ fuel,
    scan (scanInput w (put disk (outputOf w disk ff) (some t)) ff nolog) o fuel = .ret none (some e) := by
  generalize hinp : scanInput w disk ff nolog = inp at hfs hq hi hd hs ho
  have hfiles : ∀ q, Visited inp q → (scanInput w (put disk (outputOf w disk ff) (some t)) ff nolog).files q =
      if q = p then .ok (fs ++ [⟨outputOf w disk ff, .obj m⟩]) else inp.files q := by
    intro q hv
    split
    · rename_i e; subst e
      exact own_files h hw (hinp ▸ hfs) hf
    · rename_i e
      rw [other_files h hw (hinp ▸ hv) e, hinp]
  let inp2 : Input F := withFiles inp fun q => if q = p then .ok (fs ++ [⟨outputOf w disk ff, .obj m⟩]) else inp.files q
  have hvis : ∀ q, Visited inp2 q ↔ Visited inp q := fun q => Iff.rfl
  have hf2 : ∀ {q}, q = p → inp2.files q = .ok (fs ++ [⟨outputOf w disk ff, .obj m⟩]) := fun e => if_pos e
  have hf3 : ∀ {q}, q ≠ p → inp2.files q = inp.files q := fun e => if_neg e
  have hcmd : ∀ a b c e, CommandAt inp2 a b c e ↔ CommandAt inp a b c e := fun _ _ _ _ => Iff.rfl
  have hi2 : InputOK inp2 := by
    refine ⟨hi.graph, hi.paths, hi.prog, ?_, hi.commands⟩
    intro q l hl f hf' he
    change (if q = p then Res.ok (fs ++ [⟨outputOf w disk ff, .obj m⟩]) else inp.files q) = .ok l at hl
    split at hl
    · cases hl
      rcases List.mem_append.1 hf' with h1 | h1
      · exact hi.files p fs hfs f h1 he
      · rw [List.mem_singleton] at h1
        subst h1
        exact hm
    · exact hi.files q l hl f hf' he
  have ho2 : OrdersOK inp2 o := ⟨ho.heap₁, ho.heap₂, ho.heap₃, ho.exports, ho.commands, ho.refs, ho.sort, ho.pointers, ho.types, ho.pick, ho.resolver, ho.ops, ho.defops⟩
  have hd2 : DistinctPaths inp2 := hd
  have hs2 : Sound inp2 := by
    refine ⟨hs.load, fun q => ?_, hs.matcher, hs.root, hs.override⟩
    show (if q = p then Res.ok (fs ++ [⟨outputOf w disk ff, .obj m⟩]) else inp.files q) ≠ .panic
    split
    · simp
    · exact hs.files q
  have hown : SpecAt inp2 p fs.length (.obj m) :=
    ⟨(hvis p).2 (hinp ▸ hw.visited), fs ++ [⟨outputOf w disk ff, .obj m⟩], ⟨outputOf w disk ff, .obj m⟩, hf2 rfl, by simp, rfl, m, u, rfl, hu⟩
  have hold : SpecAt inp2 q i (.obj d) ∧ ¬ (q = p ∧ i = fs.length) := by
    obtain ⟨h1, l, f, h2, h3, h4, h5⟩ := hq
    by_cases e : q = p
    · subst e
      rw [hfs] at h2
      cases h2
      obtain ⟨hlt, _⟩ := List.getElem?_eq_some_iff.1 h3
      refine ⟨⟨h1, fs ++ [⟨outputOf w disk ff, .obj m⟩], f, hf2 rfl, ?_, h4, h5⟩, fun e => by omega⟩
      rw [List.getElem?_append_left hlt]
      exact h3
    · exact ⟨⟨h1, l, f, by rw [← h2]; exact hf3 e, h3, h4, h5⟩, fun e' => e e'.1⟩
  have hg : ¬ Gathers inp2 := fun hg => hold.2 (hg.apart _ _ _ _ _ _ hold.1 hown (scalars_collide hv hu (.inl hsc)))
  obtain ⟨e, he⟩ := not_gathers hi2 ho2 hd2 hs2 hg
  refine ⟨e, fun fuel => ?_⟩
  rw [scanned_after h, hinp]
  have : scan (withFiles inp2 (scanInput w (put disk (outputOf w disk ff) (some t)) ff nolog).files) o fuel = scan inp2 o fuel :=
    scan_congr hi2.graph ho2.heap₂ (fun q hv st => specsScanner_same (hfiles q hv) st) fuel
  refine Eq.trans this ?_
  unfold scan
  rw [he]

end Oapi.System
