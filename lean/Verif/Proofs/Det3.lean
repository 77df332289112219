import Verif.Proofs.Det1
import Verif.Proofs.Det2
import Verif.Props.Pointer
import Verif.Props.Merge
import Verif.Props.Cmds
import Verif.Spec.Scan

/-! The stages before the resolution give the same in every order. -/
namespace Oapi.Scan
open Spec Container
open Cmds (Cmd)

variable {F : Type} {inp : Input F} {o : Orders}

/-! ### Pointer maps -/

/-- A map of pointers, each under its own text. -/
structure PtrOK (m : Pointers) : Prop where
  nodup : (m.map Prod.fst).Nodup
  ok : ∀ k p, (k, p) ∈ m → p.toStr = k ∧ PlainPointer p

def SameKeys (a b : Pointers) : Prop := ∀ k, (∃ p, Pointers.get k a = some p) ↔ ∃ p, Pointers.get k b = some p

theorem put_keys (k : Str) (v : Pointer) (m : Pointers) (h : (m.map Prod.fst).Nodup) :
    ((Pointers.put k v m).map Prod.fst).Nodup ∧ ∀ k', k' ∈ (Pointers.put k v m).map Prod.fst → k' = k ∨ k' ∈ m.map Prod.fst := by
  induction m with
  | nil => simp [Pointers.put]
  | cons a t ih =>
    obtain ⟨k', v'⟩ := a
    simp only [List.map_cons, List.nodup_cons] at h
    simp only [Pointers.put]
    split
    · rename_i e; subst e
      refine ⟨by simpa using h, fun k' hk => ?_⟩
      simp only [List.map_cons, List.mem_cons] at hk ⊢
      exact hk.imp id .inr
    · rename_i e
      obtain ⟨h1, h2⟩ := ih h.2
      refine ⟨?_, fun k'' hk => ?_⟩
      · simp only [List.map_cons, List.nodup_cons]
        refine ⟨fun hm => ?_, h1⟩
        rcases h2 _ hm with e' | hm
        · exact e e'.symm
        · exact h.1 hm
      · simp only [List.map_cons, List.mem_cons] at hk ⊢
        rcases hk with rfl | hk
        · exact .inr (.inl rfl)
        · exact (h2 _ hk).imp id .inr

theorem PtrOK.of_get {m : Pointers} (hn : (m.map Prod.fst).Nodup)
    (h : ∀ k p, Pointers.get k m = some p → p.toStr = k ∧ PlainPointer p) : PtrOK m :=
  ⟨hn, fun k p hp => h k p ((Pointers.get_eq_some hn).2 hp)⟩

theorem PtrOK.get {m : Pointers} (h : PtrOK m) {k : Str} {p : Pointer} (hp : Pointers.get k m = some p) : p.toStr = k ∧ PlainPointer p :=
  h.ok k p ((Pointers.get_eq_some h.nodup).1 hp)

theorem copyInto_nodup : ∀ (src dst : Pointers), (dst.map Prod.fst).Nodup → ((Pointers.copyInto dst src).map Prod.fst).Nodup
  | [], _, h => h
  | (k, v) :: t, dst, h => copyInto_nodup t _ (put_keys k v dst h).1

theorem copyInto_ok {a b : Pointers} (ha : PtrOK a) (hb : PtrOK b) : PtrOK (Pointers.copyInto a b) := by
  refine .of_get (copyInto_nodup _ _ ha.nodup) fun k p h => ?_
  rw [Pointers.get_copyInto _ _ _ hb.nodup] at h
  cases hg : Pointers.get k b with
  | some v => rw [hg] at h; cases h; exact hb.get hg
  | none => rw [hg] at h; exact ha.get h

theorem copyInto_same {a b c d : Pointers} (hb : PtrOK b) (hd : PtrOK d) (h1 : SameKeys a c) (h2 : SameKeys b d) :
    SameKeys (Pointers.copyInto a b) (Pointers.copyInto c d) := by
  intro k
  rw [Pointers.get_copyInto _ _ _ hb.nodup, Pointers.get_copyInto _ _ _ hd.nodup]
  have e1 := h1 k
  have e2 := h2 k
  cases hg : Pointers.get k b with
  | some v =>
    obtain ⟨v', hg'⟩ := e2.1 ⟨v, hg⟩
    rw [hg']; simp
  | none =>
    cases hg' : Pointers.get k d with
    | some v => obtain ⟨v', h⟩ := e2.2 ⟨v, hg'⟩; rw [hg] at h; cases h
    | none => exact e1

theorem PtrOK.nil : PtrOK [] := ⟨by simp, fun _ _ h => by cases h⟩

theorem merge_ok {a b : Pointers} (ha : PtrOK a) (hb : PtrOK b) : PtrOK (Pointers.merge a b) := copyInto_ok (copyInto_ok .nil ha) hb

theorem merge_same {a b c d : Pointers} (ha : PtrOK a) (hb : PtrOK b) (hc : PtrOK c) (hd : PtrOK d) (h1 : SameKeys a c) (h2 : SameKeys b d) :
    SameKeys (Pointers.merge a b) (Pointers.merge c d) :=
  copyInto_same hb hd (copyInto_same ha hc (fun _ => Iff.rfl) h1) h2

/-! ### References -/

theorem plain_newGo {pkg : Str} (hp : ∀ c ∈ pkg, ImportByte c) : ∃ x p₀, PlainRef x ∧ Pointer.parse x = .ok p₀ ∧ Pointer.newGoLoose pkg [] = p₀ := by
  have hx : PlainRef (b!"go://" ++ pkg ++ b!"#/" ++ []) := by
    refine ⟨b!"go://" ++ pkg, b!"/", fun c hc => ?_, .inr (by simp)⟩
    rcases List.mem_append.1 hc with h | h
    · have hd : ∀ c ∈ b!"go://", UriByte c := by unfold UriByte; decide
      exact hd c h
    · exact (Url.import_facts _ (hp c h)).1
  by_cases hne : pkg = []
  · subst hne
    exact ⟨_, Pointer.newGoLoose [] [], hx, by decide +kernel, rfl⟩
  · obtain ⟨p, h1, h2⟩ := Pointer.parse_go hne hp (f := [[]]) (by decide)
    have e : b!"go://" ++ pkg ++ 35 :: Fragment.toStr [[]] = b!"go://" ++ pkg ++ b!"#/" ++ [] := by
      rw [show Fragment.toStr [[]] = b!"/" from by decide]; simp
    rw [e] at h1
    exact ⟨_, p, hx, h1, Cmds.parseLoose_ok h1⟩

theorem plain_rewrite {pkg x : Str} {p : Pointer} (hp : ∀ c ∈ pkg, ImportByte c) (hx : PlainRef x) (h : Specs.rewriteRef pkg x = .ok p) :
    PlainPointer p := by
  unfold Specs.rewriteRef at h
  split at h
  · cases h
  · cases h
  · rename_i q hq
    split at h
    · cases h
      obtain ⟨y, p₀, h1, h2, h3⟩ := plain_newGo hp
      exact ⟨y, p₀, _, h1, h2, by rw [h3]⟩
    · cases h
      exact ⟨x, p, p.fragment, hx, hq, rfl⟩

theorem scanRefs_nodup (pkg : Str) : ∀ (es : List (Str × Json)) (c : Json) (ps : Pointers) {r : Json × Pointers},
    (ps.map Prod.fst).Nodup → Specs.scanRefs pkg es c ps = .ok r → (r.2.map Prod.fst).Nodup := by
  intro es
  induction es with
  | nil => intro c ps r hn h; cases h; exact hn
  | cons a t ih =>
    intro c ps r hn h
    obtain ⟨key, v⟩ := a
    simp only [Specs.scanRefs] at h
    split at h
    · split at h
      · cases h
      · cases h
      · split at h
        · cases h
        · cases h
        · exact ih _ _ (put_keys _ _ _ hn).1 h
    · exact ih _ _ hn h

/-! ### Files -/

theorem scanFile_rel {ord : List (Str × Json) → List (Str × Json)} (hord : ∀ l, Container.MapOrder l (ord l)) {pkg : Str} {f : File} {ps : Pointers} :
    Specs.ScanFile pkg f.doc ps ((scanFile ord pkg f ps).bind fun r => .ok (r.1.map File.doc, r.2)) := by
  unfold Specs.ScanFile scanFile
  split
  · rfl
  · split
    · rename_i h; rw [h]; rfl
    · rename_i h; rw [h]; rfl
    · rename_i refs h
      rw [h]
      refine ⟨ord refs, hord refs, ?_⟩
      simp only
      cases Specs.scanRefs pkg (ord refs) f.doc ps with
      | ok a => rfl
      | err e => rfl
      | panic => rfl

theorem scanFile_file {ord : List (Str × Json) → List (Str × Json)} {pkg : Str} {f : File} {ps : Pointers} {r : Option File × Pointers}
    (h : scanFile ord pkg f ps = .ok r) : (existsP f.doc b!"openapi" = false ∧ r = (none, ps)) ∨
      (existsP f.doc b!"openapi" = true ∧ ∃ d, r.1 = some { f with doc := d }) := by
  unfold scanFile at h
  split at h
  · rename_i e; cases h; exact .inl ⟨e, rfl⟩
  · rename_i e
    right
    refine ⟨by simpa using e, ?_⟩
    split at h
    · cases h
    · cases h
    · split at h
      · cases h; exact ⟨_, rfl⟩
      · cases h
      · cases h

theorem scanFile_nodup {ord : List (Str × Json) → List (Str × Json)} {pkg : Str} {f : File} {ps : Pointers} {r : Option File × Pointers}
    (hn : (ps.map Prod.fst).Nodup) (h : scanFile ord pkg f ps = .ok r) : (r.2.map Prod.fst).Nodup := by
  unfold scanFile at h
  split at h
  · cases h; exact hn
  · split at h
    · cases h
    · cases h
    · split at h
      · rename_i hs; cases h; exact scanRefs_nodup _ _ _ _ hn hs
      · cases h
      · cases h

/-- What the scan of a spec file gives. -/
theorem scanFile_spec {ord : List (Str × Json) → List (Str × Json)} (hord : ∀ l, Container.MapOrder l (ord l)) {pkg : Str} {f : File} {ps ps' : Pointers}
    {r : Option File} (hpkg : ∀ c ∈ pkg, ImportByte c) (hf : SpecFileOK f.doc) (ho : existsP f.doc b!"openapi" = true) (hps : PtrOK ps)
    (h : scanFile ord pkg f ps = .ok (r, ps')) :
    r = some { f with doc := mapRefs (Props.newRef pkg) f.doc } ∧ PtrOK ps' ∧
      ∀ k, (∃ p, Pointers.get k ps' = some p) ↔ (∃ p, Pointers.get k ps = some p) ∨ ∃ x, HasRef f.doc x ∧ Props.newRef pkg x = k := by
  rcases scanFile_file h with ⟨e, _⟩ | ⟨_, d, hd⟩
  · rw [ho] at e; cases e
  have hn := scanFile_nodup hps.nodup h
  have hrel := scanFile_rel hord (pkg := pkg) (f := f) (ps := ps)
  rw [h] at hrel
  cases hd
  obtain ⟨h1, h2, h3, h4⟩ := Props.C08_scan_file pkg f.doc d ps ps' hf.wf hf.routed hrel
  refine ⟨by rw [h1], .of_get hn fun k p hp => ?_, fun k => ⟨?_, ?_⟩⟩
  · rcases h2 k p hp with hq | ⟨x, hx, hr, e⟩
    · exact hps.get hq
    · exact ⟨e, plain_rewrite hpkg (hf.refs x hx) hr⟩
  · rintro ⟨p, hp⟩
    rcases h2 k p hp with hq | ⟨x, hx, hr, e⟩
    · exact .inl ⟨p, hq⟩
    · exact .inr ⟨x, hx, by unfold Props.newRef; rw [hr]; exact e⟩
  · rintro (⟨p, hp⟩ | ⟨x, hx, rfl⟩)
    · exact h3 k p hp
    · exact h4 x hx

theorem scanFile_same {ord ord' : List (Str × Json) → List (Str × Json)} (hord : ∀ l, Container.MapOrder l (ord l)) (hord' : ∀ l, Container.MapOrder l (ord' l))
    {pkg : Str} {f : File} {ps ps' qs : Pointers} {r : Option File} (hpkg : ∀ c ∈ pkg, ImportByte c)
    (hf : existsP f.doc b!"openapi" = true → SpecFileOK f.doc) (hps : PtrOK ps) (hqs : PtrOK qs) (hk : SameKeys ps qs)
    (h : scanFile ord pkg f ps = .ok (r, ps')) :
    ∃ qs', scanFile ord' pkg f qs = .ok (r, qs') ∧ PtrOK ps' ∧ PtrOK qs' ∧ SameKeys ps' qs' := by
  by_cases ho : existsP f.doc b!"openapi" = true
  · have hf := hf ho
    obtain ⟨m, hm⟩ := hf.object
    have hrel := scanFile_rel hord (pkg := pkg) (f := f) (ps := ps)
    have hrel' := scanFile_rel hord' (pkg := pkg) (f := f) (ps := qs)
    have hsc : scalar f.doc = false := by rw [hm]; rfl
    have hi := Props.C08_scan_file_fails_iff pkg f.doc ps hf.wf hf.routed ho hsc _ hrel
    have hi' := Props.C08_scan_file_fails_iff pkg f.doc qs hf.wf hf.routed ho hsc _ hrel'
    cases h' : scanFile ord' pkg f qs with
    | err e =>
      exfalso
      rw [h'] at hi'
      obtain ⟨e', he⟩ := hi.2 (hi'.1 ⟨e, rfl⟩)
      rw [h] at he; cases he
    | panic =>
      exfalso
      unfold scanFile at h'
      split at h'
      · cases h'
      · split at h'
        · cases h'
        · rename_i hp
          have := (Props.C14_extractKey_fails_iff f.doc b!"$ref").1 (by rw [hp]; simp)
          rw [hsc] at this; cases this
        · split at h'
          · cases h'
          · cases h'
          · rename_i hp; exact Specs.scanRefs_no_panic _ _ _ _ hp
    | ok a =>
      obtain ⟨r', qs'⟩ := a
      obtain ⟨e1, o1, k1⟩ := scanFile_spec hord hpkg hf ho hps h
      obtain ⟨e2, o2, k2⟩ := scanFile_spec hord' hpkg hf ho hqs h'
      refine ⟨qs', by rw [e1, e2], o1, o2, fun k => ?_⟩
      rw [k1, k2, hk k]
  · have ho : existsP f.doc b!"openapi" = false := by simpa using ho
    unfold scanFile at h ⊢
    rw [if_pos ho] at h ⊢
    cases h
    exact ⟨qs, rfl, hps, hqs, hk⟩

theorem scanFiles_same {ord ord' : Nat → List (Str × Json) → List (Str × Json)} (hord : ∀ i l, Container.MapOrder l (ord i l)) (hord' : ∀ i l, Container.MapOrder l (ord' i l))
    {pkg : Str} (hpkg : ∀ c ∈ pkg, ImportByte c) : ∀ (fs : List File) (i : Nat) {ps ps' qs : Pointers} {r : List File},
    (∀ f ∈ fs, existsP f.doc b!"openapi" = true → SpecFileOK f.doc) → PtrOK ps → PtrOK qs → SameKeys ps qs →
    scanFiles ord pkg i fs ps = .ok (r, ps') → ∃ qs', scanFiles ord' pkg i fs qs = .ok (r, qs') ∧ PtrOK ps' ∧ PtrOK qs' ∧ SameKeys ps' qs' := by
  intro fs
  induction fs with
  | nil => intro i ps ps' qs r _ hp hq hk h; cases h; exact ⟨qs, rfl, hp, hq, hk⟩
  | cons f t ih =>
    intro i ps ps' qs r hf hp hq hk h
    simp only [scanFiles] at h ⊢
    split at h
    · cases h
    · cases h
    · rename_i f' ps1 h1
      split at h
      · cases h
      · cases h
      · rename_i l ps2 h2
        cases h
        obtain ⟨qs1, e1, a1, b1, c1⟩ := scanFile_same (hord i) (hord' i) hpkg (hf f (by simp)) hp hq hk h1
        obtain ⟨qs2, e2, a2, b2, c2⟩ := ih (i + 1) (fun f h => hf f (by simp [h])) a1 b1 c1 h2
        refine ⟨qs2, ?_, a2, b2, c2⟩
        rw [e1]; simp only; rw [e2]

theorem path_bytes (hi : InputOK inp) (p : Nat) : ∀ c ∈ pathOf inp.heap p, ImportByte c := by
  unfold pathOf
  cases h : inp.heap[p]? with
  | none => intro c hc; simp at hc
  | some pkg => simpa using (hi.paths pkg (List.mem_of_getElem? h)).2

/-! ### All packages -/

theorem specs_panic {o : Orders} : ∀ (l : List Nat), (runScanner (specsScanner inp o) .panic l).1 = .panic := by
  intro l
  induction l with
  | nil => rfl
  | cons p l ih => simpa [runScanner, specsScanner] using ih

/-- The specs of the packages, in another order of references. -/
theorem specs_same {o' : Orders} (hi : InputOK inp) (ho : OrdersOK inp o) (ho' : OrdersOK inp o') : ∀ (l : List Nat)
    {cc files : List File} {ps ps' qs : Pointers}, PtrOK ps → PtrOK qs → SameKeys ps qs →
    (∀ x ∈ (runScanner (specsScanner inp o) (.ok (cc, ps)) l).2, x = none) →
    (runScanner (specsScanner inp o) (.ok (cc, ps)) l).1 = .ok (files, ps') →
    ∃ qs', (∀ x ∈ (runScanner (specsScanner inp o') (.ok (cc, qs)) l).2, x = none) ∧
      (runScanner (specsScanner inp o') (.ok (cc, qs)) l).1 = .ok (files, qs') ∧ PtrOK ps' ∧ PtrOK qs' ∧ SameKeys ps' qs' := by
  intro l
  induction l with
  | nil =>
    intro cc files ps ps' qs hp hq hk _ h
    simp only [runScanner, Res.ok.injEq, Prod.mk.injEq] at h
    obtain ⟨rfl, rfl⟩ := h
    exact ⟨qs, (by simp [runScanner]), rfl, hp, hq, hk⟩
  | cons p l ih =>
    intro cc files ps ps' qs hp hq hk hn h
    rw [runScanner_cons_none] at hn
    change (runScanner (specsScanner inp o) ((specsScanner inp o).scan (.ok (cc, ps)) p).1 l).1 = .ok (files, ps') at h
    cases hfs : inp.files p with
    | err e =>
      exfalso
      have := hn.1
      simp [specsScanner, hfs] at this
    | panic =>
      exfalso
      rw [show ((specsScanner inp o).scan (.ok (cc, ps)) p).1 = .panic by simp [specsScanner, hfs], specs_panic] at h
      cases h
    | ok ff =>
      cases hs : scanFiles (o.refs p) (pathOf inp.heap p) 0 ff ps with
      | err e =>
        exfalso
        have := hn.1
        simp [specsScanner, hfs, hs] at this
      | panic =>
        exfalso
        rw [show ((specsScanner inp o).scan (.ok (cc, ps)) p).1 = .panic by simp [specsScanner, hfs, hs], specs_panic] at h
        cases h
      | ok a =>
        obtain ⟨fl, ps1⟩ := a
        obtain ⟨qs1, e1, a1, b1, c1⟩ := scanFiles_same (ho.refs p) (ho'.refs p) (path_bytes hi p) ff 0 (hi.files p ff hfs) hp hq hk hs
        have es : (specsScanner inp o).scan (.ok (cc, ps)) p = (.ok (cc ++ fl, ps1), none) := by simp [specsScanner, hfs, hs]
        have es' : (specsScanner inp o').scan (.ok (cc, qs)) p = (.ok (cc ++ fl, qs1), none) := by simp [specsScanner, hfs, e1]
        rw [es] at hn h
        obtain ⟨qs', f1, f2, f3⟩ := ih a1 b1 c1 hn.2 h
        refine ⟨qs', ?_, ?_, f3⟩
        · rw [runScanner_cons_none, es']; exact ⟨rfl, f1⟩
        · change (runScanner (specsScanner inp o') ((specsScanner inp o').scan (.ok (cc, qs)) p).1 l).1 = _
          rw [es']; exact f2

/-- What the scanner for types is asked for. -/
def runsOf (inp : Input F) (o : Orders) (pp : Pointers) (l : List Nat) : List (Str × List Pointer) :=
  l.map fun p => (pathOf inp.heap p, (o.pointers p pp).map Prod.snd)

theorem types_panic {o : Orders} {pp : Pointers} : ∀ (l : List Nat), (runScanner (typesScanner inp o pp) .panic l).1 = .panic := by
  intro l
  induction l with
  | nil => rfl
  | cons p l ih => simpa [runScanner, typesScanner] using ih

theorem types_runs {pp : Pointers} : ∀ (l : List Nat) {m m' : Types.PMap},
    ((∀ x ∈ (runScanner (typesScanner inp o pp) (.ok m) l).2, x = none) ∧ (runScanner (typesScanner inp o pp) (.ok m) l).1 = .ok m') ↔
    Types.scanPkgs inp.prog (runsOf inp o pp l) m = .ok m' := by
  intro l
  induction l with
  | nil => intro m m'; simp [runScanner, runsOf, Types.scanPkgs]
  | cons p l ih =>
    intro m m'
    rw [runScanner_cons_none]
    change (_ ∧ (runScanner (typesScanner inp o pp) ((typesScanner inp o pp).scan (.ok m) p).1 l).1 = .ok m') ↔ _
    simp only [runsOf, List.map_cons, Types.scanPkgs]
    cases hs : Types.scanPkg inp.prog (pathOf inp.heap p) ((o.pointers p pp).map Prod.snd) m with
    | err e => simp [typesScanner, hs]
    | panic =>
      rw [show (typesScanner inp o pp).scan (.ok m) p = (.panic, none) by simp [typesScanner, hs], types_panic]
      simp
    | ok m1 =>
      rw [show (typesScanner inp o pp).scan (.ok m) p = (.ok m1, none) by simp [typesScanner, hs]]
      simp only [true_and]
      exact ih

/-- The same keys ask for the same objects. -/
theorem requested_same {o' : Orders} (ho : OrdersOK inp o) (ho' : OrdersOK inp o') {pp qq : Pointers} (hp : PtrOK pp) (hq : PtrOK qq)
    (hk : SameKeys pp qq) {l : List Nat} {pkg name : Str} {t : Types.GoType}
    (h : Requested inp.prog (runsOf inp o pp l) pkg name t) : Requested inp.prog (runsOf inp o' qq l) pkg name t := by
  obtain ⟨ptrs, h1, ptr, h2, h3, h4, h5, h6⟩ := h
  obtain ⟨p, hpl, e⟩ := List.mem_map.1 h1
  cases e
  obtain ⟨⟨k, ptr'⟩, h7, e⟩ := List.mem_map.1 h2
  change ptr' = ptr at e
  subst e
  have h7 := (ho.pointers p pp).mem_iff.1 h7
  obtain ⟨hk1, x, p₀, f, hx, hx2, hx3⟩ := hp.ok k ptr' h7
  obtain ⟨q, hqg⟩ := (hk k).1 ⟨ptr', (Pointers.get_eq_some hp.nodup).2 h7⟩
  obtain ⟨hk2, y, q₀, g, hy, hy2, hy3⟩ := hq.get hqg
  have hsame := Props.C07_equal_strings_same_target x y hx hy p₀ q₀ f g hx2 hy2 (by rw [← hx3, ← hy3, hk1, hk2])
  rw [← hx3, ← hy3] at hsame
  refine ⟨_, List.mem_map_of_mem (f := fun p => (pathOf inp.heap p, (o'.pointers p qq).map Prod.snd)) hpl, q, ?_, ?_, ?_, ?_, h6⟩
  · exact List.mem_map.2 ⟨(k, q), (ho'.pointers p qq).mem_iff.2 ((Pointers.get_eq_some hq.nodup).1 hqg), rfl⟩
  · rw [← hsame.1.1]; exact h3
  · rw [← hsame.2]; exact h4
  · rw [← hsame.1.2.2.2.2.2.2.2]; exact h5

/-! ### Commands -/

theorem mem_putKey {α : Type} {k : Str} {v : α} {e : Str × α} : ∀ {l : List (Str × α)}, e ∈ putKey k v l → e = (k, v) ∨ e ∈ l := by
  intro l
  induction l with
  | nil => intro h; simpa [putKey] using h
  | cons a t ih =>
    obtain ⟨k', v'⟩ := a
    intro h
    simp only [putKey] at h
    split at h
    · rcases List.mem_cons.1 h with h | h
      · exact .inl h
      · exact .inr (by simp [h])
    · rcases List.mem_cons.1 h with h | h
      · exact .inr (by simp [h])
      · exact (ih h).imp id fun h => by simp [h]

theorem cmds_mem : ∀ (l : List Nat) {st : List (Str × List Cmd)} {e : Str × List Cmd}, e ∈ (runScanner (cmdsScanner inp) st l).1 →
    e ∈ st ∨ ∃ p, Cmds.scan (pathOf inp.heap p) (inp.comments p) = .ok e.2 := by
  intro l
  induction l with
  | nil => intro st e h; exact .inl h
  | cons p l ih =>
    intro st e h
    rcases ih h with h | h
    · cases hs : Cmds.scan (pathOf inp.heap p) (inp.comments p) with
      | err x => simp only [cmdsScanner, hs] at h; exact .inl h
      | panic => simp only [cmdsScanner, hs] at h; exact .inl h
      | ok cs =>
        simp only [cmdsScanner, hs] at h
        rcases mem_putKey h with rfl | h
        · exact .inr ⟨p, hs⟩
        · exact .inl h
    · exact .inr h

theorem listPointers_nodup : ∀ (l : List Cmd) (m : Pointers), (m.map Prod.fst).Nodup → ((Cmds.listPointers l m).map Prod.fst).Nodup
  | [], _, h => h
  | .root _ :: t, m, h => listPointers_nodup t m h
  | .schema _ _ p :: t, m, h => listPointers_nodup t _ (put_keys _ p m h).1

theorem mapPointers_nodup : ∀ (l : List (Str × List Cmd)) (m : Pointers), (m.map Prod.fst).Nodup → ((Cmds.mapPointers l m).map Prod.fst).Nodup
  | [], _, h => h
  | (_, l) :: t, m, _ => mapPointers_nodup t _ (copyInto_nodup _ _ (copyInto_nodup _ _ (by simp)))

theorem mapPointers_ok {cmds : List (Str × List Cmd)} (h : ∀ pkg l args name p, (pkg, l) ∈ cmds → .schema args name p ∈ l → PlainPointer p) :
    PtrOK (Cmds.mapPointers cmds []) := by
  refine .of_get (mapPointers_nodup _ _ (by simp)) fun k p hp => ?_
  obtain ⟨h1, pkg, l, h2, args, name, h3⟩ := (Props.C48_pointers cmds k).1 p hp
  exact ⟨h1.symm, h pkg l args name p h2 h3⟩

theorem mapPointers_same {a b : List (Str × List Cmd)} (hp : a.Perm b) : SameKeys (Cmds.mapPointers a []) (Cmds.mapPointers b []) := by
  have key : ∀ {a b : List (Str × List Cmd)}, a.Perm b → ∀ k, (∃ p, Pointers.get k (Cmds.mapPointers a []) = some p) →
      ∃ p, Pointers.get k (Cmds.mapPointers b []) = some p := by
    rintro a b hp k ⟨p, h⟩
    obtain ⟨h1, pkg, l, h2, args, name, h3⟩ := (Props.C48_pointers a k).1 p h
    obtain ⟨q, hq, _⟩ := (Props.C48_pointers b k).2 pkg l args name p (hp.mem_iff.1 h2) h3
    exact ⟨q, by rw [h1]; exact hq⟩
  exact fun k => ⟨key hp k, key hp.symm k⟩

/-! ### Merging -/

theorem mapRefsO_keys (f : Str → Str) : ∀ (m : List (Str × Json)), (mapRefsO f m).map Prod.fst = m.map Prod.fst
  | [] => rfl
  | (k, v) :: t => by
    cases v <;> simp [mapRefsO, mapRefsO_keys f t]

theorem sorted_keys : ∀ {a b : Obj}, Obj.keys a = Obj.keys b → Obj.Sorted a → Obj.Sorted b
  | [], [], _, _ => trivial
  | [], _ :: _, h, _ => by simp [Obj.keys] at h
  | _ :: _, [], h, _ => by simp [Obj.keys] at h
  | (k, v) :: a, (k', v') :: b, h, hs => by
    simp only [Obj.keys, List.map_cons, List.cons.injEq] at h
    obtain ⟨rfl, h⟩ := h
    exact ⟨fun x hx => hs.1 x (by rw [show Obj.keys a = Obj.keys b from h]; exact hx), sorted_keys h hs.2⟩

mutual
theorem mapRefs_wf (f : Str → Str) : ∀ (j : Json), Json.WF j → Json.WF (mapRefs f j)
  | .obj m, h => by
    simp only [mapRefs]
    rw [Json.WF_obj] at h ⊢
    exact ⟨sorted_keys (mapRefsO_keys f m).symm h.1, mapRefsO_wf f m h.2⟩
  | .arr xs, h => by
    simp only [mapRefs, Json.WF] at h ⊢
    exact mapRefsA_wf f xs h
  | .str _, h => by simp [mapRefs, Json.WF]
  | .num _, h => by simp [mapRefs, Json.WF]
  | .bool _, h => by simp [mapRefs, Json.WF]
  | .null, h => by simp [mapRefs, Json.WF]
theorem mapRefsO_wf (f : Str → Str) : ∀ (m : List (Str × Json)), Json.WFO m → Json.WFO (mapRefsO f m)
  | [], _ => by simp [mapRefsO, Json.WFO]
  | (k, v) :: t, h => by
    simp only [Json.WFO] at h
    have h1 := mapRefs_wf f v h.1
    have h2 := mapRefsO_wf f t h.2
    cases v <;> simp_all [mapRefsO, Json.WFO, Json.WF]
theorem mapRefsA_wf (f : Str → Str) : ∀ (xs : List Json), Json.WFL xs → Json.WFL (mapRefsA f xs)
  | [], _ => by simp [mapRefsA, Json.WFL]
  | x :: t, h => by
    simp only [Json.WFL] at h
    simp only [mapRefsA, Json.WFL]
    exact ⟨mapRefs_wf f x h.1, mapRefsA_wf f t h.2⟩
end

/-- A document that can be merged. -/
def ObjDoc (f : File) : Prop := ∃ m, f.doc = .obj m ∧ Json.WF (.obj m)

theorem scanFiles_docs {ord : Nat → List (Str × Json) → List (Str × Json)} (hord : ∀ i l, Container.MapOrder l (ord i l))
    {pkg : Str} (hpkg : ∀ c ∈ pkg, ImportByte c) : ∀ (fs : List File) (i : Nat) {ps ps' : Pointers} {r : List File},
    (∀ f ∈ fs, existsP f.doc b!"openapi" = true → SpecFileOK f.doc) → PtrOK ps →
    scanFiles ord pkg i fs ps = .ok (r, ps') → ∀ f ∈ r, ObjDoc f := by
  intro fs
  induction fs with
  | nil => intro i ps ps' r _ hp h; cases h; simp
  | cons f t ih =>
    intro i ps ps' r hf hp h
    simp only [scanFiles] at h
    split at h
    · cases h
    · cases h
    · rename_i f' ps1 h1
      split at h
      · cases h
      · cases h
      · rename_i l ps2 h2
        cases h
        have hd : ∀ g ∈ f'.toList, ObjDoc g := by
          rcases scanFile_file h1 with ⟨_, e⟩ | ⟨ho, _⟩
          · cases e; simp
          · have hfo := hf f (by simp) ho
            obtain ⟨e, _⟩ := scanFile_spec (hord i) hpkg hfo ho hp h1
            obtain ⟨m, hm⟩ := hfo.object
            intro g hg
            rw [e] at hg
            simp only [Option.toList_some, List.mem_singleton] at hg
            subst hg
            refine ⟨mapRefsO (Props.newRef pkg) m, by simp only [hm, mapRefs], ?_⟩
            have := mapRefs_wf (Props.newRef pkg) f.doc hfo.wf
            rw [hm, mapRefs] at this
            exact this
        have hp1 := (scanFile_same (hord i) (hord i) hpkg (hf f (by simp)) hp hp (fun _ => Iff.rfl) h1).choose_spec.2.1
        intro g hg
        rcases List.mem_append.1 hg with hg | hg
        · exact hd g hg
        · exact ih (i + 1) (fun f h => hf f (by simp [h])) hp1 h2 g hg

theorem specs_docs (hi : InputOK inp) (ho : OrdersOK inp o) : ∀ (l : List Nat)
    {cc files : List File} {ps ps' : Pointers}, PtrOK ps → (∀ f ∈ cc, ObjDoc f) →
    (runScanner (specsScanner inp o) (.ok (cc, ps)) l).1 = .ok (files, ps') → ∀ f ∈ files, ObjDoc f := by
  intro l
  induction l with
  | nil =>
    intro cc files ps ps' hp hc h
    simp only [runScanner, Res.ok.injEq, Prod.mk.injEq] at h
    obtain ⟨rfl, rfl⟩ := h
    exact hc
  | cons p l ih =>
    intro cc files ps ps' hp hc h
    change (runScanner (specsScanner inp o) ((specsScanner inp o).scan (.ok (cc, ps)) p).1 l).1 = .ok (files, ps') at h
    cases hfs : inp.files p with
    | err e =>
      rw [show ((specsScanner inp o).scan (.ok (cc, ps)) p).1 = .ok (cc, ps) by simp [specsScanner, hfs]] at h
      exact ih hp hc h
    | panic =>
      rw [show ((specsScanner inp o).scan (.ok (cc, ps)) p).1 = .panic by simp [specsScanner, hfs], specs_panic] at h
      cases h
    | ok ff =>
      cases hs : scanFiles (o.refs p) (pathOf inp.heap p) 0 ff ps with
      | err e =>
        rw [show ((specsScanner inp o).scan (.ok (cc, ps)) p).1 = .ok (cc, ps) by simp [specsScanner, hfs, hs]] at h
        exact ih hp hc h
      | panic =>
        rw [show ((specsScanner inp o).scan (.ok (cc, ps)) p).1 = .panic by simp [specsScanner, hfs, hs], specs_panic] at h
        cases h
      | ok a =>
        obtain ⟨fl, ps1⟩ := a
        have hok := (scanFiles_same (ho.refs p) (ho.refs p) (path_bytes hi p) ff 0 (hi.files p ff hfs) hp hp (fun _ => Iff.rfl) hs).choose_spec.2.1
        have hdoc := scanFiles_docs (ho.refs p) (path_bytes hi p) ff 0 (hi.files p ff hfs) hp hs
        rw [show ((specsScanner inp o).scan (.ok (cc, ps)) p).1 = .ok (cc ++ fl, ps1) by simp [specsScanner, hfs, hs]] at h
        refine ih hok (fun f hf => ?_) h
        rcases List.mem_append.1 hf with hf | hf
        · exact hc f hf
        · exact hdoc f hf

theorem objDocs {l : List File} (h : ∀ f ∈ l, ObjDoc f) : ∃ cc : List Obj, l.map File.doc = cc.map Json.obj ∧ ∀ d ∈ cc, Json.WF (.obj d) := by
  induction l with
  | nil => exact ⟨[], rfl, by simp⟩
  | cons f t ih =>
    obtain ⟨cc, h1, h2⟩ := ih fun g hg => h g (by simp [hg])
    obtain ⟨m, hm, hw⟩ := h f (by simp)
    exact ⟨m :: cc, by simp [hm, h1], by simpa using ⟨hw, h2⟩⟩

theorem perm_objs {a b : List Obj} (h : (a.map Json.obj).Perm (b.map Json.obj)) : a.Perm b := by
  have := h.map fun j => match j with | .obj m => m | _ => []
  rw [List.map_map, List.map_map] at this
  simpa [Function.comp_def] using this

theorem sort_same {files a b : List File} (hd : ∀ f ∈ files, ObjDoc f) (ha : SortResult files a) (hb : SortResult files b) :
    mergeAll mergeStrict (a.map File.doc) = mergeAll mergeStrict (b.map File.doc) := by
  obtain ⟨x, hx, hxw⟩ := objDocs (l := a) fun f hf => hd f (ha.1.mem_iff.1 hf)
  obtain ⟨y, hy, hyw⟩ := objDocs (l := b) fun f hf => hd f (hb.1.mem_iff.1 hf)
  rw [hx, hy]
  refine Props.C19_strict_any_order (perm_objs ?_) hyw
  rw [← hx, ← hy]
  exact (ha.1.trans hb.1.symm).map _

/-! ### All stages -/

/-- What two preparations have in common. -/
structure SamePre (a b : Prepared) : Prop where
  doc : a.doc = b.doc
  exports : a.exports.Perm b.exports
  get : ∀ p, Resolver.get a.exports p = Resolver.get b.exports p
  points : Types.SamePoints a.points b.points

/-- The stages before the resolution in any other order. -/
theorem prepare_same {o' : Orders} (hi : InputOK inp) (ho : OrdersOK inp o) (ho' : OrdersOK inp o') {pre : Prepared} (h : prepare inp o = .ok pre) :
    ∃ pre', prepare inp o' = .ok pre' ∧ SamePre pre pre' := by
  obtain ⟨roots, cmds, files, ps, c, h1, h2, h3, h4, h5, h6, h7⟩ := prepare_ok h
  have hg := hi.graph roots h1
  have h2' : walk inp o'.heap₁ roots (cmdsScanner inp) [] = .ok cmds := by
    rw [walk_iff hg ho'.heap₁]; exact (walk_iff hg ho.heap₁ _ _ _).1 h2
  obtain ⟨exp', h3', hperm, hget⟩ := Props.C48_order_independent _ _ ((ho.exports cmds).trans (ho'.exports cmds).symm) _ h3
  obtain ⟨hcl, hn4, hr4⟩ := (walk_iff hg ho.heap₂ _ _ _).1 h4
  obtain ⟨qs, hn4', hr4', hps, hqs, hk⟩ := specs_same hi ho ho' _ .nil .nil (fun _ => Iff.rfl) hn4 hr4
  have h4' : walk inp o'.heap₂ roots (specsScanner inp o') (.ok ([], [])) = .ok (.ok (files, qs)) := by
    exact (walk_iff hg ho'.heap₂ _ _ _).2 ⟨hcl, hn4', hr4'⟩
  have hdocs := specs_docs hi ho _ .nil (by simp) hr4
  have h5' : mergeAll mergeStrict ((o'.sort files).map File.doc) = .ok c := by
    rw [← sort_same hdocs (ho.sort files) (ho'.sort files)]; exact h5
  have hcp : ∀ (x : List (Str × List Cmd)), x.Perm cmds → PtrOK (Cmds.mapPointers x []) := by
    intro x hx
    refine mapPointers_ok fun pkg l args name p hm hs => ?_
    have hm := hx.mem_iff.1 hm
    rw [← ((walk_iff hg ho.heap₁ _ _ _).1 h2).2.2] at hm
    rcases cmds_mem _ hm with hm | ⟨q, hq⟩
    · cases hm
    · exact hi.commands q l hq args name p hs
  have hpp := merge_ok (merge_ok .nil (hcp _ (ho.commands cmds))) hps
  have hqq := merge_ok (merge_ok .nil (hcp _ (ho'.commands cmds))) hqs
  have hkk := merge_same (merge_ok .nil (hcp _ (ho.commands cmds))) hps (merge_ok .nil (hcp _ (ho'.commands cmds))) hqs
    (merge_same .nil (hcp _ (ho.commands cmds)) .nil (hcp _ (ho'.commands cmds)) (fun _ => Iff.rfl)
      (mapPointers_same ((ho.commands cmds).trans (ho'.commands cmds).symm))) hk
  obtain ⟨_, h6a⟩ := (walk_iff hg ho.heap₃ _ _ _).1 h6
  obtain ⟨m', hm', hsame⟩ := Types.scan_same hi.prog (fun pkg name t => ⟨requested_same ho ho' hpp hqq hkk,
    requested_same ho' ho hqq hpp (fun k => (hkk k).symm)⟩) ((types_runs _).1 h6a)
  have h6' := (walk_iff hg ho'.heap₃ (typesScanner inp o' (Pointers.merge (Pointers.merge [] (Cmds.mapPointers (o'.commands cmds) [])) qs))
    (.ok []) (.ok m')).2 ⟨hcl, (types_runs _).2 hm'⟩
  refine ⟨⟨exp', pre.doc, m'⟩, ?_, rfl, hperm, hget, hsame⟩
  unfold prepare
  simp only [h1, bind, Res.bind, h2', h3', h4', flat, h5', h6', h7]
  rfl

end Oapi.Scan
