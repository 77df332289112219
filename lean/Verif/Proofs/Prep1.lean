import Verif.Proofs.Det13
import Verif.Spec.Prepare

/-! The stages before the resolution, in terms of the input. -/
namespace Oapi.Scan
open Spec Container Cmds

variable {F : Type} {inp : Input F} {o : Orders}

theorem plan_mem {std : Str → Bool} {heap : Pkgs.Heap} {roots : List Nat} (hg : GraphOK heap roots) (q : Nat) :
    q ∈ plan std heap roots ↔ ∃ p ∈ roots, PkgReach std heap p q := by
  obtain ⟨s, e, h⟩ := Props.C49_terminates std heap idle () roots hg
  rw [← scanned_plan h]
  exact Props.C49_scans_reachable hg h q

theorem plan_nodup {std : Str → Bool} {heap : Pkgs.Heap} {roots : List Nat} (hg : GraphOK heap roots) : (plan std heap roots).Nodup := by
  obtain ⟨s, e, h⟩ := Props.C49_terminates std heap idle () roots hg
  rw [← scanned_plan h]
  exact Props.C49_scans_once hg h

/-! ### Commands -/

theorem putKey_new {α : Type} {k : Str} {v : α} : ∀ {l : List (Str × α)}, k ∉ l.map Prod.fst → putKey k v l = l ++ [(k, v)] := by
  intro l
  induction l with
  | nil => intro _; rfl
  | cons a t ih =>
    obtain ⟨k', v'⟩ := a
    intro h
    simp only [List.map_cons, List.mem_cons, not_or] at h
    simp only [putKey]
    rw [if_neg h.1, ih h.2]
    rfl

theorem parseAll_no_panic (pkg : Str) : ∀ l, Cmds.parseAll pkg l ≠ .panic
  | [], h => by cases h
  | c :: t, h => by
    simp only [Cmds.parseAll] at h
    split at h
    · cases h
    · rename_i hp; exact Props.parse_no_panic pkg c hp
    · split at h
      · cases h
      · rename_i hp; exact parseAll_no_panic pkg t hp
      · cases h

/-- The commands of a package. -/
def cmdsOf (inp : Input F) (p : Nat) : List Cmd :=
  match Cmds.scan (pathOf inp.heap p) (inp.comments p) with
  | .ok cs => cs
  | _ => []

theorem cmds_none : ∀ (l : List Nat) (st : List (Str × List Cmd)),
    (∀ x ∈ (runScanner (cmdsScanner inp) st l).2, x = none) ↔ ∀ p ∈ l, ∃ cs, Cmds.scan (pathOf inp.heap p) (inp.comments p) = .ok cs := by
  intro l
  induction l with
  | nil => intro st; simp [runScanner]
  | cons p l ih =>
    intro st
    rw [runScanner_cons_none, ih, List.forall_mem_cons]
    refine and_congr ?_ Iff.rfl
    cases hs : Cmds.scan (pathOf inp.heap p) (inp.comments p) with
    | ok cs => simp [cmdsScanner, hs]
    | err e => simp [cmdsScanner, hs]
    | panic => exact absurd hs (parseAll_no_panic _ _)

theorem cmds_result : ∀ (l : List Nat) (st : List (Str × List Cmd)), l.Nodup → (∀ p ∈ l, ∀ q ∈ l, pathOf inp.heap p = pathOf inp.heap q → p = q) →
    (∀ p ∈ l, pathOf inp.heap p ∉ st.map Prod.fst) → (∀ p ∈ l, ∃ cs, Cmds.scan (pathOf inp.heap p) (inp.comments p) = .ok cs) →
    (runScanner (cmdsScanner inp) st l).1 = st ++ l.map fun p => (pathOf inp.heap p, cmdsOf inp p) := by
  intro l
  induction l with
  | nil => intro st _ _ _ _; simp [runScanner]
  | cons p l ih =>
    intro st hn hd hst hok
    obtain ⟨cs, hcs⟩ := hok p (by simp)
    change (runScanner (cmdsScanner inp) ((cmdsScanner inp).scan st p).1 l).1 = _
    rw [show ((cmdsScanner inp).scan st p).1 = st ++ [(pathOf inp.heap p, cs)] by
      simp only [cmdsScanner, hcs]; exact putKey_new (hst p (by simp))]
    rw [ih _ (List.nodup_cons.1 hn).2 (fun a ha b hb => hd a (by simp [ha]) b (by simp [hb])) ?_ (fun a ha => hok a (by simp [ha]))]
    · simp [cmdsOf, hcs]
    · intro q hq
      rw [List.map_append, List.mem_append, not_or]
      refine ⟨hst q (by simp [hq]), ?_⟩
      simp only [List.map_cons, List.map_nil, List.mem_singleton]
      intro e
      have := hd q (by simp [hq]) p (by simp) e
      subst this
      exact (List.nodup_cons.1 hn).1 hq

/-! ### Specifications -/

/-- The specifications among files, with their references made absolute. -/
def kept (pkg : Str) (fs : List File) : List File :=
  (fs.filter fun f => existsP f.doc b!"openapi").map fun f => { f with doc := mapRefs (Props.newRef pkg) f.doc }

/-- All references of a specification can be read. -/
def RefsRead (d : Json) : Prop := ∀ x, HasRef d x → ∃ p, Pointer.parse x = .ok p

theorem scanFile_no_panic {ord : List (Str × Json) → List (Str × Json)} {pkg : Str} {f : File} {ps : Pointers}
    (hf : existsP f.doc b!"openapi" = true → SpecFileOK f.doc) : scanFile ord pkg f ps ≠ .panic := by
  intro h'
  unfold scanFile at h'
  split at h'
  · cases h'
  · rename_i he
    have hf := hf (by simpa using he)
    obtain ⟨m, hm⟩ := hf.object
    have hsc : scalar f.doc = false := by rw [hm]; rfl
    split at h'
    · cases h'
    · rename_i hp
      have := (Props.C14_extractKey_fails_iff f.doc b!"$ref").1 (by rw [hp]; simp)
      rw [hsc] at this; cases this
    · split at h'
      · cases h'
      · cases h'
      · rename_i hp; exact Specs.scanRefs_no_panic _ _ _ _ hp

/-- A file is scanned well exactly if it is not a specification or its references can be read. -/
theorem scanFile_iff {ord : List (Str × Json) → List (Str × Json)} (hord : ∀ l, Container.MapOrder l (ord l)) {pkg : Str} {f : File} {ps : Pointers}
    (hf : existsP f.doc b!"openapi" = true → SpecFileOK f.doc) :
    (∃ r, scanFile ord pkg f ps = .ok r) ↔ (existsP f.doc b!"openapi" = true → RefsRead f.doc) := by
  by_cases he : existsP f.doc b!"openapi" = true
  · have hf' := hf he
    obtain ⟨m, hm⟩ := hf'.object
    have hsc : scalar f.doc = false := by rw [hm]; rfl
    have hi := Props.C08_scan_file_fails_iff pkg f.doc ps hf'.wf hf'.routed he hsc _ (scanFile_rel hord (pkg := pkg) (f := f) (ps := ps))
    constructor
    · rintro ⟨r, hr⟩ _ x hx
      apply Classical.byContradiction
      intro hno
      obtain ⟨e, hee⟩ := hi.2 ⟨x, hx, fun p hp => hno ⟨p, hp⟩⟩
      rw [hr] at hee
      cases hee
    · intro h
      cases hr : scanFile ord pkg f ps with
      | ok r => exact ⟨r, rfl⟩
      | panic => exact absurd hr (scanFile_no_panic hf)
      | err e =>
        rw [hr] at hi
        obtain ⟨x, hx, hno⟩ := hi.1 ⟨e, rfl⟩
        obtain ⟨p, hp⟩ := h he x hx
        exact absurd hp (hno p)
  · constructor
    · intro _ h; exact absurd h he
    · intro _
      have ho : existsP f.doc b!"openapi" = false := by simpa using he
      unfold scanFile
      rw [if_pos ho]
      exact ⟨_, rfl⟩

/-- Where a registered pointer comes from. -/
theorem scanFile_from {ord : List (Str × Json) → List (Str × Json)} (hord : ∀ l, Container.MapOrder l (ord l)) {pkg : Str} {f : File} {ps ps' : Pointers}
    {r : Option File} (hf : existsP f.doc b!"openapi" = true → SpecFileOK f.doc) (h : scanFile ord pkg f ps = .ok (r, ps')) {k : Str} {p : Pointer}
    (hp : Pointers.get k ps' = some p) :
    Pointers.get k ps = some p ∨ existsP f.doc b!"openapi" = true ∧ ∃ x, HasRef f.doc x ∧ Specs.rewriteRef pkg x = .ok p := by
  by_cases he : existsP f.doc b!"openapi" = true
  · have hf' := hf he
    have hrel := scanFile_rel hord (pkg := pkg) (f := f) (ps := ps)
    rcases scanFile_file h with ⟨e, _⟩ | ⟨_, d, hd⟩
    · rw [he] at e; cases e
    rw [h] at hrel
    cases hd
    obtain ⟨_, h2, _, _⟩ := Props.C08_scan_file pkg f.doc d ps ps' hf'.wf hf'.routed hrel
    rcases h2 k p hp with hq | ⟨x, hx, hr, _⟩
    · exact .inl hq
    · exact .inr ⟨he, x, hx, hr⟩
  · rcases scanFile_file h with ⟨_, e⟩ | ⟨e, _⟩
    · cases e; exact .inl hp
    · exact absurd e he

/-- What the scan of the files of a package gives, if it ends well. -/
structure Gives (pkg : Str) (fs : List File) (ps ps' : Pointers) : Prop where
  ok : PtrOK ps'
  keys : ∀ k, (∃ p, Pointers.get k ps' = some p) ↔
    (∃ p, Pointers.get k ps = some p) ∨ ∃ f ∈ fs, existsP f.doc b!"openapi" = true ∧ ∃ x, HasRef f.doc x ∧ Props.newRef pkg x = k
  «from» : ∀ k p, Pointers.get k ps' = some p → Pointers.get k ps = some p ∨
    ∃ f ∈ fs, existsP f.doc b!"openapi" = true ∧ ∃ x, HasRef f.doc x ∧ Specs.rewriteRef pkg x = .ok p

theorem scanFiles_gives {ord : Nat → List (Str × Json) → List (Str × Json)} (hord : ∀ i l, Container.MapOrder l (ord i l)) {pkg : Str}
    (hpkg : ∀ c ∈ pkg, ImportByte c) : ∀ (fs : List File) (i : Nat) {ps : Pointers},
    (∀ f ∈ fs, existsP f.doc b!"openapi" = true → SpecFileOK f.doc) → PtrOK ps →
    (scanFiles ord pkg i fs ps ≠ .panic) ∧
    ((∃ r, scanFiles ord pkg i fs ps = .ok r) ↔ ∀ f ∈ fs, existsP f.doc b!"openapi" = true → RefsRead f.doc) ∧
    ∀ r ps', scanFiles ord pkg i fs ps = .ok (r, ps') → r = kept pkg fs ∧ Gives pkg fs ps ps' := by
  intro fs
  induction fs with
  | nil =>
    intro i ps _ hp
    refine ⟨by simp [scanFiles], by simp [scanFiles], ?_⟩
    intro r ps' h
    cases h
    exact ⟨rfl, hp, by simp, fun k p h => .inl h⟩
  | cons f t ih =>
    intro i ps hf hp
    have hiff := scanFile_iff (hord i) (pkg := pkg) (f := f) (ps := ps) (hf f (by simp))
    simp only [scanFiles]
    cases h1 : scanFile (ord i) pkg f ps with
    | panic => exact absurd h1 (scanFile_no_panic (hf f (by simp)))
    | err e =>
      refine ⟨by simp, ?_, by simp⟩
      constructor
      · rintro ⟨r, hr⟩; cases hr
      · intro h
        obtain ⟨r, hr⟩ := hiff.2 (h f (by simp))
        rw [h1] at hr; cases hr
    | ok a =>
      obtain ⟨f', ps1⟩ := a
      have hp1 := (scanFile_same (hord i) (hord i) hpkg (hf f (by simp)) hp hp (fun _ => Iff.rfl) h1).choose_spec.2.1
      obtain ⟨k1, k2, k3⟩ := ih (i + 1) (ps := ps1) (fun f h => hf f (by simp [h])) hp1
      simp only
      cases h2 : scanFiles ord pkg (i + 1) t ps1 with
      | panic => exact absurd h2 k1
      | err e =>
        refine ⟨by simp, ?_, by simp⟩
        constructor
        · rintro ⟨r, hr⟩; cases hr
        · intro h
          obtain ⟨r, hr⟩ := k2.2 (fun f hf => h f (by simp [hf]))
          rw [h2] at hr; cases hr
      | ok b =>
        obtain ⟨l, ps2⟩ := b
        obtain ⟨e1, e2, e3, e4⟩ := k3 l ps2 h2
        refine ⟨by simp, ?_, ?_⟩
        · constructor
          · intro _ g hg
            rcases List.mem_cons.1 hg with rfl | hg
            · exact hiff.1 ⟨_, h1⟩
            · exact k2.1 ⟨_, h2⟩ g hg
          · intro _; exact ⟨_, rfl⟩
        · intro r ps' h
          cases h
          by_cases he : existsP f.doc b!"openapi" = true
          · obtain ⟨m1, m2, m3⟩ := scanFile_spec (hord i) hpkg (hf f (by simp) he) he hp h1
            refine ⟨?_, e2, ?_, ?_⟩
            · rw [m1, e1]; simp [kept, he]
            · intro k
              rw [e3, m3]
              constructor
              · rintro ((h | ⟨x, hx, e⟩) | ⟨g, hg, h⟩)
                · exact .inl h
                · exact .inr ⟨f, by simp, he, x, hx, e⟩
                · exact .inr ⟨g, by simp [hg], h⟩
              · rintro (h | ⟨g, hg, h⟩)
                · exact .inl (.inl h)
                · rcases List.mem_cons.1 hg with rfl | hg
                  · exact .inl (.inr h.2)
                  · exact .inr ⟨g, hg, h⟩
            · intro k p hk
              rcases e4 k p hk with hk | ⟨g, hg, h⟩
              · rcases scanFile_from (hord i) (hf f (by simp)) h1 hk with h | h
                · exact .inl h
                · exact .inr ⟨f, by simp, h⟩
              · exact .inr ⟨g, by simp [hg], h⟩
          · rcases scanFile_file h1 with ⟨_, e⟩ | ⟨e, _⟩
            · cases e
              refine ⟨?_, e2, ?_, ?_⟩
              · rw [e1]; simp [kept, he]
              · intro k
                rw [e3]
                constructor
                · rintro (h | ⟨g, hg, h⟩)
                  · exact .inl h
                  · exact .inr ⟨g, by simp [hg], h⟩
                · rintro (h | ⟨g, hg, h⟩)
                  · exact .inl h
                  · rcases List.mem_cons.1 hg with rfl | hg
                    · exact absurd h.1 he
                    · exact .inr ⟨g, hg, h⟩
              · intro k p hk
                rcases e4 k p hk with hk | ⟨g, hg, h⟩
                · exact .inl hk
                · exact .inr ⟨g, by simp [hg], h⟩
            · exact absurd e he

/-- The files of a package. -/
def filesOf (inp : Input F) (p : Nat) : List File :=
  match inp.files p with
  | .ok fs => fs
  | _ => []

/-- Reading the specifications of packages ends well exactly if the files can be read and all their references, and then gives all of them. -/
theorem specs_gives (hi : InputOK inp) (ho : OrdersOK inp o) : ∀ (l : List Nat) {cc : List File} {ps : Pointers}, PtrOK ps →
    (((∀ x ∈ (runScanner (specsScanner inp o) (.ok (cc, ps)) l).2, x = none) ∧ ∃ r, (runScanner (specsScanner inp o) (.ok (cc, ps)) l).1 = .ok r) ↔
      ∀ p ∈ l, ∃ fs, inp.files p = .ok fs ∧ ∀ f ∈ fs, existsP f.doc b!"openapi" = true → RefsRead f.doc) ∧
    ((∀ x ∈ (runScanner (specsScanner inp o) (.ok (cc, ps)) l).2, x = none) → ∀ files ps',
      (runScanner (specsScanner inp o) (.ok (cc, ps)) l).1 = .ok (files, ps') →
      files = cc ++ l.flatMap (fun p => kept (pathOf inp.heap p) (filesOf inp p)) ∧ PtrOK ps' ∧
      (∀ k, (∃ p, Pointers.get k ps' = some p) ↔ (∃ p, Pointers.get k ps = some p) ∨
        ∃ p ∈ l, ∃ f ∈ filesOf inp p, existsP f.doc b!"openapi" = true ∧ ∃ x, HasRef f.doc x ∧ Props.newRef (pathOf inp.heap p) x = k) ∧
      ∀ k q, Pointers.get k ps' = some q → Pointers.get k ps = some q ∨
        ∃ p ∈ l, ∃ f ∈ filesOf inp p, existsP f.doc b!"openapi" = true ∧ ∃ x, HasRef f.doc x ∧ Specs.rewriteRef (pathOf inp.heap p) x = .ok q) := by
  intro l
  induction l with
  | nil =>
    intro cc ps hp
    refine ⟨by simp [runScanner], ?_⟩
    intro _ files ps' h
    simp only [runScanner, Res.ok.injEq, Prod.mk.injEq] at h
    obtain ⟨rfl, rfl⟩ := h
    exact ⟨by simp, hp, by simp, fun k q h => .inl h⟩
  | cons p l ih =>
    intro cc ps hp
    rw [runScanner_cons_none, List.forall_mem_cons]
    change ((_ ∧ ∃ r, (runScanner (specsScanner inp o) ((specsScanner inp o).scan (.ok (cc, ps)) p).1 l).1 = .ok r) ↔ _) ∧
      (_ → ∀ files ps', (runScanner (specsScanner inp o) ((specsScanner inp o).scan (.ok (cc, ps)) p).1 l).1 = .ok (files, ps') → _)
    cases hfs : inp.files p with
    | err e =>
      have es : (specsScanner inp o).scan (.ok (cc, ps)) p = (.ok (cc, ps), some (inp.msg e)) := by simp [specsScanner, hfs]
      rw [es]
      simp
    | panic =>
      rw [show (specsScanner inp o).scan (.ok (cc, ps)) p = (.panic, none) by simp [specsScanner, hfs], specs_panic]
      simp
    | ok ff =>
      obtain ⟨k1, k2, k3⟩ := scanFiles_gives (ho.refs p) (path_bytes hi p) ff 0 (hi.files p ff hfs) hp
      cases hs : scanFiles (o.refs p) (pathOf inp.heap p) 0 ff ps with
      | panic => exact absurd hs k1
      | err e =>
        have es : (specsScanner inp o).scan (.ok (cc, ps)) p = (.ok (cc, ps), some (inp.msg e)) := by simp [specsScanner, hfs, hs]
        rw [es]
        refine ⟨?_, by simp⟩
        constructor
        · rintro ⟨⟨h, _⟩, _⟩; cases h
        · rintro ⟨⟨fs, e1, h⟩, _⟩
          cases e1
          obtain ⟨r, hr⟩ := k2.2 h
          rw [hs] at hr; cases hr
      | ok a =>
        obtain ⟨fl, ps1⟩ := a
        have es : (specsScanner inp o).scan (.ok (cc, ps)) p = (.ok (cc ++ fl, ps1), none) := by simp [specsScanner, hfs, hs]
        obtain ⟨e1, e2, e3, e4⟩ := k3 fl ps1 hs
        obtain ⟨j1, j2⟩ := ih (cc := cc ++ fl) e2
        rw [es]
        simp only [true_and]
        refine ⟨?_, ?_⟩
        · rw [j1]
          exact ⟨fun h => ⟨⟨ff, rfl, k2.1 ⟨_, hs⟩⟩, h⟩, fun h => h.2⟩
        · intro hn files ps' h
          obtain ⟨m1, m2, m3, m4⟩ := j2 hn files ps' h
          have hff : filesOf inp p = ff := by simp [filesOf, hfs]
          refine ⟨?_, m2, ?_, ?_⟩
          · rw [m1, e1]; simp [hff]
          · intro k
            rw [m3, e3]
            constructor
            · rintro ((h | ⟨f, hf, h⟩) | ⟨q, hq, h⟩)
              · exact .inl h
              · exact .inr ⟨p, by simp, f, hff ▸ hf, h⟩
              · exact .inr ⟨q, by simp [hq], h⟩
            · rintro (h | ⟨q, hq, h⟩)
              · exact .inl (.inl h)
              · rcases List.mem_cons.1 hq with rfl | hq
                · obtain ⟨f, hf, h⟩ := h
                  exact .inl (.inr ⟨f, hff ▸ hf, h⟩)
                · exact .inr ⟨q, hq, h⟩
          · intro k q hk
            rcases m4 k q hk with hk | ⟨q, hq, h⟩
            · rcases e4 k q hk with h | ⟨f, hf, h⟩
              · exact .inl h
              · exact .inr ⟨p, by simp, f, hff ▸ hf, h⟩
            · exact .inr ⟨q, by simp [hq], h⟩

end Oapi.Scan
