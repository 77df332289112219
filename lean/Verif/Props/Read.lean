import Verif.Proofs.Read
import Verif.Props.Prepare

/-! C80–C84: reading files. -/
namespace Oapi.Props
open Spec
open Read (FS Yaml Key readFile readDir mmap pkgDir pkgFiles Module specPatterns defaultPatterns)
open Container (File)

variable {fs : FS} {dir : Str} {l : List File}

/-! ### C81: one file -/

/-- C81: a file whose name ends with `.yaml` or `.yml` is read as YAML … -/
theorem C81_yaml {p n : Str} (hn : LastElem p n) (he : EndsWith n b!".yaml" ∨ EndsWith n b!".yml") (f : File) :
    readFile fs p = .ok f ↔ f.path = p ∧ ∃ data m, fs.content p = some data ∧ fs.yaml data = some m ∧
      f.doc = mmap fs.sprintOther (topMap m) := by
  have h : Read.ext p = b!".yaml" ∨ Read.ext p = b!".yml" :=
    he.imp (Read.ext_iff hn (by decide)).2 (Read.ext_iff hn (by decide)).2
  unfold readFile
  cases hc : fs.content p with
  | none => simp
  | some data =>
    simp only [h, if_true, Read.readYAML]
    cases hy : fs.yaml data with
    | none => simp [hy]
    | some m =>
      obtain ⟨fp, fd⟩ := f
      simp only [hy, Res.ok.injEq, File.mk.injEq, Option.some.injEq, topMap, Read.mmap]
      constructor
      · rintro ⟨rfl, rfl⟩; exact ⟨rfl, data, m, rfl, hy, rfl⟩
      · rintro ⟨rfl, _, m', rfl, hy', rfl⟩
        rw [hy] at hy'; injection hy' with hy'
        subst hy'
        exact ⟨rfl, rfl⟩

/-- C81: … one whose name ends with `.json` as JSON … -/
theorem C81_json {p n : Str} (hn : LastElem p n) (he : EndsWith n b!".json") (f : File) :
    readFile fs p = .ok f ↔ f.path = p ∧ ∃ data m, fs.content p = some data ∧ fs.json data = some m ∧ f.doc = .obj m := by
  have h : Read.ext p = b!".json" := (Read.ext_iff hn (by decide)).2 he
  unfold readFile
  cases hc : fs.content p with
  | none => simp
  | some data =>
    simp only [h, Read.readJSON, if_neg (show ¬ (b!".json" = b!".yaml" ∨ b!".json" = b!".yml") by decide), if_true]
    cases hy : fs.json data with
    | none => simp [hy]
    | some m =>
      obtain ⟨fp, fd⟩ := f
      simp only [hy, Res.ok.injEq, File.mk.injEq, Option.some.injEq]
      constructor
      · rintro ⟨rfl, rfl⟩; exact ⟨rfl, data, m, rfl, hy, rfl⟩
      · rintro ⟨rfl, _, m', rfl, hy', rfl⟩
        rw [hy] at hy'; injection hy' with hy'
        subst hy'
        exact ⟨rfl, rfl⟩

/-- C81: … and no other file can be read. -/
theorem C81_else_error {p n : Str} (hn : LastElem p n) (h1 : ¬ EndsWith n b!".yaml") (h2 : ¬ EndsWith n b!".yml") (h3 : ¬ EndsWith n b!".json") :
    ∃ e, readFile fs p = .err e := by
  have h1 : Read.ext p ≠ b!".yaml" := fun h => h1 ((Read.ext_iff hn (by decide)).1 h)
  have h2 : Read.ext p ≠ b!".yml" := fun h => h2 ((Read.ext_iff hn (by decide)).1 h)
  have h3 : Read.ext p ≠ b!".json" := fun h => h3 ((Read.ext_iff hn (by decide)).1 h)
  unfold readFile
  cases fs.content p with
  | none => exact ⟨_, rfl⟩
  | some data => simp only [h1, h2, h3, or_self, if_false]; exact ⟨_, rfl⟩

/-- C81: reading ends with a document that is an object, or with an error. -/
theorem C81_object_or_error (p : Str) : (∃ o, readFile fs p = .ok ⟨p, .obj o⟩) ∨ ∃ e, readFile fs p = .err e := by
  unfold readFile
  cases fs.content p with
  | none => exact .inr ⟨_, rfl⟩
  | some data =>
    simp only
    split
    · rename_i d h
      split at h
      · rw [Read.readYAML] at h
        split at h
        · cases h
        · injection h with h; subst h; exact .inl ⟨_, rfl⟩
      · split at h
        · rw [Read.readJSON] at h
          split at h
          · cases h
          · injection h with h; subst h; exact .inl ⟨_, rfl⟩
        · cases h
    · exact .inr ⟨_, rfl⟩
    · rename_i h
      split at h
      · rw [Read.readYAML] at h; split at h <;> cases h
      · split at h
        · rw [Read.readJSON] at h; split at h <;> cases h
        · cases h

/-! ### C80: directories -/

theorem readAll_iff (ps : List Str) : Read.readAll fs ps = .ok l ↔ l.map File.path = ps ∧ ∀ f ∈ l, readFile fs f.path = .ok f := by
  induction ps generalizing l with
  | nil =>
    simp only [Read.readAll, Res.ok.injEq, List.map_eq_nil_iff]
    constructor
    · rintro rfl; simp
    · rintro ⟨rfl, _⟩; rfl
  | cons p t ih =>
    rw [Read.readAll]
    rcases C81_object_or_error (fs := fs) p with ⟨o, h⟩ | ⟨e, h⟩
    · rw [h]
      simp only
      cases ht : Read.readAll fs t with
      | ok l' =>
        simp only [Res.ok.injEq]
        constructor
        · rintro rfl
          obtain ⟨h1, h2⟩ := ih.1 ht
          refine ⟨by simp [h1], ?_⟩
          intro f hf
          rcases List.mem_cons.1 hf with rfl | hf
          · exact h
          · exact h2 f hf
        · rintro ⟨h1, h2⟩
          cases l with
          | nil => cases h1
          | cons f l =>
            injection h1 with h1 h1'
            have hf := h2 f (by simp)
            rw [h1, h] at hf; injection hf with hf
            have := ih.2 ⟨h1', fun g hg => h2 g (by simp [hg])⟩
            rw [ht] at this; injection this with this
            rw [hf, this]
      | err e =>
        simp only [reduceCtorEq, false_iff]
        rintro ⟨h1, h2⟩
        cases l with
        | nil => cases h1
        | cons f l =>
          injection h1 with h1 h1'
          have := ih.2 ⟨h1', fun g hg => h2 g (by simp [hg])⟩
          rw [ht] at this; cases this
      | panic =>
        simp only [reduceCtorEq, false_iff]
        rintro ⟨h1, h2⟩
        cases l with
        | nil => cases h1
        | cons f l =>
          injection h1 with h1 h1'
          have := ih.2 ⟨h1', fun g hg => h2 g (by simp [hg])⟩
          rw [ht] at this; cases this
    · rw [h]
      simp only [reduceCtorEq, false_iff]
      rintro ⟨h1, h2⟩
      cases l with
      | nil => cases h1
      | cons f l =>
        injection h1 with h1 h1'
        have hf := h2 f (by simp)
        rw [h1, h] at hf; cases hf

theorem readAll_err (ps : List Str) : (∃ e, Read.readAll fs ps = .err e) ↔ ∃ p ∈ ps, ∃ e, readFile fs p = .err e := by
  induction ps with
  | nil => simp [Read.readAll]
  | cons p t ih =>
    rw [Read.readAll]
    rcases C81_object_or_error (fs := fs) p with ⟨o, h⟩ | ⟨e, h⟩
    · rw [h]
      simp only
      cases ht : Read.readAll fs t with
      | ok l' =>
        simp only [reduceCtorEq, exists_false, false_iff]
        rintro ⟨q, hq, e, he⟩
        rcases List.mem_cons.1 hq with rfl | hq
        · rw [h] at he; cases he
        · obtain ⟨e', he'⟩ := ih.2 ⟨q, hq, e, he⟩
          rw [ht] at he'; cases he'
      | err e =>
        obtain ⟨q, hq, hq'⟩ := ih.1 ⟨e, ht⟩
        exact ⟨fun _ => ⟨q, by simp [hq], hq'⟩, fun _ => ⟨e, rfl⟩⟩
      | panic =>
        simp only [reduceCtorEq, exists_false, false_iff]
        rintro ⟨q, hq, e, he⟩
        rcases List.mem_cons.1 hq with rfl | hq
        · rw [h] at he; cases he
        · obtain ⟨e', he'⟩ := ih.2 ⟨q, hq, e, he⟩
          rw [ht] at he'; cases he'
    · rw [h]; exact ⟨fun _ => ⟨p, by simp, e, h⟩, fun _ => ⟨e, rfl⟩⟩

theorem readAll_total (ps : List Str) : (∃ l, Read.readAll fs ps = .ok l) ∨ ∃ e, Read.readAll fs ps = .err e := by
  induction ps with
  | nil => exact .inl ⟨[], rfl⟩
  | cons p t ih =>
    rw [Read.readAll]
    rcases C81_object_or_error (fs := fs) p with ⟨o, h⟩ | ⟨e, h⟩
    · rw [h]
      rcases ih with ⟨l, h'⟩ | ⟨e, h'⟩
      · rw [h']; exact .inl ⟨_, rfl⟩
      · rw [h']; exact .inr ⟨_, rfl⟩
    · rw [h]; exact .inr ⟨_, rfl⟩

/-- The specification files that are in a directory, in the order of `specNames`. -/
def presentSpecs (fs : FS) (dir : Str) : List Str := (specNames.filter fun n => fs.lstat (dir ++ b!"/" ++ n)).map fun n => dir ++ b!"/" ++ n

theorem specName_ok {n : Str} (h : n ∈ specNames) : FileName n ∧ NoPattern n := by
  simp only [specNames, List.mem_cons, List.not_mem_nil, or_false] at h
  rcases h with rfl | rfl | rfl
  all_goals exact ⟨⟨by decide, by decide, by decide, by decide⟩, by unfold NoPattern; decide⟩

theorem readDir_specs (hd : PlainDir dir) (hp : NoPattern dir) : readDir fs dir specPatterns = Read.readAll fs (presentSpecs fs dir) := by
  have key : ∀ ns : List Str, (∀ n ∈ ns, FileName n ∧ NoPattern n) →
      Read.globAll fs dir ns = .ok ((ns.filter fun n => fs.lstat (dir ++ b!"/" ++ n)).map fun n => dir ++ b!"/" ++ n) := by
    intro ns
    induction ns with
    | nil => intro _; rfl
    | cons n t ih =>
      intro h
      rw [Read.globAll, Read.glob_plain hd hp (h n (by simp)).1 (h n (by simp)).2, ih fun x hx => h x (by simp [hx])]
      have e : dir ++ b!"/" ++ n = dir ++ 47 :: n := by simp [show b!"/" = [47] from rfl]
      simp only
      by_cases hl : fs.lstat (dir ++ 47 :: n) = true
      · rw [if_pos hl, List.filter_cons_of_pos (by rw [e]; exact hl), List.map_cons, e]; rfl
      · rw [if_neg hl, List.filter_cons_of_neg (by rw [e]; exact hl)]; rfl
  rw [readDir, if_neg (by decide), show specPatterns = specNames from rfl, key _ fun n h => specName_ok h]
  rfl

/-- C80: the files read for a package directory are exactly those of `oapi.yaml`, `oapi.yml` and `oapi.json` that are in it, in this
order. -/
theorem C80_files (hd : PlainDir dir) (hp : NoPattern dir) :
    readDir fs dir specPatterns = .ok l ↔ l.map File.path = presentSpecs fs dir ∧ ∀ f ∈ l, readFile fs f.path = .ok f := by
  rw [readDir_specs hd hp, readAll_iff]

/-- C80: it fails exactly if one of those that are there cannot be read; it never crashes. -/
theorem C80_fails_iff (hd : PlainDir dir) (hp : NoPattern dir) :
    ((∃ e, readDir fs dir specPatterns = .err e) ↔ ∃ n ∈ specNames, fs.lstat (dir ++ b!"/" ++ n) = true ∧ ∃ e, readFile fs (dir ++ b!"/" ++ n) = .err e) ∧
    readDir fs dir specPatterns ≠ .panic := by
  rw [readDir_specs hd hp]
  constructor
  · rw [readAll_err, presentSpecs]
    simp only [List.mem_map, List.mem_filter]
    constructor
    · rintro ⟨p, ⟨n, ⟨h1, h2⟩, rfl⟩, h⟩; exact ⟨n, h1, h2, h⟩
    · rintro ⟨n, h1, h2, h⟩; exact ⟨_, ⟨n, ⟨h1, h2⟩, rfl⟩, h⟩
  · rcases readAll_total (fs := fs) (presentSpecs fs dir) with ⟨l, h⟩ | ⟨e, h⟩ <;> rw [h] <;> exact fun h => nomatch h

/-- C80: a directory without these files, also one that does not exist or cannot be entered, is one without specifications. -/
theorem C80_none (hd : PlainDir dir) (hp : NoPattern dir) (h : ∀ n ∈ specNames, fs.lstat (dir ++ b!"/" ++ n) = false) :
    readDir fs dir specPatterns = .ok [] := by
  rw [C80_files hd hp]
  refine ⟨?_, fun f hf => nomatch hf⟩
  rw [presentSpecs, List.filter_eq_nil_iff.2 fun n hn => by rw [h n hn]; simp]
  rfl

/-- C80: nothing but these three files matters. -/
theorem C80_only_these {fs' : FS} (hd : PlainDir dir) (hp : NoPattern dir)
    (h : ∀ n ∈ specNames, fs.lstat (dir ++ b!"/" ++ n) = fs'.lstat (dir ++ b!"/" ++ n) ∧
      readFile fs (dir ++ b!"/" ++ n) = readFile fs' (dir ++ b!"/" ++ n)) :
    readDir fs dir specPatterns = readDir fs' dir specPatterns := by
  rw [readDir_specs hd hp, readDir_specs hd hp]
  have e : presentSpecs fs dir = presentSpecs fs' dir := by
    unfold presentSpecs
    rw [List.filter_congr fun n hn => (h n hn).1]
  rw [← e]
  have : ∀ p ∈ presentSpecs fs dir, readFile fs p = readFile fs' p := by
    intro p hp
    obtain ⟨n, hn, rfl⟩ := List.mem_map.1 hp
    exact (h n (List.mem_filter.1 hn).1).2
  revert this
  generalize presentSpecs fs dir = ps
  intro this
  induction ps with
  | nil => rfl
  | cons p t ih => simp only [Read.readAll]; rw [this p (by simp), ih fun q hq => this q (by simp [hq])]

/-- The names with an ending, in increasing order. -/
def NamesWith (names : List Str) (suf : Str) (a : List Str) : Prop :=
  (∀ n, n ∈ a ↔ n ∈ names ∧ EndsWith n suf) ∧ a.Pairwise fun y z => Str.lt y z = true

theorem endsWith_iff {n suf : Str} : suf.isSuffixOf n = true ↔ EndsWith n suf := by
  rw [List.isSuffixOf_iff_suffix]
  exact ⟨fun ⟨a, h⟩ => ⟨a, h.symm⟩, fun ⟨a, h⟩ => ⟨a, h.symm⟩⟩

theorem increasing_unique {a b : List Str} (ha : a.Pairwise fun y z => Str.lt y z = true) (hb : b.Pairwise fun y z => Str.lt y z = true)
    (h : ∀ n, n ∈ a ↔ n ∈ b) : a = b := by
  have nd : ∀ {l : List Str}, (l.Pairwise fun y z => Str.lt y z = true) → l.Nodup := fun hl => hl.imp fun h e => by
    subst e; rw [Str.lt_irrefl] at h; cases h
  exact Pkgs.ordered_unique (ha.imp fun h => Str.lt_asymm h) (hb.imp fun h => Str.lt_asymm h)
    ((List.perm_ext_iff_of_nodup (nd ha) (nd hb)).2 h)

theorem namesWith_sorted {names suf : _} (hd : names.Nodup) : NamesWith names suf ((Pkgs.sortStrs names).filter fun n => suf.isSuffixOf n) := by
  constructor
  · intro n
    rw [List.mem_filter, (Pkgs.sortStrs_perm names).mem_iff, endsWith_iff]
  · have h1 : (Pkgs.sortStrs names).Nodup := (Pkgs.sortStrs_perm names).nodup_iff.2 hd
    have h2 := Pkgs.sortStrs_ordered names
    refine List.Pairwise.filter _ ?_
    refine (h1.and h2).imp ?_
    rintro x y ⟨hne, hle⟩
    cases h : Str.lt x y with
    | true => rfl
    | false => rw [Str.lt_tri hne h] at hle; cases hle

/-- C80: without patterns, all files with a name ending in `.yaml`, then those in `.yml`, then those in `.json`, each in the order of the
names. -/
theorem C80_default (hd : PlainDir dir) (hp : NoPattern dir) (hn : ∀ n ∈ fs.names dir, FileName n) (hnd : (fs.names dir).Nodup) :
    readDir fs dir [] = .ok l ↔
      (∃ a b c : List Str, NamesWith (fs.names dir) b!".yaml" a ∧ NamesWith (fs.names dir) b!".yml" b ∧ NamesWith (fs.names dir) b!".json" c ∧
        l.map File.path = (a ++ b ++ c).map fun n => dir ++ b!"/" ++ n) ∧
      ∀ f ∈ l, readFile fs f.path = .ok f := by
  have hg : ∀ suf, NoPattern suf → (47 : UInt8) ∉ suf → Read.glob fs (Cli.join2 dir (42 :: suf)) =
      .ok (((Pkgs.sortStrs (fs.names dir)).filter fun n => suf.isSuffixOf n).map fun n => dir ++ b!"/" ++ n) := by
    intro suf h1 h2
    rw [Read.glob_star hd hp h1 h2 hn]
    simp [show b!"/" = [47] from rfl]
  have key : readDir fs dir [] = Read.readAll fs
      ((((Pkgs.sortStrs (fs.names dir)).filter fun n => b!".yaml".isSuffixOf n) ++
        ((Pkgs.sortStrs (fs.names dir)).filter fun n => b!".yml".isSuffixOf n) ++
        ((Pkgs.sortStrs (fs.names dir)).filter fun n => b!".json".isSuffixOf n)).map fun n => dir ++ b!"/" ++ n) := by
    rw [readDir, if_pos rfl, defaultPatterns]
    simp only [Read.globAll]
    rw [hg b!".yaml" (by unfold NoPattern; decide) (by decide), hg b!".yml" (by unfold NoPattern; decide) (by decide),
      hg b!".json" (by unfold NoPattern; decide) (by decide)]
    simp only [List.append_nil, List.map_append, List.append_assoc]
  rw [key, readAll_iff]
  refine and_congr_left fun _ => ⟨fun h => ⟨_, _, _, namesWith_sorted hnd, namesWith_sorted hnd, namesWith_sorted hnd, h⟩, ?_⟩
  rintro ⟨a, b, c, ha, hb, hc, h⟩
  have u : ∀ {x suf}, NamesWith (fs.names dir) suf x → x = (Pkgs.sortStrs (fs.names dir)).filter fun n => suf.isSuffixOf n :=
    fun h => increasing_unique h.2 (namesWith_sorted hnd).2 fun n => by rw [h.1, (namesWith_sorted hnd).1]
  rw [h, u ha, u hb, u hc]

/-! ### C82: YAML mappings -/

variable {other : Nat → Str}

/-- C82: if no mapping of a YAML file has two keys of the same text, the document read says the same as the file. -/
theorem C82_reads {p n data : Str} {m : List (Str × Yaml)} (hn : LastElem p n) (he : EndsWith n b!".yaml" ∨ EndsWith n b!".yml")
    (hc : fs.content p = some data) (hy : fs.yaml data = some m) (ha : KeysApart fs.sprintOther (topMap m)) :
    ∃ f, readFile fs p = .ok f ∧ f.path = p ∧ SameDoc fs.sprintOther (topMap m) f.doc := by
  refine ⟨⟨p, mmap fs.sprintOther (topMap m)⟩, (C81_yaml hn he _).2 ⟨rfl, data, m, hc, hy, rfl⟩, rfl, Read.mmap_wf _, fun L => ⟨?_, ?_⟩⟩
  · intro z hz
    exact ⟨_, Read.yamlAt_get ha hz, Read.sameKind z⟩
  · intro v hv
    obtain ⟨z, hz, rfl⟩ := Read.get_yamlAt hv
    exact ⟨z, hz, Read.sameKind z⟩

/-- Two documents agree at a location: both have nothing there, or values of the same kind. -/
def Agree (a b : Option Json) : Prop :=
  (a = none ∧ b = none) ∨ ∃ u v, a = some u ∧ b = some v ∧
    (u = v ∨ (∃ xs ys, u = .arr xs ∧ v = .arr ys ∧ xs.length = ys.length) ∨ ∃ m n, u = .obj m ∧ v = .obj n)

theorem agree_eq (j : Json) : ∀ j', Json.WF j → Json.WF j' → (∀ L, Agree (getAt j L) (getAt j' L)) → j = j' := by
  suffices H : ∀ n, ∀ j, sizeOf j < n → ∀ j', Json.WF j → Json.WF j' → (∀ L, Agree (getAt j L) (getAt j' L)) → j = j' from
    H (sizeOf j + 1) j (Nat.lt_succ_self _)
  intro n
  induction n with
  | zero => intro j hn; exact absurd hn (Nat.not_lt_zero _)
  | succ n ih =>
    intro j hn j' hw hw' h
    have h0 := h []
    simp only [getAt] at h0
    rcases h0 with ⟨h0, _⟩ | ⟨u, v, hu, hv, h0⟩
    · cases h0
    · injection hu with hu; injection hv with hv
      subst hu hv
      rcases h0 with h0 | ⟨xs, ys, rfl, rfl, hl⟩ | ⟨a, b, rfl, rfl⟩
      · exact h0
      · congr 1
        apply List.ext_getElem hl
        intro i h1 h2
        have hs : sizeOf xs[i] < n := by
          have := List.sizeOf_lt_of_mem (List.getElem_mem h1)
          simp at hn; omega
        refine ih _ hs _ ?_ ?_ fun L => ?_
        · exact (Json.WFL_iff _).1 ((Json.WF_arr _).1 hw) _ (List.getElem_mem h1)
        · exact (Json.WFL_iff _).1 ((Json.WF_arr _).1 hw') _ (List.getElem_mem h2)
        · have := h (.idx i :: L)
          simpa only [getAt_arr_idx, List.getElem?_eq_getElem h1, List.getElem?_eq_getElem h2] using this
      · congr 1
        obtain ⟨s1, w1⟩ := (Json.WF_obj _).1 hw
        obtain ⟨s2, w2⟩ := (Json.WF_obj _).1 hw'
        apply Obj.ext_lookup s1 s2
        intro k
        have hk := fun L => h (.key k :: L)
        simp only [getAt_obj_key] at hk
        cases ha : Obj.lookup k a with
        | none =>
          rw [ha] at hk
          cases hb : Obj.lookup k b with
          | none => rfl
          | some v =>
            rw [hb] at hk
            rcases hk [] with ⟨_, h0⟩ | ⟨_, _, h0, _⟩ <;> cases h0
        | some u =>
          rw [ha] at hk
          cases hb : Obj.lookup k b with
          | none =>
            rw [hb] at hk
            rcases hk [] with ⟨h0, _⟩ | ⟨_, _, _, h0, _⟩ <;> cases h0
          | some v =>
            rw [hb] at hk
            have hm := Obj.lookup_mem ha
            congr 1
            refine ih u ?_ v ((Json.WFO_iff _).1 w1 _ hm) ((Json.WFO_iff _).1 w2 _ (Obj.lookup_mem hb)) hk
            have := List.sizeOf_lt_of_mem hm
            simp at hn this; omega

theorem apart_same {m : List (Key × Yaml)} (h : m.Pairwise fun a b => Read.sprint other a.1 ≠ Read.sprint other b.1) {a b : Key × Yaml}
    (ha : a ∈ m) (hb : b ∈ m) (e : Read.sprint other a.1 = Read.sprint other b.1) : a = b := by
  obtain ⟨i, hi, rfl⟩ := List.getElem_of_mem ha
  obtain ⟨j, hj, rfl⟩ := List.getElem_of_mem hb
  rcases Nat.lt_trichotomy i j with hij | hij | hij
  · exact absurd e (List.pairwise_iff_getElem.1 h i j hi hj hij)
  · subst hij; rfl
  · exact absurd e.symm (List.pairwise_iff_getElem.1 h j i hj hi hij)

theorem yamlAt_unique {y : Yaml} {L : Loc} {z w : Yaml} (ha : KeysApart other y) (hz : YamlAt other y L z) (hw : YamlAt other y L w) : z = w := by
  induction hz with
  | here => cases hw; rfl
  | key hm hk hz ih =>
    cases hw with
    | key hm' hk' hw =>
      obtain ⟨h1, h2⟩ := Read.apart_map.1 ha
      have e := apart_same h1 hm hm' ((Read.keyText_iff.1 hk).trans (Read.keyText_iff.1 hk').symm)
      injection e with e1 e2
      subst e1 e2
      exact ih (h2 _ hm) hw
  | idx hx hz ih =>
    cases hw with
    | idx hx' hw =>
      rw [hx] at hx'; injection hx' with e; subst e
      exact ih (Read.apart_seq.1 ha _ (List.mem_of_getElem? hx)) hw

theorem sameKind_det {z : Yaml} {u v : Json} (h1 : SameKind z u) (h2 : SameKind z v) :
    u = v ∨ (∃ xs ys, u = .arr xs ∧ v = .arr ys ∧ xs.length = ys.length) ∨ ∃ a b, u = .obj a ∧ v = .obj b := by
  cases h1 with
  | null => cases h2; exact .inl rfl
  | bool => cases h2; exact .inl rfl
  | num => cases h2; exact .inl rfl
  | str => cases h2; exact .inl rfl
  | seq e => cases h2 with | seq e' => exact .inr (.inl ⟨_, _, rfl, rfl, e.symm.trans e'⟩)
  | map => cases h2; exact .inr (.inr ⟨_, _, rfl, rfl⟩)

/-- C82: and only one document says the same as such a file. -/
theorem C82_unique {y : Yaml} {j j' : Json} (ha : KeysApart other y) (h : SameDoc other y j) (h' : SameDoc other y j') : j = j' := by
  refine agree_eq j j' h.1 h'.1 fun L => ?_
  cases hj : getAt j L with
  | none =>
    cases hj' : getAt j' L with
    | none => exact .inl ⟨rfl, rfl⟩
    | some v =>
      obtain ⟨z, hz, _⟩ := (h'.2 L).2 v hj'
      obtain ⟨u, hu, _⟩ := (h.2 L).1 z hz
      rw [hj] at hu; cases hu
  | some u =>
    obtain ⟨z, hz, hk⟩ := (h.2 L).2 u hj
    obtain ⟨v, hv, hk'⟩ := (h'.2 L).1 z hz
    exact .inr ⟨u, v, rfl, hv, sameKind_det hk hk'⟩

/-- C82: the order in which the entries of its mappings are met does not matter then … -/
theorem C82_order {fs' : FS} {p data data' : Str} {m m' : List (Str × Yaml)}
    (hc : fs.content p = some data) (hy : fs.yaml data = some m) (hc' : fs'.content p = some data') (hy' : fs'.yaml data' = some m')
    (ho : fs.sprintOther = fs'.sprintOther) (hr : YReorder (topMap m) (topMap m')) (ha : KeysApart fs.sprintOther (topMap m))
    {n : Str} (hn : LastElem p n) (he : EndsWith n b!".yaml" ∨ EndsWith n b!".yml") : readFile fs p = readFile fs' p := by
  have h1 := (C81_yaml hn he ⟨p, mmap fs.sprintOther (topMap m)⟩).2 ⟨rfl, data, m, hc, hy, rfl⟩
  have h2 := (C81_yaml hn he ⟨p, mmap fs'.sprintOther (topMap m')⟩).2 ⟨rfl, data', m', hc', hy', rfl⟩
  rw [h1, h2, ← ho, (Read.reorder_same hr ha).2]

/-- C82: … otherwise the last entry with a text is the one that stays … -/
theorem C82_last_wins {pre post : List (Key × Yaml)} {k : Key} {v : Yaml} {s : Str} (hk : KeyText other k s)
    (hp : ∀ e ∈ post, ¬ KeyText other e.1 s) : getAt (mmap other (.map (pre ++ (k, v) :: post))) [.key s] = some (mmap other v) := by
  rw [Read.mmap, getAt_obj_key, Read.mmapMap_lookup]
  have : (pre ++ (k, v) :: post).reverse.find? (fun e => decide (Read.sprint other e.1 = s)) = some (k, v) := by
    rw [List.reverse_append, List.reverse_cons, List.append_assoc, List.find?_append]
    have : post.reverse.find? (fun e => decide (Read.sprint other e.1 = s)) = none := by
      rw [List.find?_eq_none]
      intro e he
      simpa using fun h => hp e (List.mem_reverse.1 he) (Read.keyText_iff.2 h)
    rw [this]
    simp [Read.keyText_iff.1 hk]
  rw [this]
  simp [getAt]

/-- C82: … so if two keys have the same text and their values differ, the document read depends on the order in which Go iterates the
mapping. -/
theorem C82_collision {m rest : List (Key × Yaml)} {k k' : Key} {v v' : Yaml} {s : Str} (hm : m.Perm ((k, v) :: (k', v') :: rest))
    (hk : KeyText other k s) (hk' : KeyText other k' s) (hv : mmap other v ≠ mmap other v') :
    ∃ m₁ m₂, m₁.Perm m ∧ m₂.Perm m ∧ mmap other (.map m₁) ≠ mmap other (.map m₂) := by
  have p1 : ∀ a b : Key × Yaml, (rest ++ [a, b]).Perm (a :: b :: rest) := fun a b => List.perm_append_comm
  refine ⟨rest ++ [(k', v'), (k, v)], rest ++ [(k, v), (k', v')], (p1 ..).trans ((List.Perm.swap ..).trans hm.symm), (p1 ..).trans hm.symm, fun e => hv ?_⟩
  have h1 := C82_last_wins (pre := rest ++ [(k', v')]) (v := v) (post := []) hk (by simp)
  have h2 := C82_last_wins (pre := rest ++ [(k, v)]) (v := v') (post := []) hk' (by simp)
  rw [List.append_assoc, List.singleton_append] at h1 h2
  rw [e, h2] at h1
  injection h1 with h1
  exact h1.symm

/-! ### The hypotheses are met -/

/-- A small file system: a directory with a YAML file that is decoded to `{openapi: 3.0.0, paths: {1: null}}` and a JSON file. -/
def exFS : FS where
  lstat p := p = b!"/d/oapi.yaml" || p = b!"/d/oapi.json"
  names d := if d = b!"/d" then [b!"oapi.yaml", b!"oapi.json", b!"a.json", b!"x.txt"] else []
  content p := if p = b!"/d/oapi.yaml" then some b!"Y" else if p = b!"/d/oapi.json" ∨ p = b!"/d/a.json" then some b!"J" else none
  globMeta _ := .ok []
  matchOther _ _ := false
  json d := if d = b!"J" then some [(b!"x", .null)] else none
  yaml d := if d = b!"Y" then some [(b!"openapi", .str b!"3.0.0"), (b!"paths", .map [(.int 1, .null)])] else none
  sprintOther _ := b!"?"

theorem exDir : PlainDir b!"/d" := ⟨[b!"d"], by simp, by intro d hd; rw [List.mem_singleton] at hd; subst hd; exact ⟨by decide, by decide, by decide, by decide⟩, rfl⟩
theorem exPlain : NoPattern b!"/d" := by unfold NoPattern; decide

def exYaml : File := ⟨b!"/d/oapi.yaml", .obj [(b!"openapi", .str b!"3.0.0"), (b!"paths", .obj [(b!"1", .null)])]⟩
def exJson : File := ⟨b!"/d/oapi.json", .obj [(b!"x", .null)]⟩

example : readDir exFS b!"/d" specPatterns = .ok [exYaml, exJson] := by
  rw [C80_files exDir exPlain]
  refine ⟨by decide +kernel, ?_⟩
  intro f hf
  simp only [List.mem_cons, List.not_mem_nil, or_false] at hf
  rcases hf with rfl | rfl
  · exact (C81_yaml (n := b!"oapi.yaml") ⟨by decide, .inr ⟨b!"/d", rfl⟩⟩ (.inl ⟨b!"oapi", rfl⟩) _).2 ⟨rfl, b!"Y", _, rfl, rfl, by decide +kernel⟩
  · exact (C81_json (n := b!"oapi.json") ⟨by decide, .inr ⟨b!"/d", rfl⟩⟩ ⟨b!"oapi", rfl⟩ _).2 ⟨rfl, b!"J", _, rfl, rfl, by decide +kernel⟩

theorem namesWith_of {names a : List Str} {suf : Str} (h1 : ∀ n ∈ a, n ∈ names ∧ suf.isSuffixOf n = true) (h2 : ∀ n ∈ names, suf.isSuffixOf n = true → n ∈ a)
    (h3 : a.Pairwise fun y z => Str.lt y z = true) : NamesWith names suf a :=
  ⟨fun n => ⟨fun h => ⟨(h1 n h).1, endsWith_iff.1 (h1 n h).2⟩, fun h => h2 n h.1 (endsWith_iff.2 h.2)⟩, h3⟩

example : ∃ l, readDir exFS b!"/d" [] = .ok l ∧ l.map File.path = [b!"/d/oapi.yaml", b!"/d/a.json", b!"/d/oapi.json"] := by
  refine ⟨[exYaml, ⟨b!"/d/a.json", .obj [(b!"x", .null)]⟩, exJson], (C80_default exDir exPlain ?_ ?_).2 ⟨⟨[b!"oapi.yaml"], [], [b!"a.json", b!"oapi.json"], ?_, ?_, ?_, by decide⟩, ?_⟩, by decide⟩
  · have : ∀ n ∈ [b!"oapi.yaml", b!"oapi.json", b!"a.json", b!"x.txt"], n ≠ [] ∧ n ≠ b!"." ∧ n ≠ b!".." ∧ (47 : UInt8) ∉ n := by decide
    exact this
  · decide +kernel
  · exact namesWith_of (by decide +kernel) (by decide +kernel) (by decide)
  · exact namesWith_of (by decide +kernel) (by decide +kernel) (by decide)
  · exact namesWith_of (by decide +kernel) (by decide +kernel) (by decide)
  · intro f hf
    simp only [List.mem_cons, List.not_mem_nil, or_false] at hf
    rcases hf with rfl | rfl | rfl
    · exact (C81_yaml (n := b!"oapi.yaml") ⟨by decide, .inr ⟨b!"/d", rfl⟩⟩ (.inl ⟨b!"oapi", rfl⟩) _).2 ⟨rfl, b!"Y", _, rfl, rfl, by decide +kernel⟩
    · exact (C81_json (n := b!"a.json") ⟨by decide, .inr ⟨b!"/d", rfl⟩⟩ ⟨b!"a", rfl⟩ _).2 ⟨rfl, b!"J", _, rfl, rfl, rfl⟩
    · exact (C81_json (n := b!"oapi.json") ⟨by decide, .inr ⟨b!"/d", rfl⟩⟩ ⟨b!"oapi", rfl⟩ _).2 ⟨rfl, b!"J", _, rfl, rfl, rfl⟩

example : readDir exFS b!"/e" specPatterns = .ok [] :=
  C80_none ⟨[b!"e"], by simp, by intro d hd; rw [List.mem_singleton] at hd; subst hd; exact ⟨by decide, by decide, by decide, by decide⟩, rfl⟩
    (by unfold NoPattern; decide) (by decide +kernel)

example : ∃ e, readFile exFS b!"/d/x.txt" = .err e :=
  C81_else_error (n := b!"x.txt") ⟨by decide, .inr ⟨b!"/d", rfl⟩⟩ (fun h => absurd (endsWith_iff.2 h) (by decide)) (fun h => absurd (endsWith_iff.2 h) (by decide))
    (fun h => absurd (endsWith_iff.2 h) (by decide))

theorem exApart : KeysApart exFS.sprintOther (topMap [(b!"openapi", .str b!"3.0.0"), (b!"paths", .map [(.int 1, .null)])]) := by
  have sc : ∀ {y : Yaml}, (∀ l m, ¬ YamlAt exFS.sprintOther y l (.map m)) → KeysApart exFS.sprintOther y := fun h l m hm => absurd hm (h l m)
  refine Read.apart_map.2 ⟨by decide, ?_⟩
  intro e he
  simp only [List.map_cons, List.map_nil, List.mem_cons, List.not_mem_nil, or_false] at he
  rcases he with rfl | rfl
  · exact sc fun l m h => nomatch h
  · refine Read.apart_map.2 ⟨by decide, ?_⟩
    intro e he
    rw [List.mem_singleton] at he
    subst he
    exact sc fun l m h => nomatch h

example : ∃ f, readFile exFS b!"/d/oapi.yaml" = .ok f ∧ ∃ v, getAt f.doc [.key b!"paths", .key b!"1"] = some v ∧ SameKind .null v := by
  obtain ⟨f, h1, _, _, h2⟩ := C82_reads (fs := exFS) (p := b!"/d/oapi.yaml") (n := b!"oapi.yaml") (data := b!"Y")
    ⟨by decide, .inr ⟨b!"/d", rfl⟩⟩ (.inl ⟨b!"oapi", rfl⟩) rfl rfl exApart
  exact ⟨f, h1, (h2 _).1 _ (.key (k := .str b!"paths") (v := .map [(.int 1, .null)]) (by simp) .str
    (.key (k := .int 1) (v := .null) (by simp) (.nat (n := 1)) (.here _)))⟩

/-- Both `1` and `"1"` are the key `1`: which value is read is not determined. -/
example : ∃ m₁ m₂ : List (Key × Yaml), m₁.Perm m₂ ∧ mmap other (.map m₁) ≠ mmap other (.map m₂) := by
  obtain ⟨a, b, h1, h2, h⟩ := C82_collision (other := other) (m := [(.int 1, .str b!"a"), (.str b!"1", .str b!"b")]) (k := .int 1) (k' := .str b!"1")
    (v := .str b!"a") (v' := .str b!"b") (rest := []) (s := b!"1") (.refl _) (.nat (n := 1)) .str (by simp [Read.mmap])
  exact ⟨a, b, h1.trans h2.symm, h⟩

end Oapi.Props
