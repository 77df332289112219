import Verif.Proofs.Extract

/-! Properties C10–C14: dot paths, SetP, ExtractKey. -/
namespace Oapi.Props
open Oapi Spec

private abbrev escDot (v : Str) : Str := Str.replaceAll (Str.replaceAll v b!"." b!"~1") b!"~" b!"~0"

private theorem escDot_cons (c : UInt8) (t : Str) :
    escDot (c :: t) = (if c = 46 then [126, 48, 49] else if c = 126 then [126, 48] else [c]) ++ escDot t := by
  simp only [escDot, Str.replaceAll_byte, List.flatMap_cons, List.flatMap_append]
  by_cases h : c = 46
  · subst h; simp
  · by_cases h2 : c = 126 <;> simp [h, h2]

private theorem escDot_no_dot (v : Str) : (46 : UInt8) ∉ escDot v := by
  induction v with
  | nil => simp [escDot, Str.replaceAll, Str.replaceGo]
  | cons c t ih =>
    rw [escDot_cons]
    by_cases h : c = 46
    · simp [h, ih]
    · by_cases h2 : c = 126
      · simp [h2, ih]
      · simp [h, h2, ih, Ne.symm h]

private theorem dec_escDot (v : Str) : Gabs.dec (escDot v) = Str.replaceAll v b!"." b!"~1" := by
  induction v with
  | nil => rfl
  | cons c t ih =>
    rw [escDot_cons]
    rw [Str.replaceAll_byte] at ih ⊢
    rw [List.flatMap_cons, ← ih]
    by_cases h : c = 46
    · subst h
      simp only [if_true]
      show Gabs.dec (126 :: 48 :: (49 :: escDot t)) = _
      rw [Gabs.dec_00, Gabs.dec_cons_ne _ _ (by decide)]; rfl
    · by_cases h2 : c = 126
      · subst h2; show Gabs.dec (126 :: 48 :: escDot t) = _; rw [Gabs.dec_00]; simp
      · simp only [h, h2, if_false]; exact Gabs.dec_cons_ne _ _ h2

/-- C10: converting a key list to a dot path and splitting it again replaces every '.' inside a key by "~1". -/
theorem C10_dot_path_mangles_dots (ks : List Str) (hne : ks ≠ []) :
    Gabs.dotPathToSlice (Container.sliceToDotPath ks) = ks.map fun k => Str.replaceAll k b!"." b!"~1" := by
  unfold Container.sliceToDotPath
  rw [Gabs.dotPathToSlice_eq, Str.split_join]
  · rw [List.map_map]; congr 1; funext k; exact dec_escDot k
  · simpa using hne
  · intro x hx; simp only [List.mem_map] at hx; obtain ⟨k, _, rfl⟩ := hx; exact escDot_no_dot k

private theorem replaceDot_len (k : Str) :
    k.length ≤ (Str.replaceAll k b!"." b!"~1").length ∧
    ((46 : UInt8) ∈ k → k.length < (Str.replaceAll k b!"." b!"~1").length) ∧
    ((46 : UInt8) ∉ k → Str.replaceAll k b!"." b!"~1" = k) := by
  rw [Str.replaceAll_byte]
  induction k with
  | nil => simp
  | cons c t ih =>
    rw [List.flatMap_cons]
    generalize List.flatMap (fun c => if c = 46 then [126, 49] else [c]) t = z at ih ⊢
    by_cases h : c = 46
    · subst h
      refine ⟨by simp; omega, fun _ => by simp; omega, fun hh => absurd (List.mem_cons_self) hh⟩
    · refine ⟨by simp [h]; omega, fun hh => ?_, fun hh => ?_⟩
      · have ht : (46 : UInt8) ∈ t := by
          rcases List.mem_cons.1 hh with e | e
          · exact absurd e.symm h
          · exact e
        have := ih.2.1 ht; simp [h]; omega
      · simp only [h, if_false]; rw [ih.2.2 (fun e => hh (List.mem_cons_of_mem _ e))]; rfl

/-- C10: the round trip is exact precisely when no key contains a dot. -/
theorem C10_dot_path_roundtrip_iff (ks : List Str) (hne : ks ≠ []) :
    Gabs.dotPathToSlice (Container.sliceToDotPath ks) = ks ↔ ∀ k ∈ ks, (46 : UInt8) ∉ k := by
  rw [C10_dot_path_mangles_dots ks hne]
  clear hne
  induction ks with
  | nil => simp
  | cons k ks ih =>
    simp only [List.map_cons, List.cons.injEq, List.mem_cons, forall_eq_or_imp, ih]
    have := replaceDot_len k
    constructor
    · rintro ⟨h1, h2⟩
      refine ⟨fun hm => ?_, h2⟩
      have := this.2.1 hm; rw [h1] at this; omega
    · rintro ⟨h1, h2⟩; exact ⟨this.2.2 h1, h2⟩

example : Gabs.dotPathToSlice (Container.sliceToDotPath [b!"paths", b!"/a~b/{id}", b!"get"]) =
    [b!"paths", b!"/a~b/{id}", b!"get"] := by decide
example : Gabs.dotPathToSlice (Container.sliceToDotPath [b!"paths", b!"/a.json"]) =
    [b!"paths", b!"/a~1json"] := by decide

/-- C11: what `SetP` writes, `Path` reads. -/
theorem C11_setP_read_back (j j' v : Json) (p : Str)
    (happend : b!"-" ∉ Gabs.dotPathToSlice p) (h : Container.setP j p v = .ok j') :
    Container.path j' p = some v := by
  unfold Container.setP Gabs.set at h
  unfold Container.path
  split at h
  · rename_i e; rw [e]; cases h; rfl
  · exact Gabs.setGo_search v true _ _ j' happend h

/-- C12: `SetP` changes one location, the one the path denotes, and no location apart from it. -/
theorem C12_setP_frame (j j' v : Json) (p : Str) (h : Container.setP j p v = .ok j') :
    ∃ W : Loc, DenotesAll (Gabs.dotPathToSlice p) W ∧ getAt j' W = some v ∧
      ∀ L, Apart L W → getAt j' L = getAt j L := by
  unfold Container.setP Gabs.set at h
  split at h
  · rename_i e; rw [e]; cases h
    exact ⟨[], trivial, rfl, fun L hL => absurd List.nil_prefix hL.2⟩
  · rename_i s r hp
    obtain ⟨W, h1, h2, h3⟩ := Gabs.setGo_spec v true _ _ j' (by rw [hp]; simp) h
    refine ⟨W, h1, h2, fun L hL => ?_⟩
    rw [h3 L hL]
    by_cases hj : j = .null
    · subst hj
      cases L with
      | nil => exact absurd List.nil_prefix hL.1
      | cons st L => cases st <;> simp [Gabs.fill, getAt, child]
    · rw [Gabs.fill_some hj]

/-- C13: `SetP` never panics and fails exactly when a proper prefix of the path holds a value that cannot be
entered by the next segment (a non-null root; a null root behaves like the empty object). -/
theorem C13_setP_fails_iff (j v : Json) (p : Str) (hj : j ≠ .null) :
    (∃ e, Container.setP j p v = .err e) ↔
      ∃ q s r x, Gabs.dotPathToSlice p = q ++ s :: r ∧ along j q = some x ∧ Blocks q.isEmpty r.isEmpty x s := by
  unfold Container.setP Gabs.set
  split
  · rename_i e; rw [e]; simp
  · rw [Gabs.fill_some hj, Gabs.setGo_err_iff v true _ j hj]
    simp [Gabs.Obstr]

theorem C13_setP_no_panic (j v : Json) (p : Str) : Container.setP j p v ≠ .panic := by
  unfold Container.setP Gabs.set
  split
  · simp
  · exact Gabs.setGo_no_panic _ _ _ _

/-- C13: if everything on the way is an object, null or absent, `SetP` succeeds. -/
theorem C13_setP_succeeds (j v : Json) (p : Str) (hj : j ≠ .null)
    (h : ∀ q r x, r ≠ [] → Gabs.dotPathToSlice p = q ++ r → along j q = some x → x = .null ∨ ∃ m, x = .obj m) :
    ∃ j', Container.setP j p v = .ok j' := by
  cases hs : Container.setP j p v with
  | ok j' => exact ⟨j', rfl⟩
  | panic => exact absurd hs (C13_setP_no_panic j v p)
  | err e =>
    obtain ⟨q, s, r, x, hp, ha, hb⟩ := (C13_setP_fails_iff j v p hj).1 ⟨e, hs⟩
    rcases h q (s :: r) x (by simp) hp ha with rfl | ⟨m, rfl⟩
    · exact absurd hb Gabs.not_blocks_null
    · exact absurd hb Gabs.not_blocks_obj

private def doc : Json := .obj [(b!"a", .obj [(b!"$ref", .str b!"x")]),
  (b!"b", .arr [.num 1, .obj [(b!"$ref", .str b!"y"), (b!"n", .null)]])]

example : Container.setP doc b!"b.1.$ref" (.num 7) = .ok (.obj [(b!"a", .obj [(b!"$ref", .str b!"x")]),
  (b!"b", .arr [.num 1, .obj [(b!"$ref", .num 7), (b!"n", .null)]])]) := by decide
example : Container.setP doc b!"b.0.c" (.num 7) = .err .collision := by decide
example : Container.setP doc b!"a.$ref.c" (.num 7) = .err .collision := by decide
example : (Container.setP doc b!"x.y.z" (.num 7)).isOk = true := by decide

/-- C14: on every document, what `ExtractKey` stores is exactly one binding per scalar whose key is the wanted one, or ends with a dot and the
wanted one; it is stored under the printed path, in which keys are not escaped.  Iterating the result gives every path once. -/
theorem C14_extractKey_entries (j : Json) (key : Str) (es : List (Str × Json)) (hw : Json.WF j) (hd : (46 : UInt8) ∉ key)
    (hkey : ∀ n, key ≠ Str.itoa n) (h : Container.extractKey j key = .ok es) (s : Str) (v : Json) :
    (s, v) ∈ es ↔ ∃ L k, getAt j (L ++ [.key k]) = some v ∧ scalar v = true ∧ (k = key ∨ ∃ a, k = a ++ 46 :: key) ∧
      s = dotted (L ++ [.key k]) :=
  extract_iff hw hd hkey h s v

/-- C14: the printed path leads back to the value if the keys on the way are dot-safe, whatever the other keys are. -/
theorem C14_path_back (j : Json) (L : Loc) (v : Json) (hne : L ≠ []) (h : getAt j L = some v) (hk : ∀ k, .key k ∈ L → DotSafe k) :
    Container.path j (dotted L) = some v := by
  have hg := goodLoc_of_keys hk
  unfold Container.path
  rw [dotted_good hg, dotPath_segs hne hg, search_segs h]

/-- C14: if a key on the way contains a dot, the path leads elsewhere, and two values may have the same path. -/
theorem C14_dots_mislead : ∃ j L L' v, Json.WF j ∧ getAt j L = some (.str v) ∧ getAt j L' = some (.str v) ∧ dotted L = dotted L' ∧ L ≠ L' ∧
    (∃ L'' v', getAt j L'' = some (.str v') ∧ Container.path j (dotted L'') = none) :=
  ⟨.obj [(b!"a", .obj [(b!"b", .obj [(b!"$ref", .str b!"x")])]), (b!"a.b", .obj [(b!"$ref", .str b!"x")]), (b!"c.d", .obj [(b!"$ref", .str b!"y")])],
    [.key b!"a", .key b!"b", .key b!"$ref"], [.key b!"a.b", .key b!"$ref"], b!"x", wfB_sound _ (by decide), by decide, by decide, by decide, by decide,
    [.key b!"c.d", .key b!"$ref"], b!"y", by decide, by decide⟩

/-- C14: on documents with dot-safe keys, `ExtractKey` returns exactly one entry per scalar stored under the key,
anywhere in the document; the entry's path leads back to the value. -/
theorem C14_extractKey_exact (j : Json) (key : Str) (es : List (Str × Json))
    (hw : Json.WF j) (hs : SafeDoc j) (hkey : ∀ n, key ≠ Str.itoa n)
    (h : Container.extractKey j key = .ok es) :
    (∀ s v, (s, v) ∈ es ↔
      ∃ L, getAt j (L ++ [.key key]) = some v ∧ scalar v = true ∧ s = Str.join 46 ((L ++ [Step.key key]).map seg)) ∧
    (es.map Prod.fst).Nodup ∧ ∀ s v, (s, v) ∈ es → Container.path j s = some v := by
  unfold Container.extractKey at h
  cases hf : Gabs.flatten j with
  | err e => rw [hf] at h; simp at h
  | panic => rw [hf] at h; simp at h
  | ok ff =>
    rw [hf] at h
    simp only [Res.ok.injEq] at h
    have hff := flatten_eq hw hs hf
    have hcont : scalar j = false := by
      cases j <;> simp [Gabs.flatten] at hf <;> rfl
    -- the last segment of an entry
    have hlast : ∀ L v, (L, v) ∈ leaves j → L ≠ [] ∧
        (Container.keyMatches key (Str.join 46 (L.map seg)) = true ↔ ∃ L', L = L' ++ [.key key]) := by
      intro L v hm
      rw [mem_leaves j hw] at hm
      have hne : L ≠ [] := by
        rintro rfl; simp [getAt] at hm; rw [hm.1, hm.2] at hcont; cases hcont
      refine ⟨hne, ?_⟩
      have hg := goodLoc_of_getAt hs hm.1
      unfold Container.keyMatches
      rw [Str.split_join 46 _ (by simpa using hne) (by
        intro x hx; simp at hx; obtain ⟨st, hst, rfl⟩ := hx; exact (hg st hst).2.1)]
      rw [List.getLast?_map]
      obtain ⟨L', st, rfl⟩ : ∃ L' st, L = L' ++ [st] := by
        exact ⟨L.dropLast, L.getLast hne, (List.dropLast_concat_getLast hne).symm⟩
      simp only [List.getLast?_append, List.getLast?_singleton]
      simp
      cases st with
      | key k => simp [seg]
      | idx n => simp [seg]; exact (hkey n).symm
    have hmem : ∀ s v, (s, v) ∈ es ↔
        ∃ L, getAt j (L ++ [.key key]) = some v ∧ scalar v = true ∧ s = Str.join 46 ((L ++ [Step.key key]).map seg) := by
      intro s v
      rw [← h, hff]
      simp only [List.mem_filter, List.mem_map, dotP, List.nil_append, Prod.mk.injEq, Prod.exists]
      constructor
      · rintro ⟨⟨L, v', hm, rfl, rfl⟩, hk⟩
        obtain ⟨L', rfl⟩ := ((hlast L v' hm).2).1 hk
        rw [mem_leaves j hw] at hm
        exact ⟨L', hm.1, hm.2, rfl⟩
      · rintro ⟨L, hg, hsc, rfl⟩
        have hm := (mem_leaves j hw (L ++ [.key key]) v).2 ⟨hg, hsc⟩
        exact ⟨⟨_, v, hm, rfl, rfl⟩, ((hlast _ v hm).2).2 ⟨L, rfl⟩⟩
    refine ⟨hmem, ?_, ?_⟩
    · rw [← h, hff]
      have hnd : (((leaves j).map (dotP [])).map Prod.fst).Nodup := by
        rw [List.map_map]
        refine List.Pairwise.map _ ?_ (List.Pairwise.and_mem.1 (leaves_nodup j hw))
        rintro ⟨L1, v1⟩ ⟨L2, v2⟩ ⟨m1, m2, hne⟩ e
        simp only [Function.comp, dotP, List.nil_append] at e
        have n1 := (hlast L1 v1 m1).1
        have n2 := (hlast L2 v2 m2).1
        rw [mem_leaves j hw] at m1 m2
        have g1 := goodLoc_of_getAt hs m1.1
        have g2 := goodLoc_of_getAt hs m2.1
        have e' : L1.map seg = L2.map seg := by
          rw [← dotPath_segs n1 g1, ← dotPath_segs n2 g2, e]
        have := segs_inj m1.1 m2.1 e'
        subst this
        apply hne
        rw [m1.1] at m2
        simp at m2; rw [m2.1]
      exact hnd.sublist (List.Sublist.map _ List.filter_sublist)
    · intro s v hsv
      obtain ⟨L, hg, _, rfl⟩ := (hmem s v).1 hsv
      exact path_existing hs (by simp) hg

/-- C14 for the key the code extracts. -/
theorem C14_extract_refs_exact (j : Json) (es : List (Str × Json))
    (hw : Json.WF j) (hs : SafeDoc j) (h : Container.extractKey j b!"$ref" = .ok es) :
    (∀ s v, (s, v) ∈ es ↔ ∃ L, getAt j (L ++ [.key b!"$ref"]) = some v ∧ scalar v = true ∧
      s = Str.join 46 ((L ++ [Step.key b!"$ref"]).map seg)) ∧
    (es.map Prod.fst).Nodup ∧ ∀ s v, (s, v) ∈ es → Container.path j s = some v :=
  C14_extractKey_exact j _ es hw hs (fun n h => by
    have := Str.itoa_digits n; rw [← h] at this; exact absurd (this 36 (by simp)) (by decide)) h

/-- C14: it fails only on documents that are not objects or arrays. -/
theorem C14_extractKey_fails_iff (j : Json) (key : Str) :
    (¬ ∃ es, Container.extractKey j key = .ok es) ↔ scalar j = true := by
  cases j <;> simp [Container.extractKey, Gabs.flatten, scalar]

example : Container.extractKey doc b!"$ref" = .ok [(b!"a.$ref", .str b!"x"), (b!"b.1.$ref", .str b!"y")] := by decide
example : Json.WF doc ∧ SafeDoc doc := ⟨wfB_sound _ (by decide), safeB_sound (by decide)⟩

end Oapi.Props
