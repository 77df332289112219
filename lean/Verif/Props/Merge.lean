import Verif.Proofs.Merge2
import Verif.Proofs.Check

/-! Properties C15–C20: merging documents. -/
namespace Oapi.Props
open Oapi Spec Container

/-- C15: `MergeDefault` always succeeds on objects, in whatever order the source's maps are iterated; the result is the
destination with the source filling its gaps. -/
theorem C15_default_fills {d s : Obj} {s' : Json} (hd : Json.WF (.obj d)) (hs : Json.WF (.obj s))
    (ho : Reorder (.obj s) s') :
    ∃ r, merge (.obj d) s' mergeDefault = .ok (.obj r) ∧ Json.WF (.obj r) ∧ Fills (.obj d) (.obj s) (.obj r) := by
  rw [merge_reorder uniform_default keepsWF_default ⟨d, rfl⟩ hd (Json.NodupKeys_of_WF _ hs) ho]
  rw [merge_localVal keepsWF_default hd]
  obtain ⟨x, hx⟩ := localVal_total (f := mergeDefault) (fun a _ => ⟨a, rfl⟩) (.obj s) (some (.obj d))
  have hn := localVal_default hs hx
  have hw := localVal_WF keepsWF_default (.obj s) (some (.obj d)) x (by intro y hy; cases hy; exact hd) hx
  rcases isObj_cases x with h1 | ⟨r, rfl⟩
  · have := hn []; rw [firstWins_nil, nodeAt_leaf h1] at this; simp at this
  · exact ⟨r, hx, hw, fills_of rfl hn⟩

/-- C16: `MergeOverride` always succeeds on objects; the result is the source with the destination filling its gaps. -/
theorem C16_override_fills {d s : Obj} {s' : Json} (hd : Json.WF (.obj d)) (hs : Json.WF (.obj s))
    (ho : Reorder (.obj s) s') :
    ∃ r, merge (.obj d) s' mergeOverride = .ok (.obj r) ∧ Json.WF (.obj r) ∧ Fills (.obj s) (.obj d) (.obj r) := by
  rw [merge_reorder uniform_override keepsWF_override ⟨d, rfl⟩ hd (Json.NodupKeys_of_WF _ hs) ho]
  rw [merge_localVal keepsWF_override hd]
  obtain ⟨x, hx⟩ := localVal_total (f := mergeOverride) (fun _ b => ⟨b, rfl⟩) (.obj s) (some (.obj d))
  have hn := localVal_override hs hx
  have hw := localVal_WF keepsWF_override (.obj s) (some (.obj d)) x (by intro y hy; cases hy; exact hd) hx
  rcases isObj_cases x with h1 | ⟨r, rfl⟩
  · have := hn []; rw [firstWins_nil, nodeAt_leaf h1] at this; simp at this
  · exact ⟨r, hx, hw, fills_of rfl hn⟩

/-- The specification used in C15–C17 determines the document: key paths tell documents apart. -/
theorem C15_key_paths_determine {a b : Json} (ha : Json.WF a) (hb : Json.WF b) (h : ∀ p, nodeAt a p = nodeAt b p) :
    a = b := nodeAt_ext a b ha hb h

theorem C15_fills_unique {a b r r' : Json} (hr : Json.WF r) (hr' : Json.WF r') (h : Fills a b r) (h' : Fills a b r') :
    r = r' := by
  apply nodeAt_ext r r' hr hr'
  intro p
  have h1 := h p; have h2 := h' p
  cases ha : nodeAt a p with
  | some n => rw [h1.1 n ha, h2.1 n ha]
  | none =>
    by_cases hs : Shadowed a p
    · rw [h1.2.1 ha hs, h2.2.1 ha hs]
    · rw [h1.2.2 ha hs, h2.2.2 ha hs]

/-- C17: `MergeStrict` succeeds exactly when the documents do not collide, and then yields their union; otherwise it
reports a collision. -/
theorem C17_strict_iff {d s : Obj} {s' : Json} (hd : Json.WF (.obj d)) (hs : Json.WF (.obj s))
    (ho : Reorder (.obj s) s') :
    ((∃ r, merge (.obj d) s' mergeStrict = .ok r) ↔ ¬ Collide (.obj d) (.obj s)) ∧
    (∀ r, merge (.obj d) s' mergeStrict = .ok r → Json.WF r ∧ Union (.obj d) (.obj s) r) ∧
    (Collide (.obj d) (.obj s) → merge (.obj d) s' mergeStrict = .err .collision) := by
  rw [merge_reorder uniform_strict keepsWF_strict ⟨d, rfl⟩ hd (Json.NodupKeys_of_WF _ hs) ho]
  rcases merge_strict hd hs with ⟨hc, he⟩ | ⟨hc, r, hr, hw, hu⟩
  · rw [he]; simp [hc]
  · rw [hr]
    refine ⟨⟨fun _ => hc, fun _ => ⟨_, rfl⟩⟩, fun r' h => ?_, fun h => absurd h hc⟩
    simp at h; subst h; exact ⟨hw, hu⟩

/-- C18: for each of the three strategies the outcome, success or failure, is the same for every iteration order of the
source's maps, at every level. -/
theorem C18_order_independent {f : Merger} (hf : f = mergeStrict ∨ f = mergeDefault ∨ f = mergeOverride)
    {d : Obj} {s s' s'' : Json} (hd : Json.WF (.obj d)) (hs : Json.WF s) (h' : Reorder s s') (h'' : Reorder s s'') :
    merge (.obj d) s' f = merge (.obj d) s'' f := by
  have hu : Uniform f ∧ KeepsWF f := by
    rcases hf with rfl | rfl | rfl
    · exact ⟨uniform_strict, keepsWF_strict⟩
    · exact ⟨uniform_default, keepsWF_default⟩
    · exact ⟨uniform_override, keepsWF_override⟩
  obtain ⟨hu, hk⟩ := hu
  rw [merge_reorder hu hk ⟨d, rfl⟩ hd (Json.NodupKeys_of_WF _ hs) h',
      merge_reorder hu hk ⟨d, rfl⟩ hd (Json.NodupKeys_of_WF _ hs) h'']

/-! ### C19 -/

private theorem sorted_perm_eq : ∀ {a b : List File}, a.Perm b →
    (a.Pairwise fun x y => Str.lt y.path x.path = false) → (b.Pairwise fun x y => Str.lt y.path x.path = false) →
    (a.map File.path).Nodup → a = b
  | [], b, h, _, _, _ => (List.nil_perm.1 h).symm
  | x :: a, [], h, _, _, _ => absurd h.symm (by simp)
  | x :: a, y :: b, h, ha, hb, hn => by
    have hxy : x = y := by
      have hx : x ∈ y :: b := h.mem_iff.1 (by simp)
      have hy : y ∈ x :: a := h.mem_iff.2 (by simp)
      simp only [List.mem_cons] at hx hy
      rcases hx with e | hx
      · exact e
      rcases hy with e | hy
      · exact e.symm
      have h1 := (List.pairwise_cons.1 ha).1 y hy
      have h2 := (List.pairwise_cons.1 hb).1 x hx
      by_cases hp : x.path = y.path
      · simp only [List.map_cons, List.nodup_cons] at hn
        exact absurd (List.mem_map.2 ⟨y, hy, hp.symm⟩) hn.1
      · have := Str.lt_tri hp h2; rw [this] at h1; simp at h1
    rw [hxy] at h ha hn ⊢
    rw [sorted_perm_eq (List.perm_cons y |>.1 h) (List.pairwise_cons.1 ha).2 (List.pairwise_cons.1 hb).2
      (by simp only [List.map_cons, List.nodup_cons] at hn; exact hn.2)]

/-- C19: with distinct file paths, sorting removes all influence of the discovery order, so any merge strategy sees
the same list. -/
theorem C19_sort_removes_discovery_order {cc cc' a a' : List File} (hperm : cc'.Perm cc)
    (hd : (cc.map File.path).Nodup) (ha : SortResult cc a) (ha' : SortResult cc' a') (f : Merger) :
    a = a' ∧ mergeAll f (a.map File.doc) = mergeAll f (a'.map File.doc) := by
  have h1 : (a.map File.path).Nodup := ((ha.1.map _).nodup_iff).2 hd
  have : a = a' := sorted_perm_eq (ha.1.trans (hperm.symm.trans ha'.1.symm)) ha.2 ha'.2 h1
  exact ⟨this, by rw [this]⟩

/-- C19: strict merging succeeds exactly on pairwise collision-free documents; the result is bound exactly where one
of them is. -/
theorem C19_strict_list (cc : List Obj) (hw : ∀ d ∈ cc, Json.WF (.obj d)) :
    ((cc.Pairwise fun x y => ¬ Collide (.obj x) (.obj y)) ∧
      ∃ r, mergeAll mergeStrict (cc.map Json.obj) = .ok r ∧ Json.WF r ∧
        ∀ p n, p ≠ [] → (nodeAt r p = some n ↔ ∃ d ∈ cc, nodeAt (.obj d) p = some n)) ∨
    (¬ (cc.Pairwise fun x y => ¬ Collide (.obj x) (.obj y)) ∧
      mergeAll mergeStrict (cc.map Json.obj) = .err .collision) := by
  rcases strict_fold cc hw [] (by simp [Obj.Sorted]) with ⟨⟨_, h⟩, r, hr, hw, hn⟩ | ⟨h, he⟩
  · left
    refine ⟨h, .obj r, hr, hw, fun p n hp => ?_⟩
    rw [hn p n]
    cases p with
    | nil => exact absurd rfl hp
    | cons k p => simp [nodeAt_obj_cons]
  · right
    exact ⟨fun h' => h ⟨fun d _ => not_collide_empty d, h'⟩, he⟩

/-- C19: the strict merge of any documents (even from files with equal paths) is the same in every order. -/
theorem C19_strict_any_order {cc cc' : List Obj} (hp : cc'.Perm cc) (hw : ∀ d ∈ cc, Json.WF (.obj d)) :
    mergeAll mergeStrict (cc'.map Json.obj) = mergeAll mergeStrict (cc.map Json.obj) := by
  have hw' : ∀ d ∈ cc', Json.WF (.obj d) := fun d h => hw d (hp.mem_iff.1 h)
  have hpw : (cc'.Pairwise fun x y => ¬ Collide (.obj x) (.obj y)) ↔ (cc.Pairwise fun x y => ¬ Collide (.obj x) (.obj y)) :=
    hp.pairwise_iff (fun h h' => h (collide_comm.1 h'))
  rcases strict_fold cc' hw' [] (by simp [Obj.Sorted]) with ⟨⟨_, h⟩, r, hr, hrw, hn⟩ | ⟨h, he⟩
  · rcases strict_fold cc hw [] (by simp [Obj.Sorted]) with ⟨⟨_, h2⟩, r2, hr2, hrw2, hn2⟩ | ⟨h2, he2⟩
    · show mergeFrom _ _ _ = mergeFrom _ _ _
      rw [hr, hr2]; congr 1
      apply nodeAt_ext _ _ hrw hrw2
      intro p
      apply Option.ext
      intro n
      rw [hn p n, hn2 p n]
      simp [hp.mem_iff]
    · exact absurd ⟨fun d _ => not_collide_empty d, hpw.1 h⟩ h2
  · rcases strict_fold cc hw [] (by simp [Obj.Sorted]) with ⟨⟨_, h2⟩, r2, hr2, hrw2, hn2⟩ | ⟨h2, he2⟩
    · exact absurd ⟨fun d _ => not_collide_empty d, hpw.2 h2⟩ h
    · show mergeFrom _ _ _ = mergeFrom _ _ _
      rw [he, he2]

/-- C19: strict merging of two documents is commutative. -/
theorem C19_strict_comm {a b : Obj} (ha : Json.WF (.obj a)) (hb : Json.WF (.obj b)) :
    merge (.obj a) (.obj b) mergeStrict = merge (.obj b) (.obj a) mergeStrict := by
  rcases merge_strict ha hb with ⟨hc, he⟩ | ⟨hc, r, hr, hw, hu⟩
  · rcases merge_strict hb ha with ⟨hc', he'⟩ | ⟨hc', _⟩
    · rw [he, he']
    · exact absurd (collide_comm.1 hc) hc'
  · rcases merge_strict hb ha with ⟨hc', he'⟩ | ⟨hc', r', hr', hw', hu'⟩
    · exact absurd (collide_comm.1 hc') hc
    · rw [hr, hr']; congr 1
      apply nodeAt_ext _ _ hw hw'
      intro p
      rw [union_comm hc hu p, hu' p]

/-- C20: as soon as two of the documents have a scalar `openapi` member (equal or not), the strict merge of all
reports a collision. -/
theorem C20_two_specs_never_merge (pre mid post : List Obj) (x y : Obj) {vx vy : Json}
    (hw : ∀ d ∈ pre ++ x :: mid ++ y :: post, Json.WF (.obj d))
    (hx : Obj.lookup b!"openapi" x = some vx) (hy : Obj.lookup b!"openapi" y = some vy)
    (sx : scalar vx = true ∨ scalar vy = true) :
    mergeAll mergeStrict ((pre ++ x :: mid ++ y :: post).map Json.obj) = .err .collision := by
  rcases C19_strict_list _ hw with ⟨h, _⟩ | ⟨_, h⟩
  · exfalso
    rw [List.pairwise_append] at h
    apply h.2.2 x (by simp) y (by simp)
    obtain ⟨n1, h1⟩ := nodeAt_nil_some vx
    obtain ⟨n2, h2⟩ := nodeAt_nil_some vy
    refine ⟨[b!"openapi"], n1, n2, by simp [nodeAt_obj_cons, hx, h1], by simp [nodeAt_obj_cons, hy, h2], ?_⟩
    rintro ⟨e1, e2⟩
    subst e1; subst e2
    rcases sx with sx | sx
    · cases vx <;> simp [scalar, nodeAt] at sx h1
    · cases vy <;> simp [scalar, nodeAt] at sx h2
  · exact h

/-! ### concrete cases -/

private def exD : Obj := [(b!"a", .obj [(b!"x", .num 1)]), (b!"b", .str b!"keep")]
private def exS : Obj := [(b!"a", .obj [(b!"x", .num 2), (b!"y", .arr [.num 3])]), (b!"b", .obj [(b!"q", .null)]), (b!"c", .null)]
private def exS' : Obj := [(b!"c", .null), (b!"b", .obj [(b!"q", .null)]), (b!"a", .obj [(b!"y", .arr [.num 3]), (b!"x", .num 2)])]

private theorem exReorder : Reorder (.obj exS) (.obj exS') :=
  .trans (.member [] _ b!"a" (.shuffle (List.Perm.swap _ _ _)))
    (.shuffle (List.Perm.trans (List.Perm.cons _ (List.Perm.swap _ _ _))
      (List.Perm.trans (List.Perm.swap _ _ _) (List.Perm.cons _ (List.Perm.swap _ _ _)))))

example : Json.WF (.obj exD) ∧ Json.WF (.obj exS) ∧ Reorder (.obj exS) (.obj exS') :=
  ⟨wfB_sound _ (by decide), wfB_sound _ (by decide), exReorder⟩

example : merge (.obj exD) (.obj exS') mergeDefault =
    .ok (.obj [(b!"a", .obj [(b!"x", .num 1), (b!"y", .arr [.num 3])]), (b!"b", .str b!"keep"), (b!"c", .null)]) := by decide
example : merge (.obj exD) (.obj exS') mergeOverride =
    .ok (.obj [(b!"a", .obj [(b!"x", .num 2), (b!"y", .arr [.num 3])]), (b!"b", .obj [(b!"q", .null)]), (b!"c", .null)]) := by decide
example : merge (.obj exD) (.obj exS') mergeStrict = .err .collision := by decide
/-- a shadowed path -/
example : Shadowed (.obj exD) [b!"b", b!"q"] := ⟨[b!"b"], .str b!"keep", by decide, rfl⟩
example : Collide (.obj exD) (.obj exS) := ⟨[b!"a", b!"x"], .leaf (.num 1), .leaf (.num 2), rfl, rfl, by simp⟩

/-- two files that do not collide -/
example : mergeAll mergeStrict [.obj [(b!"a", .obj [(b!"x", .num 1)])], .obj [(b!"a", .obj [(b!"y", .num 2)])]] =
    .ok (.obj [(b!"a", .obj [(b!"x", .num 1), (b!"y", .num 2)])]) := by decide

example : SortResult [⟨b!"b", .null⟩, ⟨b!"a", .null⟩] [⟨b!"a", .null⟩, ⟨b!"b", .null⟩] :=
  ⟨List.Perm.swap _ _ _, by simp; decide⟩

end Oapi.Props
