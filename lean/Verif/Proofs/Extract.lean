import Verif.Spec.Pointer
import Verif.Proofs.Check

/-! What `ExtractKey` finds, for all documents. -/
namespace Oapi
open Spec

theorem split_last (a b : Str) : (Str.split 46 (a ++ 46 :: b)).getLast? = (Str.split 46 b).getLast? := by
  have h : Str.split 46 (a ++ 46 :: b) = Str.split 46 a ++ Str.split 46 b := by
    induction a with
    | nil => simp [Str.split]
    | cons c t ih =>
      simp only [List.cons_append, Str.split]
      by_cases hc : c = 46
      · rw [if_pos hc, if_pos hc, ih]; rfl
      · rw [if_neg hc, if_neg hc, ih]
        cases h : Str.split 46 t with
        | nil => exact absurd h (Str.split_ne_nil _ _)
        | cons x y => rfl
  rw [h, List.getLast?_append]
  cases h2 : (Str.split 46 b).getLast? with
  | none => rw [List.getLast?_eq_none_iff] at h2; exact absurd h2 (Str.split_ne_nil _ _)
  | some x => rfl

/-- the last part of a text -/
theorem keyMatches_iff {key : Str} (hk : (46 : UInt8) ∉ key) (s : Str) :
    Container.keyMatches key s = true ↔ s = key ∨ ∃ a, s = a ++ 46 :: key := by
  unfold Container.keyMatches
  rw [decide_eq_true_iff]
  constructor
  · intro hl
    have hj := Str.join_split 46 s
    obtain ⟨t, ht⟩ : ∃ t, Str.split 46 s = t ++ [key] := by
      have hne := Str.split_ne_nil 46 s
      refine ⟨(Str.split 46 s).dropLast, ?_⟩
      rw [List.getLast?_eq_some_getLast hne, Option.some.injEq] at hl
      rw [← hl, List.dropLast_concat_getLast]
    rw [ht] at hj
    by_cases h : t = []
    · subst h; left; simpa [Str.join] using hj.symm
    · right; rw [join_snoc _ h] at hj; exact ⟨_, hj.symm⟩
  · rintro (rfl | ⟨a, rfl⟩)
    · rw [Str.split_no_sep 46 _ hk]; rfl
    · rw [split_last, Str.split_no_sep 46 _ hk]; rfl

theorem keyMatches_dotted (key : Str) (L : Loc) (st : Step) :
    Container.keyMatches key (dotted (L ++ [st])) = Container.keyMatches key (seg st) := by
  rw [dotted_snoc]
  unfold Gabs.elePath Container.keyMatches
  split
  · rfl
  · rw [split_last]

/-- Everything stored by `ExtractKey`. -/
theorem extract_iff {j : Json} (hw : Json.WF j) {key : Str} (hd : (46 : UInt8) ∉ key) (hkey : ∀ n, key ≠ Str.itoa n) {es : List (Str × Json)}
    (h : Container.extractKey j key = .ok es) (s : Str) (v : Json) :
    (s, v) ∈ es ↔ ∃ L k, getAt j (L ++ [.key k]) = some v ∧ scalar v = true ∧ (k = key ∨ ∃ a, k = a ++ 46 :: key) ∧ s = dotted (L ++ [.key k]) := by
  unfold Container.extractKey at h
  cases hf : Gabs.flatten j with
  | err e => rw [hf] at h; cases h
  | panic => rw [hf] at h; cases h
  | ok ff =>
    rw [hf] at h
    cases h
    have hcont : scalar j = false := by cases j <;> simp [Gabs.flatten] at hf <;> rfl
    rw [flatten_all hf]
    simp only [List.mem_filter, List.mem_map, Prod.mk.injEq, Prod.exists]
    constructor
    · rintro ⟨⟨L, v', hm, rfl, rfl⟩, hk⟩
      rw [mem_leaves j hw] at hm
      have hne : L ≠ [] := by
        rintro rfl; simp [getAt] at hm; rw [hm.1, hm.2] at hcont; cases hcont
      obtain ⟨L', st, rfl⟩ : ∃ L' st, L = L' ++ [st] := ⟨L.dropLast, L.getLast hne, (List.dropLast_concat_getLast hne).symm⟩
      rw [keyMatches_dotted, keyMatches_iff hd] at hk
      cases st with
      | key k => exact ⟨L', k, hm.1, hm.2, hk, rfl⟩
      | idx n =>
        exfalso
        rcases hk with hk | ⟨a, hk⟩
        · exact hkey n hk.symm
        · exact (good_itoa n).2.1 (by rw [show Str.itoa n = a ++ 46 :: key from hk]; simp)
    · rintro ⟨L, k, h1, h2, h3, rfl⟩
      exact ⟨⟨_, v, (mem_leaves j hw _ _).2 ⟨h1, h2⟩, rfl, rfl⟩, by rw [keyMatches_dotted]; exact (keyMatches_iff hd k).2 h3⟩

theorem refKey_no_dot : (46 : UInt8) ∉ refKey := by decide

theorem refKey_not_num (n : Nat) : refKey ≠ Str.itoa n := by
  intro h
  have := Str.itoa_digits n
  rw [← h] at this
  exact absurd (this 36 (by decide)) (by decide)

theorem extract_refs_iff {j : Json} (hw : Json.WF j) {es : List (Str × Json)} (h : Container.extractKey j b!"$ref" = .ok es) (s : Str) (v : Json) :
    (s, v) ∈ es ↔ ∃ L k, getAt j (L ++ [.key k]) = some v ∧ scalar v = true ∧ (k = refKey ∨ ∃ a, k = a ++ 46 :: refKey) ∧
      s = dotted (L ++ [.key k]) :=
  extract_iff hw refKey_no_dot refKey_not_num h s v

/-! ### Iterated maps -/

theorem nodup_of_fst {l : List (Str × Json)} (h : (l.map Prod.fst).Nodup) : l.Nodup := by
  rw [List.Nodup, List.pairwise_map] at h
  exact h.imp fun hab e => hab (by rw [e])

theorem Container.MapOrder.perm {l l' : List (Str × Json)} (h : MapOrder l l') (hn : (l.map Prod.fst).Nodup) : l'.Perm l := by
  refine (List.perm_ext_iff_of_nodup (nodup_of_fst h.1) (nodup_of_fst hn)).2 fun e => ⟨h.2.1 e, fun he => ?_⟩
  obtain ⟨e', h1, h2⟩ := List.mem_map.1 (h.2.2 e he)
  have := h.2.1 e' h1
  obtain ⟨a, b⟩ := e
  obtain ⟨a', b'⟩ := e'
  simp only at h2
  subst h2
  have : b' = b := by
    clear h h1
    induction l with
    | nil => cases he
    | cons x t ih =>
      simp only [List.map_cons, List.nodup_cons] at hn
      rcases List.mem_cons.1 he with e1 | e1 <;> rcases List.mem_cons.1 this with e2 | e2
      · rw [← e1] at e2; cases e2; rfl
      · exact absurd (List.mem_map_of_mem (f := Prod.fst) e2) (by rw [← e1] at hn; exact hn.1)
      · exact absurd (List.mem_map_of_mem (f := Prod.fst) e1) (by rw [← e2] at hn; exact hn.1)
      · exact ih hn.2 e2 e1
  rw [← this]; exact h1

theorem Container.MapOrder.of_perm {l l' : List (Str × Json)} (h : l'.Perm l) (hn : (l.map Prod.fst).Nodup) : MapOrder l l' :=
  ⟨(h.map _).nodup_iff.2 hn, fun _ he => h.mem_iff.1 he, fun _ he => List.mem_map_of_mem (h.mem_iff.2 he)⟩

/-- One way to iterate a map: what was stored first under each key (used in examples). -/
def firsts : List (Str × Json) → List (Str × Json)
  | [] => []
  | e :: t => e :: (firsts t).filter fun x => x.1 ≠ e.1

theorem firsts_order : ∀ l, Container.MapOrder l (firsts l) := by
  intro l
  induction l with
  | nil => exact ⟨.nil, by simp [firsts], by simp⟩
  | cons e t ih =>
    obtain ⟨h1, h2, h3⟩ := ih
    refine ⟨?_, ?_, ?_⟩
    · simp only [firsts, List.map_cons, List.nodup_cons]
      refine ⟨?_, h1.sublist (List.filter_sublist.map _)⟩
      intro hm
      obtain ⟨x, hx, e1⟩ := List.mem_map.1 hm
      simp only [List.mem_filter] at hx
      simp [e1] at hx
    · intro x hx
      rcases List.mem_cons.1 hx with rfl | hx
      · simp
      · exact List.mem_cons_of_mem _ (h2 x (List.mem_filter.1 hx).1)
    · intro x hx
      by_cases hk : x.1 = e.1
      · simp [firsts, hk]
      · rcases List.mem_cons.1 hx with rfl | hx
        · exact absurd rfl hk
        · obtain ⟨y, hy, e1⟩ := List.mem_map.1 (h3 x hx)
          refine List.mem_map.2 ⟨y, ?_, e1⟩
          exact List.mem_cons_of_mem _ (List.mem_filter.2 ⟨hy, by rw [e1]; simpa using hk⟩)

/-- The same, backwards. -/
def lasts (l : List (Str × Json)) : List (Str × Json) := firsts l.reverse

theorem lasts_order (l : List (Str × Json)) : Container.MapOrder l (lasts l) := by
  obtain ⟨h1, h2, h3⟩ := firsts_order l.reverse
  exact ⟨h1, fun e he => List.mem_reverse.1 (h2 e he), fun e he => h3 e (List.mem_reverse.2 he)⟩

/-! ### Addressable references -/

theorem routed_of_safe {j : Json} (P : Str → Prop) (hs : SafeDoc j) : Routed P j := by
  have hsafe : ∀ {L : Loc} {v : Json}, getAt j L = some v → ∀ k, .key k ∈ L → DotSafe k := by
    clear P
    intro L
    induction L generalizing j with
    | nil => intro v _ k hk; cases hk
    | cons st L ih =>
      intro v h k hk
      cases j with
      | obj m =>
        cases st with
        | idx n => simp [getAt, child] at h
        | key k' =>
          rw [getAt_obj_key] at h
          cases hl : Obj.lookup k' m with
          | none => rw [hl] at h; cases h
          | some c =>
            rw [hl] at h
            rcases List.mem_cons.1 hk with e | hk
            · cases e; exact hs.keys _ ((Obj.mem_keys_iff _ _).2 ⟨_, hl⟩)
            · exact ih (hs.lookup hl) h k hk
      | arr xs =>
        cases st with
        | key n => simp [getAt, child] at h
        | idx n =>
          rw [getAt_arr_idx] at h
          cases hl : xs[n]? with
          | none => rw [hl] at h; cases h
          | some c =>
            rw [hl] at h
            rcases List.mem_cons.1 hk with e | hk
            · cases e
            · exact ih (hs.elem hl) h k hk
      | null | bool _ | num _ | str _ => cases st <;> simp [getAt, child] at h
  refine ⟨fun L x h _ k hk => hsafe h k (by simp [hk]), fun L x h _ => lone_of_safe hs h ?_ rfl, fun L a x h => ?_⟩
  · cases j <;> first | rfl | (exfalso; cases L with | nil => simp [getAt, child] at h | cons s L => cases s <;> simp [getAt, child] at h)
  · exact (hsafe h (a ++ 46 :: refKey) (by simp)).2.1 (by simp)

theorem _root_.Oapi.Spec.Routed.mono {P Q : Str → Prop} {j : Json} (h : Routed P j) (hPQ : ∀ x, HasRef j x → Q x → P x) : Routed Q j :=
  ⟨fun L x hx hq => h.way L x hx (hPQ x ⟨L, hx⟩ hq), fun L x hx hq => h.lone L x hx (hPQ x ⟨L, hx⟩ hq), h.plain⟩

/-- An executable check, for references that pass `pb`. -/
def routedB (pb : Str → Bool) (j : Json) : Bool :=
  (leaves j).all fun q => match q.2, q.1.getLast? with
    | .str x, some (.key k) =>
      if k = refKey then !pb x ||
        (q.1.all fun s => match s with | .key k => dotSafeB k | .idx _ => true) &&
        (leaves j).all fun r => decide (dotted r.1 = dotted q.1 → r.1 = q.1)
      else !Container.keyMatches refKey k
    | _, _ => true

theorem routedB_sound {j : Json} {P : Str → Prop} {pb : Str → Bool} (hw : Json.WF j) (hP : ∀ x, P x → pb x = true) (h : routedB pb j = true) : Routed P j := by
  unfold routedB at h
  rw [List.all_eq_true] at h
  refine ⟨fun L x hx hp k hk => ?_, fun L x hx hp L' v h1 h2 h3 => ?_, fun L a x hx => ?_⟩
  · have := h (L ++ [.key refKey], .str x) ((mem_leaves j hw _ _).2 ⟨hx, rfl⟩)
    simp only [List.getLast?_append, List.getLast?_singleton, Option.or_some, Option.some_or, if_true, hP x hp, Bool.not_true, Bool.false_or, Bool.and_eq_true, List.all_eq_true] at this
    exact dotSafeB_sound (this.1 (.key k) (by simp [hk]))
  · have := h (L ++ [.key refKey], .str x) ((mem_leaves j hw _ _).2 ⟨hx, rfl⟩)
    simp only [List.getLast?_append, List.getLast?_singleton, Option.or_some, Option.some_or, if_true, hP x hp, Bool.not_true, Bool.false_or, Bool.and_eq_true, List.all_eq_true] at this
    exact of_decide_eq_true (this.2 (L', v) ((mem_leaves j hw _ _).2 ⟨h1, h2⟩)) h3
  · have := h (L ++ [.key (a ++ 46 :: refKey)], .str x) ((mem_leaves j hw _ _).2 ⟨hx, rfl⟩)
    simp only [List.getLast?_append, List.getLast?_singleton, Option.or_some, Option.some_or] at this
    rw [if_neg] at this
    · rw [(keyMatches_iff refKey_no_dot _).2 (.inr ⟨a, rfl⟩)] at this; cases this
    · intro e
      have := congrArg List.length e
      simp at this
      omega

/-- An executable check that no other scalar has the printed path of `L`. -/
def loneB (j : Json) (L : Loc) : Bool := (leaves j).all fun r => decide (dotted r.1 = dotted L → r.1 = L)

theorem loneB_sound {j : Json} {L : Loc} (hw : Json.WF j) (h : loneB j L = true) : Lone j L := fun L' v h1 h2 h3 =>
  of_decide_eq_true (List.all_eq_true.1 h (L', v) ((mem_leaves j hw _ _).2 ⟨h1, h2⟩)) h3

end Oapi
