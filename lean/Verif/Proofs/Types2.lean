import Verif.Proofs.Types1

/-! The walk: termination. -/
namespace Oapi.Types
open Spec

/-! ### The map of points -/

theorem at_append (m : PMap) (t k : GoType) (p : Pointer) :
    (m.append t p).at k = if k = t then (if (m.at t).any (fun q => p.toStr == q.toStr) then m.at t else m.at t ++ [p]) else m.at k := by
  induction m with
  | nil =>
    simp only [PMap.append, PMap.at]
    by_cases h : t = k
    · subst h; simp
    · rw [if_neg h, if_neg (fun e => h e.symm)]
  | cons e m ih =>
    obtain ⟨k', ps⟩ := e
    simp only [PMap.append]
    by_cases h : k' = t
    · subst h
      rw [if_pos rfl]
      simp only [PMap.at]
      by_cases h2 : k' = k
      · subst h2; simp
      · rw [if_neg h2, if_neg (fun e => h2 e.symm), if_neg h2]
    · rw [if_neg h]
      simp only [PMap.at]
      by_cases h2 : k' = k
      · subst h2
        rw [if_pos rfl, if_neg h, if_pos rfl]
      · rw [if_neg h2, ih]
        by_cases h3 : k = t
        · subst h3; simp [h2]
        · rw [if_neg h3, if_neg h3, if_neg h2]

theorem append_mono {m : PMap} {t k : GoType} {p q : Pointer} (h : q ∈ m.at k) : q ∈ (m.append t p).at k := by
  rw [at_append]
  split
  · rename_i e; subst e
    split
    · exact h
    · exact List.mem_append_left _ h
  · exact h

theorem append_self (m : PMap) (t : GoType) (p : Pointer) : ∃ q ∈ (m.append t p).at t, q.toStr = p.toStr := by
  rw [at_append, if_pos rfl]
  split
  · rename_i h
    rw [List.any_eq_true] at h
    obtain ⟨q, hq, e⟩ := h
    exact ⟨q, hq, by simpa using (eq_comm.1 (by simpa using e))⟩
  · exact ⟨p, by simp, rfl⟩

theorem append_inv {m : PMap} {t k : GoType} {p q : Pointer} (h : q ∈ (m.append t p).at k) : q ∈ m.at k ∨ (k = t ∧ q = p) := by
  rw [at_append] at h
  split at h
  · rename_i e; subst e
    split at h
    · exact .inl h
    · rcases List.mem_append.1 h with h | h
      · exact .inl h
      · exact .inr ⟨rfl, by simpa using h⟩
  · exact .inl h

theorem append_keys (m : PMap) (t : GoType) (p : Pointer) : ∀ k, k ∈ (m.append t p).map Prod.fst ↔ k ∈ m.map Prod.fst ∨ k = t := by
  induction m with
  | nil => intro k; simp [PMap.append]
  | cons e m ih =>
    intro k
    obtain ⟨k', ps⟩ := e
    simp only [PMap.append]
    by_cases h : k' = t
    · subst h
      simp only [if_pos, List.map_cons, List.mem_cons]
      constructor
      · exact fun h => .inl h
      · rintro (h | rfl)
        · exact h
        · exact .inl rfl
    · rw [if_neg h]
      simp only [List.map_cons, List.mem_cons, ih k, or_assoc]

theorem append_nodup {m : PMap} (t : GoType) (p : Pointer) (h : (m.map Prod.fst).Nodup) : ((m.append t p).map Prod.fst).Nodup := by
  induction m with
  | nil => simp [PMap.append]
  | cons e m ih =>
    obtain ⟨k', ps⟩ := e
    simp only [List.map_cons, List.nodup_cons] at h
    simp only [PMap.append]
    by_cases e : k' = t
    · rw [if_pos e]
      simp only [List.map_cons, List.nodup_cons]
      exact h
    · rw [if_neg e]
      simp only [List.map_cons, List.nodup_cons]
      refine ⟨?_, ih h.2⟩
      rw [append_keys]
      rintro (h' | h')
      · exact h.1 h'
      · exact e h'

theorem at_of_mem {m : PMap} (h : (m.map Prod.fst).Nodup) {k : GoType} {ps : List Pointer} (hm : (k, ps) ∈ m) : m.at k = ps := by
  induction m with
  | nil => cases hm
  | cons e m ih =>
    obtain ⟨k', ps'⟩ := e
    simp only [List.map_cons, List.nodup_cons] at h
    simp only [PMap.at]
    rcases List.mem_cons.1 hm with e | hm
    · cases e; rw [if_pos rfl]
    · by_cases e : k' = k
      · subst e; exact absurd (List.mem_map.2 ⟨_, hm, rfl⟩) h.1
      · rw [if_neg e]; exact ih h.2 hm

theorem mem_of_at {m : PMap} {k : GoType} {q : Pointer} (h : q ∈ m.at k) : (k, m.at k) ∈ m := by
  induction m with
  | nil => cases h
  | cons e m ih =>
    obtain ⟨k', ps'⟩ := e
    simp only [PMap.at] at h ⊢
    by_cases e : k' = k
    · subst e; rw [if_pos rfl]; exact List.mem_cons_self
    · rw [if_neg e] at h ⊢; exact List.mem_cons_of_mem _ (ih h)

/-! ### Children -/

theorem next_ne_err (r : Pointer) (u : GoType) (e : Err) : next r u ≠ .err e := by
  have hw : ∀ tok e, withToken r tok ≠ .err e := by
    intro tok e h
    unfold withToken at h
    cases hc : r.clone with
    | ok x => rw [hc] at h; simp only at h; split at h <;> cases h
    | err e' =>
      unfold Pointer.clone at hc
      split at hc <;> cases hc
    | panic => rw [hc] at h; cases h
  have hf : ∀ fs e, fieldNext r fs ≠ .err e := by
    intro fs
    induction fs with
    | nil => intro e h; cases h
    | cons a fs ih =>
      intro e h
      obtain ⟨f, t⟩ := a
      simp only [fieldNext] at h
      split at h
      · split at h
        · split at h
          · cases h
          · exact absurd ‹_› (ih _)
          · cases h
        · exact absurd ‹_› (hw _ _)
        · cases h
      · exact ih e h
  intro h
  unfold next at h
  split at h
  · exact hf _ _ h
  all_goals first
    | (split at h <;> first | exact absurd ‹_› (hw _ _) | cases h)
    | cases h

theorem fieldNext_types {r : Pointer} : ∀ {fs : List (FieldInfo × GoType)} {l}, fieldNext r fs = .ok l →
    ∀ e ∈ l, ∃ f, (f, e.2) ∈ fs ∧ f.exported = true ∧ withToken r f.name = .ok e.1 := by
  intro fs
  induction fs with
  | nil => intro l h; cases h; intro e he; cases he
  | cons a fs ih =>
    intro l h e he
    obtain ⟨f, t⟩ := a
    simp only [fieldNext] at h
    split at h
    · rename_i hx
      split at h
      · rename_i p hp
        split at h
        · rename_i l' hl
          cases h
          rcases List.mem_cons.1 he with rfl | he
          · exact ⟨f, by simp, hx, hp⟩
          · obtain ⟨g, h1, h2⟩ := ih hl e he
            exact ⟨g, by simp [h1], h2⟩
        · cases h
        · cases h
      · cases h
      · cases h
    · obtain ⟨g, h1, h2⟩ := ih h e he
      exact ⟨g, by simp [h1], h2⟩

theorem fieldNext_mem {r : Pointer} : ∀ {fs : List (FieldInfo × GoType)} {l}, fieldNext r fs = .ok l →
    ∀ f t, (f, t) ∈ fs → f.exported = true → ∃ p, (p, t) ∈ l ∧ withToken r f.name = .ok p := by
  intro fs
  induction fs with
  | nil => intro l h f t hm; cases hm
  | cons a fs ih =>
    intro l h f t hm hx
    obtain ⟨g, s⟩ := a
    simp only [fieldNext] at h
    split at h
    · split at h
      · rename_i p hp
        split at h
        · rename_i l' hl
          cases h
          rcases List.mem_cons.1 hm with e | hm
          · cases e; exact ⟨p, by simp, hp⟩
          · obtain ⟨q, h1, h2⟩ := ih hl f t hm hx
            exact ⟨q, by simp [h1], h2⟩
        · cases h
        · cases h
      · cases h
      · cases h
    · rename_i hg
      rcases List.mem_cons.1 hm with e | hm
      · cases e; exact absurd hx hg
      · exact ih h f t hm hx

/-! ### Parts -/

theorem self_mem_parts (t : GoType) : t ∈ parts t := by
  cases t <;> simp [parts]

theorem partsF_mem {fs : List (FieldInfo × GoType)} {x : GoType} : x ∈ partsF fs ↔ ∃ e ∈ fs, x ∈ parts e.2 := by
  induction fs with
  | nil => simp [partsF]
  | cons a fs ih =>
    obtain ⟨f, t⟩ := a
    simp [partsF, ih]

mutual
theorem parts_trans {x y : GoType} (t : GoType) (hx : x ∈ parts t) (hy : y ∈ parts x) : y ∈ parts t := by
  match t with
  | .struct fs =>
    have hx' : x = .struct fs ∨ x ∈ partsF fs := by simpa [parts] using hx
    rcases hx' with h | h
    · rw [h] at hy; exact hy
    · have := partsF_trans fs h hy
      simp [parts, this]
  | .pointer e =>
    have hx' : x = .pointer e ∨ x ∈ parts e := by simpa [parts] using hx
    rcases hx' with h | h
    · rw [h] at hy; exact hy
    · have := parts_trans e h hy; simp [parts, this]
  | .slice e =>
    have hx' : x = .slice e ∨ x ∈ parts e := by simpa [parts] using hx
    rcases hx' with h | h
    · rw [h] at hy; exact hy
    · have := parts_trans e h hy; simp [parts, this]
  | .array n e =>
    have hx' : x = .array n e ∨ x ∈ parts e := by simpa [parts] using hx
    rcases hx' with h | h
    · rw [h] at hy; exact hy
    · have := parts_trans e h hy; simp [parts, this]
  | .chan n e =>
    have hx' : x = .chan n e ∨ x ∈ parts e := by simpa [parts] using hx
    rcases hx' with h | h
    · rw [h] at hy; exact hy
    · have := parts_trans e h hy; simp [parts, this]
  | .map k e =>
    have hx' : x = .map k e ∨ x ∈ parts k ∨ x ∈ parts e := by simpa [parts] using hx
    rcases hx' with h | h | h
    · rw [h] at hy; exact hy
    · have := parts_trans k h hy; simp [parts, this]
    · have := parts_trans e h hy; simp [parts, this]
  | .basic k =>
    have hx' : x = .basic k := by simpa [parts] using hx
    rw [hx'] at hy; exact hy
  | .named k =>
    have hx' : x = .named k := by simpa [parts] using hx
    rw [hx'] at hy; exact hy
  | .other k =>
    have hx' : x = .other k := by simpa [parts] using hx
    rw [hx'] at hy; exact hy
termination_by structural t
theorem partsF_trans {x y : GoType} (fs : List (FieldInfo × GoType)) (hx : x ∈ partsF fs) (hy : y ∈ parts x) : y ∈ partsF fs := by
  match fs with
  | [] => simp [partsF] at hx
  | (f, t) :: rest =>
    have hx' : x ∈ parts t ∨ x ∈ partsF rest := by simpa [partsF] using hx
    rcases hx' with h | h
    · have := parts_trans t h hy; simp [partsF, this]
    · have := partsF_trans rest h hy; simp [partsF, this]
termination_by structural fs
end

theorem stepInto_parts {u c : GoType} {tok : Str} (h : stepInto u tok = some c) : c ∈ parts u := by
  unfold stepInto at h
  split at h
  · rename_i fs
    rw [Option.map_eq_some_iff] at h
    obtain ⟨e, he, rfl⟩ := h
    have := List.mem_of_find?_eq_some he
    simp only [parts, List.mem_cons]
    exact .inr (partsF_mem.2 ⟨e, this, self_mem_parts _⟩)
  · split at h
    · cases h; simp [parts, self_mem_parts]
    · cases h
  all_goals first
    | (split at h
       · cases h; simp [parts, self_mem_parts]
       · cases h)
    | cases h

/-- A set of types that is closed under parts and underlying types. -/
structure Closed (env : Env) (W : List GoType) : Prop where
  parts : ∀ x ∈ W, ∀ y ∈ parts x, y ∈ W
  under : ∀ x ∈ W, under env x ∈ W

theorem world_closed (env : Env) (t : GoType) : Closed env (world env t) := by
  constructor
  · intro x hx y hy
    unfold world at hx ⊢
    rcases List.mem_cons.1 hx with rfl | hx
    · simp only [Types.parts, List.mem_singleton] at hy; subst hy; simp
    · rcases List.mem_append.1 hx with hx | hx
      · exact List.mem_cons_of_mem _ (List.mem_append_left _ (parts_trans t hx hy))
      · rw [List.mem_flatMap] at hx
        obtain ⟨d, hd, hx⟩ := hx
        exact List.mem_cons_of_mem _ (List.mem_append_right _ (List.mem_flatMap.2 ⟨d, hd, parts_trans _ hx hy⟩))
  · intro x hx
    unfold Types.under
    split
    · split
      · rename_i d hd
        unfold world
        exact List.mem_cons_of_mem _ (List.mem_append_right _ (List.mem_flatMap.2 ⟨d, List.mem_of_getElem? hd, self_mem_parts _⟩))
      · simp [world]
    · exact hx

theorem self_mem_world (env : Env) (t : GoType) : t ∈ world env t := by
  unfold world
  exact List.mem_cons_of_mem _ (List.mem_append_left _ (self_mem_parts t))

theorem next_parts {r : Pointer} {u : GoType} {l} (h : next r u = .ok l) : ∀ e ∈ l, e.2 ∈ parts u := by
  intro e he
  unfold next at h
  split at h
  · obtain ⟨f, h1, _⟩ := fieldNext_types h e he
    simp only [parts, List.mem_cons]
    exact .inr (partsF_mem.2 ⟨_, h1, self_mem_parts _⟩)
  all_goals first
    | (split at h
       · cases h
         rw [List.mem_singleton] at he
         subst he
         simp [parts, self_mem_parts]
       · cases h
       · cases h)
    | (cases h; cases he)

/-! ### Enough depth -/

theorem pigeonT {U pp : List GoType} (hn : pp.Nodup) (hs : ∀ s ∈ pp, s ∈ U) : pp.length ≤ U.length := by
  induction pp generalizing U with
  | nil => simp
  | cons a pp ih =>
    obtain ⟨h1, h2⟩ := List.nodup_cons.1 hn
    have := ih (U := U.erase a) h2 (fun s hs' => (List.mem_erase_of_ne (by rintro rfl; exact h1 hs')).2 (hs s (by simp [hs'])))
    have hl := List.length_erase_of_mem (hs a (by simp))
    have hpos : 0 < U.length := List.length_pos_of_mem (hs a (by simp))
    simp only [List.length_cons]
    omega

theorem nodup_snocT {pp : List GoType} {s : GoType} (h : pp.Nodup) (hs : s ∉ pp) : (pp ++ [s]).Nodup := by
  rw [List.nodup_append]
  refine ⟨h, by simp, ?_⟩
  intro a ha b hb
  rw [List.mem_singleton] at hb
  subst hb
  rintro rfl
  exact hs ha

theorem walkAll_congr {env : Env} {c c' : Pointer → GoType → PMap → Res PMap} : ∀ {l : List (Pointer × GoType)},
    (∀ e ∈ l, ∀ r m, c r e.2 m = c' r e.2 m ∧ c r e.2 m ≠ .err .fuel) →
    ∀ m, walkAll env c l m = walkAll env c' l m ∧ walkAll env c l m ≠ .err .fuel := by
  intro l
  induction l with
  | nil => intro _ m; exact ⟨rfl, by intro h; cases h⟩
  | cons a l ih =>
    intro hl m
    obtain ⟨r, t⟩ := a
    obtain ⟨h1, h2⟩ := hl (r, t) (by simp) r m
    simp only [walkAll]
    rw [← h1]
    cases hc : c r t m with
    | err e => refine ⟨rfl, ?_⟩; intro h; cases h; exact h2 hc
    | panic => exact ⟨rfl, by intro h; cases h⟩
    | ok m1 =>
      simp only
      have hN : walkNamed env c t m1 = walkNamed env c' t m1 ∧ walkNamed env c t m1 ≠ .err .fuel := by
        unfold walkNamed
        split
        · split
          · exact ⟨rfl, by intro h; cases h⟩
          · rename_i d hd
            unfold newPoint
            split
            · rename_i h; split at h
              · cases h
              · exact hl (r, _) (by simp) _ _
            · rename_i h; split at h <;> cases h
            · exact ⟨rfl, by intro h; cases h⟩
        · exact ⟨rfl, by intro h; cases h⟩
      rw [← hN.1]
      cases hn : walkNamed env c t m1 with
      | err e => refine ⟨rfl, ?_⟩; intro h; cases h; exact hN.2 hn
      | panic => exact ⟨rfl, by intro h; cases h⟩
      | ok m2 => exact ih (fun e he => hl e (by simp [he])) m2

theorem walk_same {env : Env} {W : List GoType} (hW : Closed env W) : ∀ n n' r t p m, t ∈ W → p.Nodup → (∀ x ∈ p, x ∈ W) →
    W.length + 1 ≤ n + p.length → W.length + 1 ≤ n' + p.length →
    walk env n r t p m = walk env n' r t p m ∧ walk env n r t p m ≠ .err .fuel := by
  intro n
  induction n with
  | zero =>
    intro n' r t p m _ hp hs h1
    have := pigeonT hp hs
    omega
  | succ n ih =>
    intro n' r t p m ht hp hs h1 h2
    cases n' with
    | zero =>
      have := pigeonT hp hs
      omega
    | succ n' =>
      simp only [walk]
      by_cases hu : under env t ∈ p
      · rw [if_pos hu, if_pos hu]; exact ⟨rfl, by intro h; cases h⟩
      · rw [if_neg hu, if_neg hu]
        cases hx : next r (under env t) with
        | err e => exact absurd hx (next_ne_err _ _ _)
        | panic => exact ⟨rfl, by intro h; cases h⟩
        | ok l =>
          simp only
          apply walkAll_congr
          intro e he r' m'
          apply ih
          · exact hW.parts _ (hW.under _ ht) _ (next_parts hx e he)
          · exact nodup_snocT hp hu
          · intro x hx
            rcases List.mem_append.1 hx with hx | hx
            · exact hs x hx
            · rw [List.mem_singleton] at hx; subst hx; exact hW.under _ ht
          · simp only [List.length_append, List.length_cons, List.length_nil]; omega
          · simp only [List.length_append, List.length_cons, List.length_nil]; omega

end Oapi.Types
