import Verif.Proofs.Flatten
import Verif.Spec.Subst

/-! Simultaneous replacement of parts of a document, and its relation to one-by-one writes. -/
namespace Oapi
open Spec

theorem subst_some {σ : Loc → Option Json} {v : Json} (h : σ [] = some v) (j : Json) : subst σ j = v := by
  cases j <;> simp [subst, h]

theorem subst_obj {σ : Loc → Option Json} (h : σ [] = none) (m : Obj) : subst σ (.obj m) = .obj (substO σ m) := by
  simp [subst, h]
theorem subst_arr {σ : Loc → Option Json} (h : σ [] = none) (xs : List Json) : subst σ (.arr xs) = .arr (substA σ 0 xs) := by
  simp [subst, h]
theorem subst_scalar {σ : Loc → Option Json} (h : σ [] = none) {j : Json} (hs : scalar j = true) : subst σ j = j := by
  cases j <;> simp [subst, h] <;> cases hs

theorem keys_substO (σ : Loc → Option Json) (m : Obj) : Obj.keys (substO σ m) = Obj.keys m := by
  induction m with
  | nil => rfl
  | cons p t ih => obtain ⟨k, v⟩ := p; simp only [substO, Obj.keys_cons, ih]

theorem lookup_substO (σ : Loc → Option Json) (m : Obj) (k : Str) :
    Obj.lookup k (substO σ m) = (Obj.lookup k m).map (subst fun l => σ (.key k :: l)) := by
  induction m with
  | nil => rfl
  | cons p t ih =>
    obtain ⟨k', v⟩ := p
    simp only [substO, Obj.lookup_cons]
    split
    · rename_i e; subst e; rfl
    · exact ih

theorem getElem_substA (σ : Loc → Option Json) (xs : List Json) (i n : Nat) :
    (substA σ i xs)[n]? = xs[n]?.map (subst fun l => σ (.idx (i + n) :: l)) := by
  induction xs generalizing i n with
  | nil => rfl
  | cons x t ih =>
    cases n with
    | zero => simp [substA]
    | succ n =>
      simp only [substA, List.getElem?_cons_succ]
      rw [ih]; congr 2
      funext l; rw [show i + 1 + n = i + (n + 1) by omega]

theorem length_substA (σ : Loc → Option Json) (i : Nat) (xs : List Json) : (substA σ i xs).length = xs.length := by
  induction xs generalizing i with
  | nil => rfl
  | cons x t ih => simp [substA, ih]

theorem sorted_keys {a b : Obj} (h : Obj.keys a = Obj.keys b) (hb : Obj.Sorted b) : Obj.Sorted a := by
  induction a generalizing b with
  | nil => exact True.intro
  | cons p t ih =>
    cases b with
    | nil => cases h
    | cons q u =>
      obtain ⟨k, v⟩ := p; obtain ⟨k', v'⟩ := q
      simp only [Obj.keys_cons, List.cons.injEq] at h
      simp only [Obj.Sorted] at hb ⊢
      rw [h.1, h.2]
      exact ⟨hb.1, ih h.2 hb.2⟩

mutual
theorem subst_WF (σ : Loc → Option Json) (hσ : ∀ l v, σ l = some v → Json.WF v) (j : Json) (hw : Json.WF j) :
    Json.WF (subst σ j) := by
  cases h0 : σ [] with
  | some v => rw [subst_some h0]; exact hσ _ _ h0
  | none =>
    match j with
    | .null | .bool _ | .num _ | .str _ => rw [subst_scalar h0 rfl]; exact hw
    | .arr xs =>
      rw [subst_arr h0]
      rw [Json.WF_arr] at hw ⊢
      exact substA_WF σ hσ 0 xs hw
    | .obj m =>
      rw [subst_obj h0]
      rw [Json.WF_obj] at hw ⊢
      exact ⟨sorted_keys (keys_substO σ m) hw.1, substO_WF σ hσ m hw.2⟩
termination_by structural j
theorem substO_WF (σ : Loc → Option Json) (hσ : ∀ l v, σ l = some v → Json.WF v) (m : List (Str × Json)) (hw : Json.WFO m) :
    Json.WFO (substO σ m) := by
  match m with
  | [] => simp [substO]
  | (k, v) :: t =>
    simp only [substO, Json.WFO] at hw ⊢
    exact ⟨subst_WF _ (fun l w h => hσ _ w h) v hw.1, substO_WF σ hσ t hw.2⟩
termination_by structural m
theorem substA_WF (σ : Loc → Option Json) (hσ : ∀ l v, σ l = some v → Json.WF v) (i : Nat) (xs : List Json) (hw : Json.WFL xs) :
    Json.WFL (substA σ i xs) := by
  match xs with
  | [] => simp [substA, Json.WFL]
  | x :: t =>
    simp only [substA, Json.WFL] at hw ⊢
    exact ⟨subst_WF _ (fun l w h => hσ _ w h) x hw.1, substA_WF σ hσ (i + 1) t hw.2⟩
termination_by structural xs
end

mutual
theorem subst_none (σ : Loc → Option Json) (hσ : ∀ l, σ l = none) (j : Json) : subst σ j = j := by
  match j with
  | .null | .bool _ | .num _ | .str _ => rw [subst_scalar (hσ []) rfl]
  | .arr xs => rw [subst_arr (hσ []), substA_none σ hσ 0 xs]
  | .obj m => rw [subst_obj (hσ []), substO_none σ hσ m]
termination_by structural j
theorem substO_none (σ : Loc → Option Json) (hσ : ∀ l, σ l = none) (m : List (Str × Json)) : substO σ m = m := by
  match m with
  | [] => rfl
  | (k, v) :: t => simp only [substO]; rw [subst_none _ (fun l => hσ _) v, substO_none σ hσ t]
termination_by structural m
theorem substA_none (σ : Loc → Option Json) (hσ : ∀ l, σ l = none) (i : Nat) (xs : List Json) : substA σ i xs = xs := by
  match xs with
  | [] => rfl
  | x :: t => simp only [substA]; rw [subst_none _ (fun l => hσ _) x, substA_none σ hσ (i + 1) t]
termination_by structural xs
end

/-- Only the values of `σ` at existing locations matter. -/
theorem subst_congr {σ τ : Loc → Option Json} {j : Json} (hw : Json.WF j) (h : ∀ l v, getAt j l = some v → σ l = τ l) :
    subst σ j = subst τ j := by
  suffices H : ∀ (n : Nat) (σ τ : Loc → Option Json) (j : Json), sizeOf j < n → Json.WF j → (∀ l v, getAt j l = some v → σ l = τ l) →
      subst σ j = subst τ j from H (sizeOf j + 1) σ τ j (by omega) hw h
  intro n
  induction n with
  | zero => intro σ τ j hn; omega
  | succ n ih =>
    intro σ τ j hn hw h
    have h0 := h [] j rfl
    cases hs : σ [] with
    | some v => rw [subst_some hs, subst_some (h0 ▸ hs)]
    | none =>
      have ht : τ [] = none := by rw [← h0]; exact hs
      cases j with
      | null | bool | num | str => rw [subst_scalar hs rfl, subst_scalar ht rfl]
      | obj m =>
        rw [subst_obj hs, subst_obj ht]
        congr 1
        rw [Json.WF_obj] at hw
        refine Obj.ext_lookup (sorted_keys (keys_substO σ m) hw.1) (sorted_keys (keys_substO τ m) hw.1) ?_
        intro k
        rw [lookup_substO, lookup_substO]
        cases hl : Obj.lookup k m with
        | none => rfl
        | some c =>
          simp only [Option.map_some, Option.some.injEq]
          have hm := Obj.lookup_mem hl
          apply ih
          · have h1 := List.sizeOf_lt_of_mem hm
            have h2 : sizeOf c < sizeOf (k, c) := by simp; omega
            have h3 : sizeOf m < sizeOf (Json.obj m) := by simp
            omega
          · exact Json.WFO_lookup hw.2 hl
          · intro l v hv
            apply h (.key k :: l) v
            rw [getAt_obj_key, hl]; exact hv
      | arr xs =>
        rw [subst_arr hs, subst_arr ht]
        congr 1
        apply List.ext_getElem?
        intro i
        rw [getElem_substA, getElem_substA]
        cases hl : xs[i]? with
        | none => rfl
        | some c =>
          simp only [Option.map_some, Option.some.injEq, Nat.zero_add]
          have hm := List.mem_of_getElem? hl
          apply ih
          · have h1 := List.sizeOf_lt_of_mem hm
            have h3 : sizeOf xs < sizeOf (Json.arr xs) := by simp
            omega
          · rw [Json.WF_arr, Json.WFL_iff] at hw; exact hw c hm
          · intro l v hv
            apply h (.idx i :: l) v
            rw [getAt_arr_idx, hl]; exact hv

/-- One more replacement. -/
def upd (σ : Loc → Option Json) (L : Loc) (v : Json) : Loc → Option Json := fun l => if l = L then some v else σ l

theorem upd_cons (σ : Loc → Option Json) (s : Step) (L : Loc) (v : Json) :
    (fun l => upd σ (s :: L) v (s :: l)) = upd (fun l => σ (s :: l)) L v := by
  funext l; simp [upd]

theorem upd_ne (σ : Loc → Option Json) {s t : Step} (h : t ≠ s) (L : Loc) (v : Json) :
    (fun l => upd σ (s :: L) v (t :: l)) = fun l => σ (t :: l) := by
  funext l; simp [upd, h]

theorem subst_upd {L : Loc} : ∀ {j : Json} {σ : Loc → Option Json} {v old : Json}, Json.WF j → getAt j L = some old →
    (∀ p, p <+: L → σ p = none) → subst (upd σ L v) j = putAt v L (subst σ j) := by
  induction L with
  | nil =>
    intro j σ v old _ _ _
    rw [subst_some (v := v) (by simp [upd])]; rfl
  | cons s L ih =>
    intro j σ v old hw hg hp
    have h0 : σ [] = none := hp [] List.nil_prefix
    have h1 : upd σ (s :: L) v [] = none := by simp [upd, h0]
    have hp' : ∀ p, p <+: L → σ (s :: p) = none := fun p hpp => hp (s :: p) (List.cons_prefix_cons.2 ⟨rfl, hpp⟩)
    cases s with
    | key k =>
      cases j with
      | obj m =>
        rw [getAt_obj_key] at hg
        cases hl : Obj.lookup k m with
        | none => rw [hl] at hg; cases hg
        | some c =>
          rw [hl] at hg
          rw [subst_obj h0, subst_obj h1]
          simp only [putAt, lookup_substO, hl, Option.map_some]
          have hwc := Json.WF_lookup hw hl
          rw [Json.WF_obj] at hw
          congr 1
          refine Obj.ext_lookup (sorted_keys (keys_substO _ m) hw.1)
            (Obj.insert_sorted _ _ _ (sorted_keys (keys_substO _ m) hw.1)) ?_
          intro k'
          rw [lookup_substO, Obj.lookup_insert]
          split
          · rename_i e; subst e
            rw [hl, upd_cons, Option.map_some, ih hwc hg hp']
          · rename_i e
            rw [lookup_substO, upd_ne _ (by intro e'; cases e'; exact e rfl)]
      | _ => simp [getAt, child] at hg
    | idx n =>
      cases j with
      | arr xs =>
        rw [getAt_arr_idx] at hg
        cases hl : xs[n]? with
        | none => rw [hl] at hg; cases hg
        | some c =>
          rw [hl] at hg
          rw [subst_arr h0, subst_arr h1]
          simp only [putAt, getElem_substA, hl, Option.map_some, Nat.zero_add]
          have hwc : Json.WF c := by
            rw [Json.WF_arr, Json.WFL_iff] at hw; exact hw c (List.mem_of_getElem? hl)
          congr 1
          apply List.ext_getElem?
          intro i
          rw [getElem_substA, List.getElem?_set, Nat.zero_add]
          by_cases e : n = i
          · subst e
            rw [if_pos rfl, hl, upd_cons, Option.map_some, ih hwc hg hp']
            rw [if_pos]
            rw [length_substA]; exact (List.getElem?_eq_some_iff.1 hl).1
          · rw [if_neg e, getElem_substA, Nat.zero_add, upd_ne _ (by intro e'; cases e'; exact e rfl)]
      | _ => simp [getAt, child] at hg

/-- Reading above or beside all replacements. -/
theorem getAt_subst {L : Loc} : ∀ {σ : Loc → Option Json} (j : Json), (∀ p, p <+: L → p ≠ L → σ p = none) →
    getAt (subst σ j) L = (getAt j L).map (subst fun l => σ (L ++ l)) := by
  induction L with
  | nil => intro σ j _; rfl
  | cons s L ih =>
    intro σ j hp
    have h0 : σ [] = none := hp [] List.nil_prefix (by simp)
    have hp' : ∀ p, p <+: L → p ≠ L → σ (s :: p) = none :=
      fun p hpp hne => hp (s :: p) (List.cons_prefix_cons.2 ⟨rfl, hpp⟩) (by simpa using hne)
    cases s with
    | key k =>
      cases j with
      | obj m =>
        rw [subst_obj h0, getAt_obj_key, getAt_obj_key, lookup_substO]
        cases hl : Obj.lookup k m with
        | none => rfl
        | some c => simp only [Option.map_some]; rw [ih c hp']; rfl
      | arr xs => rw [subst_arr h0]; rfl
      | _ => rw [subst_scalar h0 rfl]; rfl
    | idx n =>
      cases j with
      | arr xs =>
        rw [subst_arr h0, getAt_arr_idx, getAt_arr_idx, getElem_substA, Nat.zero_add]
        cases hl : xs[n]? with
        | none => rfl
        | some c => simp only [Option.map_some]; rw [ih c hp']; rfl
      | obj m => rw [subst_obj h0]; rfl
      | _ => rw [subst_scalar h0 rfl]; rfl

/-- The writes of a list, applied one after the other. -/
def putAll (j : Json) (ws : List (Loc × Json)) : Json := ws.foldl (fun d w => putAt w.2 w.1 d) j

/-- The replacement a list of writes stands for. -/
def writes : List (Loc × Json) → Loc → Option Json
  | [] => fun _ => none
  | w :: ws => upd (writes ws) w.1 w.2

theorem writes_mem {ws : List (Loc × Json)} {l : Loc} {v : Json} (h : writes ws l = some v) : (l, v) ∈ ws := by
  induction ws with
  | nil => cases h
  | cons w ws ih =>
    simp only [writes, upd] at h
    split at h
    · rename_i e; cases h; subst e; exact List.mem_cons_self
    · exact List.mem_cons_of_mem _ (ih h)

theorem writes_of_mem {ws : List (Loc × Json)} (hn : (ws.map Prod.fst).Nodup) {l : Loc} {v : Json} (h : (l, v) ∈ ws) :
    writes ws l = some v := by
  induction ws with
  | nil => cases h
  | cons w ws ih =>
    simp only [List.map_cons, List.nodup_cons] at hn
    simp only [writes, upd]
    rcases List.mem_cons.1 h with e | h
    · subst e; simp
    · rw [if_neg, ih hn.2 h]
      intro e; apply hn.1; rw [← e]; exact List.mem_map_of_mem (f := Prod.fst) h

theorem writes_none {ws : List (Loc × Json)} {l : Loc} (h : ∀ v, (l, v) ∉ ws) : writes ws l = none := by
  cases hw : writes ws l with
  | none => rfl
  | some v => exact absurd (writes_mem hw) (h v)

/-- Writing to pairwise incomparable existing locations, in any order, is the simultaneous replacement. -/
theorem putAll_eq {j : Json} (hw : Json.WF j) {ws : List (Loc × Json)} (hex : ∀ w ∈ ws, ∃ old, getAt j w.1 = some old)
    (hap : ws.Pairwise fun a b => Apart a.1 b.1) : putAll j ws = subst (writes ws) j := by
  -- process from the right: the last write is outermost
  suffices H : ∀ (ws done : List (Loc × Json)), (∀ w ∈ ws, ∃ old, getAt j w.1 = some old) →
      (ws.reverse ++ done).Pairwise (fun a b => Apart a.1 b.1) →
      putAll (subst (writes done) j) ws = subst (writes (ws.reverse ++ done)) j by
    have h1 := H ws [] hex (by
      rw [List.append_nil, List.pairwise_reverse]
      exact hap.imp fun h => ⟨h.2, h.1⟩)
    rw [show subst (writes []) j = j from subst_none _ (fun _ => rfl) j, List.append_nil] at h1
    rw [h1]
    apply subst_congr hw
    intro l v _
    have hnd : ∀ {l : List (Loc × Json)}, l.Pairwise (fun a b => Apart a.1 b.1) → (l.map Prod.fst).Nodup := by
      intro l hl
      rw [List.Nodup, List.pairwise_map]
      exact hl.imp fun h e => h.1 (by rw [e]; exact List.prefix_refl _)
    cases hv : writes ws l with
    | none =>
      refine writes_none fun v hm => ?_
      rw [List.mem_reverse] at hm
      rw [writes_of_mem (hnd hap) hm] at hv; cases hv
    | some v =>
      apply writes_of_mem
      · apply hnd; rw [List.pairwise_reverse]; exact hap.imp fun h => ⟨h.2, h.1⟩
      · rw [List.mem_reverse]; exact writes_mem hv
  intro ws
  induction ws with
  | nil => intro done _ _; rfl
  | cons w ws ih =>
    intro done hex hp
    obtain ⟨old, ho⟩ := hex w (by simp)
    have e : (w :: ws).reverse ++ done = ws.reverse ++ (w :: done) := by simp
    rw [e] at hp ⊢
    have hpd : (w :: done).Pairwise (fun a b => Apart a.1 b.1) := (List.pairwise_append.1 hp).2.1
    have hput : putAt w.2 w.1 (subst (writes done) j) = subst (writes (w :: done)) j := by
      rw [writes, subst_upd hw ho]
      intro p hpp
      apply writes_none
      intro v hm
      exact ((List.pairwise_cons.1 hpd).1 _ hm).2 hpp
    show putAll (putAt w.2 w.1 (subst (writes done) j)) ws = _
    rw [hput]
    exact ih (w :: done) (fun x hx => hex x (by simp [hx])) hp

end Oapi
