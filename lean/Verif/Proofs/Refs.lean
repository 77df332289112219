import Verif.Spec.Pointer
import Verif.Proofs.Subst
import Verif.Props.Container

/-! The extracted references of a document as locations, and writing to them. -/
namespace Oapi
open Spec

theorem setP_good {j : Json} {L : Loc} {old : Json} (v : Json) (hg : GoodLoc L) (hne : L ≠ [])
    (h : getAt j L = some old) : Container.setP j (Str.join 46 (L.map seg)) v = .ok (putAt v L j) := by
  unfold Container.setP
  rw [dotPath_segs hne hg]
  have hj : j ≠ .null := by
    rintro rfl
    cases L with
    | nil => exact hne rfl
    | cons st L => cases st <;> simp [getAt, child] at h
  have := setGo_segs v true h
  cases L with
  | nil => exact absurd rfl hne
  | cons st L =>
    simp only [List.map_cons] at this ⊢
    simp only [Gabs.set, Gabs.fill_some hj, this]

theorem getAt_putAt_apart {v : Json} {L : Loc} : ∀ {L' : Loc} {c : Json}, Apart L L' → getAt (putAt v L c) L' = getAt c L' := by
  induction L with
  | nil => intro L' c h; exact absurd List.nil_prefix h.1
  | cons s L ih =>
    intro L' c h
    cases L' with
    | nil => exact absurd List.nil_prefix h.2
    | cons s' L' =>
      have hsub : s = s' → Apart L L' := by
        rintro rfl
        exact ⟨fun hp => h.1 (List.cons_prefix_cons.2 ⟨rfl, hp⟩), fun hp => h.2 (List.cons_prefix_cons.2 ⟨rfl, hp⟩)⟩
      cases s with
      | key k =>
        cases c with
        | obj m =>
          simp only [putAt]
          cases hl : Obj.lookup k m with
          | none => rfl
          | some c =>
            cases s' with
            | key k' =>
              simp only [getAt_obj_key, Obj.lookup_insert]
              by_cases e : k' = k
              · subst e
                rw [if_pos rfl, hl]; simp only [ih (hsub rfl)]
              · rw [if_neg e]
            | idx n => rfl
        | _ => rfl
      | idx n =>
        cases c with
        | arr xs =>
          simp only [putAt]
          cases hl : xs[n]? with
          | none => rfl
          | some c =>
            cases s' with
            | idx n' =>
              simp only [getAt_arr_idx, List.getElem?_set]
              by_cases e : n = n'
              · subst e
                rw [if_pos rfl, if_pos (List.getElem?_eq_some_iff.1 hl).1, hl]
                simp only [ih (hsub rfl)]
              · rw [if_neg e]
            | key k => rfl
        | _ => rfl

theorem getAt_append (j : Json) (A B : Loc) : getAt j (A ++ B) = (getAt j A).bind (getAt · B) := by
  induction A generalizing j with
  | nil => rfl
  | cons s A ih =>
    simp only [List.cons_append, getAt]
    cases child j s with
    | none => rfl
    | some c => exact ih c

theorem getAt_scalar {v : Json} (h : scalar v = true) {L : Loc} (hL : L ≠ []) : getAt v L = none := by
  cases L with
  | nil => exact absurd rfl hL
  | cons s L => cases v <;> simp [scalar] at h <;> cases s <;> rfl

/-- Two different places that hold scalars are not above each other. -/
theorem apart_of_scalar {j a b : Json} {L L' : Loc} (ha : getAt j L = some a) (hb : getAt j L' = some b)
    (sa : scalar a = true) (sb : scalar b = true) (hne : L ≠ L') : Apart L L' := by
  constructor
  · rintro ⟨t, rfl⟩
    rw [getAt_append, ha] at hb
    have : t ≠ [] := by rintro rfl; exact hne (by simp)
    simp [getAt_scalar sa this] at hb
  · rintro ⟨t, rfl⟩
    rw [getAt_append, hb] at ha
    have : t ≠ [] := by rintro rfl; exact hne (by simp)
    simp [getAt_scalar sb this] at ha

/-- The printed path and value of an entry. -/
def dotEntry (w : Loc × Json) : Str × Json := (dotted w.1, w.2)

/-- The extracted references, in any order, as locations. -/
theorem extract_locs {j : Json} {P : Str → Prop} (hw : Json.WF j) (hs : Routed P j) {es es' : List (Str × Json)}
    (h : Container.extractKey j b!"$ref" = .ok es) (hp : Container.MapOrder es es') :
    ∃ ws : List (Loc × Json), es' = ws.map dotEntry ∧
      (∀ L x, P x → getAt j (L ++ [.key refKey]) = some (.str x) → (L ++ [.key refKey], .str x) ∈ ws) ∧
      (∀ w ∈ ws, getAt j w.1 = some w.2 ∧ scalar w.2 = true ∧
        ∀ x, w.2 = .str x → ∃ L, w.1 = L ++ [.key refKey] ∧ (P x → GoodLoc (L ++ [.key refKey]))) ∧
      ws.Pairwise fun a b => Apart a.1 b.1 := by
  have hmem := extract_refs_iff hw h
  have hmem' : ∀ e ∈ es', ∃ w : Loc × Json, e = dotEntry w ∧ getAt j w.1 = some w.2 ∧ scalar w.2 = true ∧
      ∀ x, w.2 = .str x → ∃ L, w.1 = L ++ [.key refKey] ∧ (P x → GoodLoc (L ++ [.key refKey])) := by
    rintro ⟨s, v⟩ he
    obtain ⟨L, k, h1, h2, h3, h4⟩ := (hmem s v).1 (hp.2.1 _ he)
    refine ⟨(L ++ [.key k], v), by rw [h4]; rfl, h1, h2, ?_⟩
    rintro x rfl
    rcases h3 with rfl | ⟨a, rfl⟩
    · refine ⟨L, rfl, fun hx => goodLoc_of_keys fun k hk => ?_⟩
      rcases List.mem_append.1 hk with hk | hk
      · exact hs.way L x h1 hx k hk
      · rw [List.mem_singleton] at hk; cases hk; exact dotSafeB_sound (by decide)
    · exact absurd h1 (hs.plain L a x)
  have hex : ∀ (Q : Loc × Json → Prop) (l : List (Str × Json)), (∀ e ∈ l, ∃ w : Loc × Json, e = dotEntry w ∧ Q w) →
      ∃ ws : List (Loc × Json), l = ws.map dotEntry ∧ ∀ w ∈ ws, Q w := by
    intro Q l
    induction l with
    | nil => intro _; exact ⟨[], rfl, by simp⟩
    | cons e l ih =>
      intro hl
      obtain ⟨w, hwe, hw2⟩ := hl e (by simp)
      obtain ⟨ws, h1, h2⟩ := ih fun e he => hl e (by simp [he])
      refine ⟨w :: ws, by rw [hwe, h1]; rfl, ?_⟩
      intro x hx
      rcases List.mem_cons.1 hx with rfl | hx
      · exact hw2
      · exact h2 x hx
  obtain ⟨ws, he, hws⟩ := hex _ es' hmem'
  refine ⟨ws, he, ?_, hws, ?_⟩
  · intro L x hx hL
    have h1 : (dotted (L ++ [.key refKey]), Json.str x) ∈ es := (hmem _ _).2 ⟨L, refKey, hL, rfl, .inl rfl, rfl⟩
    have h2 := hp.2.2 _ h1
    rw [he, List.map_map] at h2
    obtain ⟨w, hw1, hw2⟩ := List.mem_map.1 h2
    obtain ⟨h3, h4, _⟩ := hws w hw1
    have e := hs.lone L x hL hx w.1 w.2 h3 h4 hw2
    obtain ⟨a, b⟩ := w
    simp only at e h3
    subst e
    rw [hL] at h3
    cases h3
    exact hw1
  · have hnd' := hp.1
    rw [he, List.map_map, List.Nodup, List.pairwise_map] at hnd'
    refine List.Pairwise.imp_of_mem ?_ hnd'
    intro a b ha hb hne
    refine apart_of_scalar (hws a ha).1 (hws b hb).1 (hws a ha).2.1 (hws b hb).2.1 ?_
    intro e
    apply hne
    simp only [Function.comp, dotEntry, e]

/-! ### Mapping all references -/

/-- The new value of a reference. -/
def refVal (f : Str → Str) : Json → Option Json
  | .str s => some (.str (f s))
  | _ => none

/-- The replacement of all references at once. -/
def refσ (f : Str → Str) (j : Json) (L : Loc) : Option Json :=
  if L.getLast? = some (.key refKey) then (getAt j L).bind (refVal f) else none

mutual
theorem subst_refs (f : Str → Str) (j : Json) (hw : Json.WF j) (σ : Loc → Option Json) (h0 : σ [] = none)
    (hσ : ∀ L v, getAt j L = some v → L ≠ [] → σ L = refσ f j L) : subst σ j = mapRefs f j := by
  match j with
  | .null => rw [subst_scalar h0 rfl]; rfl
  | .bool b => rw [subst_scalar h0 rfl]; rfl
  | .num n => rw [subst_scalar h0 rfl]; rfl
  | .str s => rw [subst_scalar h0 rfl]; rfl
  | .arr xs =>
    rw [subst_arr h0]
    simp only [mapRefs]
    rw [substA_refs f xs (by rw [Json.WF_arr] at hw; exact hw) 0]
    intro n v hn L w hL
    rw [Nat.zero_add]
    have hg : ∀ L', getAt (.arr xs) (.idx n :: L') = getAt v L' := by intro L'; rw [getAt_arr_idx, hn]
    rw [hσ (.idx n :: L) w (by rw [hg]; exact hL) (by simp)]
    unfold refσ
    rw [hg]
    cases L with
    | nil => simp
    | cons s L => simp
  | .obj m =>
    rw [subst_obj h0]
    simp only [mapRefs]
    have hlk : ∀ k v, (k, v) ∈ m → Obj.lookup k m = some v := fun k v hm => Obj.lookup_of_mem (Obj.sorted_nodup ((Json.WF_obj m).1 hw).1) hm
    rw [substO_refs f m ((Json.WF_obj m).1 hw).2]
    intro k v hm L w hL
    have hg : ∀ L', getAt (.obj m) (.key k :: L') = getAt v L' := by intro L'; rw [getAt_obj_key, hlk k v hm]
    rw [hσ (.key k :: L) w (by rw [hg]; exact hL) (by simp)]
    unfold refσ
    rw [hg]
    cases L with
    | nil => simp [getAt]
    | cons s L => simp
termination_by structural j
theorem substO_refs (f : Str → Str) (m : List (Str × Json)) (hw : Json.WFO m) (σ : Loc → Option Json)
    (hσ : ∀ k v, (k, v) ∈ m → ∀ L w, getAt v L = some w →
      σ (.key k :: L) = if L = [] then (if k = refKey then refVal f v else none) else refσ f v L) :
    substO σ m = mapRefsO f m := by
  match m with
  | [] => rfl
  | (k, v) :: t =>
    rw [Json.WFO] at hw
    have iht := substO_refs f t hw.2 σ (fun k v hm => hσ k v (by simp [hm]))
    have hk := hσ k v (by simp)
    have h0 := hk [] v rfl
    rw [if_pos rfl] at h0
    have ihv := fun h => subst_refs f v hw.1 (fun l => σ (.key k :: l)) h (fun L w hL hne => by rw [hk L w hL, if_neg hne])
    simp only [substO, iht]
    match v, h0, ihv with
    | .str s, h0, ihv =>
      simp only [mapRefsO]
      by_cases e : k = refKey
      · rw [if_pos e] at h0 ⊢
        rw [subst_some (v := .str (f s)) h0]
      · rw [if_neg e] at h0 ⊢
        rw [subst_scalar h0 rfl]
    | .null, h0, ihv => rw [ihv (by rw [h0]; split <;> rfl)]; simp only [mapRefsO]
    | .bool _, h0, ihv => rw [ihv (by rw [h0]; split <;> rfl)]; simp only [mapRefsO]
    | .num _, h0, ihv => rw [ihv (by rw [h0]; split <;> rfl)]; simp only [mapRefsO]
    | .arr _, h0, ihv => rw [ihv (by rw [h0]; split <;> rfl)]; simp only [mapRefsO]
    | .obj _, h0, ihv => rw [ihv (by rw [h0]; split <;> rfl)]; simp only [mapRefsO]
termination_by structural m
theorem substA_refs (f : Str → Str) (xs : List Json) (hw : Json.WFL xs) (i : Nat) (σ : Loc → Option Json)
    (hσ : ∀ (n : Nat) v, xs[n]? = some v → ∀ L w, getAt v L = some w →
      σ (.idx (i + n) :: L) = if L = [] then none else refσ f v L) :
    substA σ i xs = mapRefsA f xs := by
  match xs with
  | [] => rfl
  | x :: t =>
    rw [Json.WFL] at hw
    simp only [substA, mapRefsA]
    rw [substA_refs f t hw.2 (i + 1) σ (fun n v hn L w hL => by
      have := hσ (n + 1) v (by simpa using hn) L w hL
      rw [← this]; congr 3; omega)]
    have hk := hσ 0 x (by simp)
    rw [Nat.add_zero] at hk
    rw [subst_refs f x hw.1 (fun l => σ (.idx i :: l)) (by have := hk [] x rfl; simpa using this)
      (fun L w hL hne => by rw [hk L w hL, if_neg hne])]
termination_by structural xs
end

end Oapi
