import Verif.Model.GoTypes
import Verif.Proofs.GoHeap10

/-! Slices of types and points in memory. -/
namespace Oapi.GoTypes
open Types

section
variable {α : Type}

/-- The slice lies inside its array. -/
def Valid (h : Arrs α) (s : Slice) : Prop := ∃ x, h[s.arr]? = some x ∧ s.len ≤ x.length

theorem Valid.lt {h : Arrs α} {s : Slice} (v : Valid h s) : s.arr < h.length := by
  obtain ⟨x, hx, _⟩ := v
  exact (List.getElem?_eq_some_iff.1 hx).1

theorem view_of {h : Arrs α} {s : Slice} {x : List α} (hx : h[s.arr]? = some x) : view h s = x.take s.len := by simp [view, List.getD, hx]

theorem view_length {h : Arrs α} {s : Slice} (v : Valid h s) : (view h s).length = s.len := by
  obtain ⟨x, hx, hl⟩ := v
  rw [view_of hx, List.length_take]; omega

/-- From `a` to `b` at most the places of array `p.arr` behind the slice were written, and arrays were added. -/
def AKeep (p : Slice) (a b : Arrs α) : Prop :=
  ∀ (i : Nat) (x : List α), a[i]? = some x → ∃ y, b[i]? = some y ∧ (i ≠ p.arr → y = x) ∧ y.length = x.length ∧ y.take p.len = x.take p.len

theorem AKeep.refl (p : Slice) (a : Arrs α) : AKeep p a a := fun _ x h => ⟨x, h, fun _ => rfl, rfl, rfl⟩

theorem AKeep.trans {p : Slice} {a b c : Arrs α} (h1 : AKeep p a b) (h2 : AKeep p b c) : AKeep p a c := by
  intro i x hx
  obtain ⟨y, g1, g2, g3, g4⟩ := h1 i x hx
  obtain ⟨z, k1, k2, k3, k4⟩ := h2 i y g1
  exact ⟨z, k1, fun hi => (k2 hi).trans (g2 hi), k3.trans g3, k4.trans g4⟩

theorem AKeep.view {p : Slice} {a b : Arrs α} (h : AKeep p a b) (v : Valid a p) : view b p = view a p ∧ Valid b p := by
  obtain ⟨x, hx, hl⟩ := v
  obtain ⟨y, g1, _, g3, g4⟩ := h _ x hx
  exact ⟨by rw [view_of hx, view_of g1, g4], y, g1, by omega⟩

/-- Appending one element. -/
theorem append1_spec (room : Nat → Nat) {a : Arrs α} {p : Slice} (v : Valid a p) (t : α) :
    Valid (append1 room a p t).1 (append1 room a p t).2 ∧ view (append1 room a p t).1 (append1 room a p t).2 = view a p ++ [t] ∧
      (append1 room a p t).2.len = p.len + 1 ∧ ((append1 room a p t).2.arr = p.arr ∨ (append1 room a p t).2.arr = a.length) ∧
      AKeep p a (append1 room a p t).1 ∧
      ∀ b, AKeep (append1 room a p t).2 (append1 room a p t).1 b → AKeep p a b := by
  obtain ⟨x, hx, hl⟩ := v
  have hlt := (List.getElem?_eq_some_iff.1 hx).1
  have hg : a.getD p.arr [] = x := by simp [List.getD, hx]
  unfold append1
  rw [hg]
  by_cases hc : p.len < x.length
  · simp only [if_pos hc]
    have hs : (a.set p.arr (x.set p.len t))[p.arr]? = some (x.set p.len t) := by simp [hlt]
    have hk : AKeep p a (a.set p.arr (x.set p.len t)) := by
      intro i y hy
      by_cases hi : i = p.arr
      · subst hi
        rw [hx] at hy; cases hy
        exact ⟨_, hs, fun h => absurd rfl h, by simp, by rw [List.take_set_of_le (Nat.le_refl _)]⟩
      · exact ⟨y, by rw [List.getElem?_set_ne (Ne.symm hi)]; exact hy, fun _ => rfl, rfl, rfl⟩
    refine ⟨⟨_, hs, by simp only [List.length_set]; omega⟩, ?_, trivial, .inl trivial, hk, ?_⟩
    · rw [view_of (s := ⟨p.arr, p.len + 1⟩) hs, view_of hx]
      simp only
      rw [List.take_set, List.take_succ, List.getElem?_eq_getElem hc]
      have : (List.take p.len x).length = p.len := by rw [List.length_take]; omega
      simp only [Option.toList]
      rw [List.set_append_right _ _ (by omega)]
      simp [Nat.min_eq_left hl]
    · intro b hb
      intro i y hy
      obtain ⟨y1, g1, g2, g3, g4⟩ := hk i y hy
      obtain ⟨z, k1, k2, k3, k4⟩ := hb i y1 g1
      refine ⟨z, k1, fun hi => (k2 hi).trans (g2 hi), k3.trans g3, ?_⟩
      rw [← g4]
      have := congrArg (List.take p.len) k4
      simp only [List.take_take] at this
      rwa [show min p.len (p.len + 1) = p.len by omega] at this
  · simp only [if_neg hc]
    have hlen : p.len = x.length := by omega
    have hvx : view a p = x := by rw [view_of hx, hlen, List.take_length]
    have hs : (a ++ [view a p ++ t :: List.replicate (room a.length) t])[a.length]? = some (x ++ t :: List.replicate (room a.length) t) := by simp [hvx]
    have hk : AKeep p a (a ++ [view a p ++ t :: List.replicate (room a.length) t]) := by
      intro i y hy
      exact ⟨y, by rw [List.getElem?_append_left (List.getElem?_eq_some_iff.1 hy).1]; exact hy, fun _ => rfl, rfl, rfl⟩
    refine ⟨⟨_, hs, by simp; omega⟩, ?_, trivial, .inr trivial, hk, ?_⟩
    · rw [view_of (s := ⟨a.length, p.len + 1⟩) hs, hvx]
      simp only [hlen]
      rw [List.take_append]
      simp [List.take_succ]
    · intro b hb i y hy
      have hli := (List.getElem?_eq_some_iff.1 hy).1
      obtain ⟨z, k1, k2, _, _⟩ := hb i y (by rw [List.getElem?_append_left hli]; exact hy)
      have := k2 (by simp only; omega)
      subst this
      exact ⟨z, k1, fun _ => rfl, rfl, rfl⟩

theorem newSlice_spec (a : Arrs α) (p : Slice) : Valid (newSlice a).1 (newSlice a).2 ∧ view (newSlice a).1 (newSlice a).2 = [] ∧
    (∀ b, AKeep (newSlice a).2 (newSlice a).1 b → AKeep p a b) := by
  have hs : (a ++ [([] : List α)])[a.length]? = some [] := by simp
  refine ⟨⟨_, hs, Nat.le_refl _⟩, by rw [view]; simp [newSlice], fun b hb i y hy => ?_⟩
  have hli := (List.getElem?_eq_some_iff.1 hy).1
  obtain ⟨z, k1, k2, _, _⟩ := hb i y (by simp only [newSlice]; rw [List.getElem?_append_left hli]; exact hy)
  have := k2 (by simp only [newSlice]; omega)
  subst this
  exact ⟨z, k1, fun _ => rfl, rfl, rfl⟩

end

/-! ### The map of points -/

/-- The map as a value. -/
def contentOf (points : Arrs Pointer) (m : HMap) : PMap := m.map fun e => (e.1, view points e.2)

/-- Slices of the map do not share arrays, and types are there once. -/
structure OK (points : Arrs Pointer) (m : HMap) : Prop where
  keys : (m.map (·.1)).Nodup
  arrs : (m.map (·.2.arr)).Nodup
  valid : ∀ e ∈ m, Valid points e.2

/-- Memory is in order. -/
def TSt.OK (st : TSt) : Prop := GoTypes.OK st.points st.map

/-- The map of a memory as a value. -/
def TSt.content (st : TSt) : PMap := contentOf st.points st.map

theorem at_split {m : HMap} {t : GoType} {s : Slice} (h : m.at t = some s) : ∃ l1 l2, m = l1 ++ (t, s) :: l2 ∧ ∀ e ∈ l1, e.1 ≠ t := by
  induction m with
  | nil => cases h
  | cons e m ih =>
    obtain ⟨k, s'⟩ := e
    unfold HMap.at at h
    by_cases hk : k = t
    · rw [if_pos hk] at h
      cases h; subst hk
      exact ⟨[], m, rfl, by simp⟩
    · rw [if_neg hk] at h
      obtain ⟨l1, l2, rfl, h2⟩ := ih h
      refine ⟨(k, s') :: l1, l2, rfl, fun e he => ?_⟩
      rcases List.mem_cons.1 he with rfl | he
      · exact hk
      · exact h2 e he

theorem at_none {m : HMap} {t : GoType} (h : m.at t = none) : ∀ e ∈ m, e.1 ≠ t := by
  induction m with
  | nil => simp
  | cons e m ih =>
    obtain ⟨k, s'⟩ := e
    unfold HMap.at at h
    by_cases hk : k = t
    · rw [if_pos hk] at h; cases h
    · rw [if_neg hk] at h
      intro e he
      rcases List.mem_cons.1 he with rfl | he
      · exact hk
      · exact ih h e he

theorem put_split {l1 l2 : HMap} {t : GoType} {s s' : Slice} (h : ∀ e ∈ l1, e.1 ≠ t) : (l1 ++ (t, s) :: l2).put t s' = l1 ++ (t, s') :: l2 := by
  induction l1 with
  | nil => simp [HMap.put]
  | cons e l1 ih =>
    obtain ⟨k, x⟩ := e
    have hk : k ≠ t := h (k, x) (by simp)
    have ih := ih fun e he => h e (by simp [he])
    simp only [List.cons_append, HMap.put, if_neg hk, ih]

theorem pat_split {l1 l2 : PMap} {t : GoType} {ps : List Pointer} (h : ∀ e ∈ l1, e.1 ≠ t) : PMap.at (l1 ++ (t, ps) :: l2) t = ps := by
  induction l1 with
  | nil => simp [PMap.at]
  | cons e l1 ih =>
    obtain ⟨k, x⟩ := e
    have hk : k ≠ t := h (k, x) (by simp)
    simp only [List.cons_append, PMap.at, if_neg hk]
    exact ih fun e he => h e (by simp [he])

theorem pat_none {l : PMap} {t : GoType} (h : ∀ e ∈ l, e.1 ≠ t) : PMap.at l t = [] := by
  induction l with
  | nil => rfl
  | cons e l ih =>
    obtain ⟨k, x⟩ := e
    have hk : k ≠ t := h (k, x) (by simp)
    simp only [PMap.at, if_neg hk]
    exact ih fun e he => h e (by simp [he])

theorem pappend_split {l1 l2 : PMap} {t : GoType} {ps : List Pointer} {p : Pointer} (h : ∀ e ∈ l1, e.1 ≠ t) :
    PMap.append (l1 ++ (t, ps) :: l2) t p = l1 ++ (t, if ps.any (fun q => p.toStr == q.toStr) then ps else ps ++ [p]) :: l2 := by
  induction l1 with
  | nil => simp [PMap.append]
  | cons e l1 ih =>
    obtain ⟨k, x⟩ := e
    have hk : k ≠ t := h (k, x) (by simp)
    have ih := ih fun e he => h e (by simp [he])
    simp only [List.cons_append, PMap.append, if_neg hk, ih]

theorem pappend_none {l : PMap} {t : GoType} {p : Pointer} (h : ∀ e ∈ l, e.1 ≠ t) : PMap.append l t p = l ++ [(t, [p])] := by
  induction l with
  | nil => rfl
  | cons e l ih =>
    obtain ⟨k, x⟩ := e
    have hk : k ≠ t := h (k, x) (by simp)
    have ih := ih fun e he => h e (by simp [he])
    simp only [List.cons_append, PMap.append, if_neg hk, ih]

/-- Other arrays stay: other slices read the same. -/
theorem content_keep {a b : Arrs Pointer} {m : HMap} (h : ∀ e ∈ m, b[e.2.arr]? = a[e.2.arr]?) : contentOf b m = contentOf a m := by
  unfold contentOf
  refine List.map_congr_left fun e he => ?_
  simp only [view, List.getD, h e he]

theorem valid_keep {a b : Arrs Pointer} {s : Slice} (h : b[s.arr]? = a[s.arr]?) (v : Valid a s) : Valid b s := by
  obtain ⟨x, hx, hl⟩ := v
  exact ⟨x, by rw [h, hx], hl⟩

theorem addPoint_spec (room : Nat → Nat) (t : GoType) (p : Pointer) {st : TSt} (ok : st.OK) :
    (addPoint room t p st).OK ∧ (addPoint room t p st).content = PMap.append st.content t p ∧ (addPoint room t p st).paths = st.paths := by
  unfold addPoint TSt.OK TSt.content
  cases ha : st.map.at t with
  | none =>
    have hn := at_none ha
    have hkeep : ∀ (i : Nat), i < st.points.length → (st.points ++ [p :: List.replicate (room st.points.length) p])[i]? = st.points[i]? :=
      fun i hi => List.getElem?_append_left hi
    refine ⟨⟨?_, ?_, ?_⟩, ?_, rfl⟩
    · simp only [List.map_append, List.map_cons, List.map_nil]
      refine List.nodup_append.2 ⟨ok.keys, by simp, fun a h1 b h2 => ?_⟩
      obtain ⟨e, he, rfl⟩ := List.mem_map.1 h1
      rw [List.mem_singleton.1 h2]
      exact hn e he
    · simp only [List.map_append, List.map_cons, List.map_nil]
      refine List.nodup_append.2 ⟨ok.arrs, by simp, fun a h1 b h2 => ?_⟩
      obtain ⟨e, he, rfl⟩ := List.mem_map.1 h1
      rw [List.mem_singleton.1 h2]
      exact Nat.ne_of_lt (ok.valid e he).lt
    · intro e he
      rcases List.mem_append.1 he with he | he
      · exact valid_keep (hkeep _ (ok.valid e he).lt) (ok.valid e he)
      · rw [List.mem_singleton.1 he]
        exact ⟨p :: List.replicate (room st.points.length) p, by simp, by simp⟩
    · have e1 : contentOf (st.points ++ [p :: List.replicate (room st.points.length) p]) st.map = contentOf st.points st.map :=
        content_keep fun e he => hkeep _ (ok.valid e he).lt
      have hn' : ∀ e ∈ contentOf st.points st.map, e.1 ≠ t := by
        intro e he
        obtain ⟨x, hx, rfl⟩ := List.mem_map.1 he
        exact hn x hx
      rw [pappend_none hn', ← e1]
      simp [contentOf, view]
  | some s =>
    obtain ⟨l1, l2, hm, h1⟩ := at_split ha
    have hv : Valid st.points s := ok.valid (t, s) (by rw [hm]; simp)
    have hc : contentOf st.points st.map = contentOf st.points l1 ++ (t, view st.points s) :: contentOf st.points l2 := by rw [hm]; simp [contentOf]
    have h1' : ∀ e ∈ contentOf st.points l1, e.1 ≠ t := by
      intro e he
      obtain ⟨x, hx, rfl⟩ := List.mem_map.1 he
      exact h1 x hx
    simp only
    rw [hc, pappend_split h1']
    by_cases hany : (view st.points s).any (fun q => p.toStr == q.toStr) = true
    · simp only [if_pos hany]
      exact ⟨ok, hc, trivial⟩
    · simp only [if_neg hany]
      obtain ⟨k1, k2, k3, k4, k5, k6⟩ := append1_spec room hv p
      have hput : st.map.put t (append1 room st.points s p).2 = l1 ++ (t, (append1 room st.points s p).2) :: l2 := by rw [hm]; exact put_split h1
      have hother : ∀ e ∈ l1 ++ l2, e.2.arr ≠ s.arr := by
        have := ok.arrs
        rw [hm] at this
        simp only [List.map_append, List.map_cons] at this
        obtain ⟨_, a2, a3⟩ := List.nodup_append.1 this
        intro e he
        rcases List.mem_append.1 he with he | he
        · exact a3 _ (List.mem_map_of_mem he) _ (by simp)
        · intro heq
          exact (List.nodup_cons.1 a2).1 (heq ▸ List.mem_map_of_mem (f := fun x : GoType × Slice => x.2.arr) he)
      have hsame : ∀ e ∈ l1 ++ l2, (append1 room st.points s p).1[e.2.arr]? = st.points[e.2.arr]? := by
        intro e he
        have hve : Valid st.points e.2 := ok.valid e (by
          rw [hm]
          rcases List.mem_append.1 he with he | he
          · simp [he]
          · simp [he])
        obtain ⟨x, hx, _⟩ := hve
        obtain ⟨y, g1, g2, _⟩ := k5 _ x hx
        rw [g1, hx, g2 (hother e he)]
      refine ⟨⟨?_, ?_, ?_⟩, ?_, trivial⟩
      · rw [hput]
        have := ok.keys
        rw [hm] at this
        simpa using this
      · rw [hput]
        have := ok.arrs
        rw [hm] at this
        rcases k4 with k4 | k4
        · simpa [k4] using this
        · have h2 : ((l1 ++ l2).map fun e => e.2.arr).Nodup := by
            refine List.Sublist.nodup ?_ this
            exact List.Sublist.map _ (List.Sublist.append_left (List.sublist_cons_self _ _) _)
          have h3 : (l1 ++ (t, (append1 room st.points s p).2) :: l2).Perm ((t, (append1 room st.points s p).2) :: (l1 ++ l2)) := List.perm_middle
          refine (h3.map fun e => e.2.arr).nodup_iff.2 (List.nodup_cons.2 ⟨fun hmem => ?_, h2⟩)
          obtain ⟨e, he, heq⟩ := List.mem_map.1 hmem
          have hve : Valid st.points e.2 := ok.valid e (by
            rw [hm]
            rcases List.mem_append.1 he with he | he
            · simp [he]
            · simp [he])
          have := hve.lt
          simp only [k4] at heq
          omega
      · rw [hput]
        intro e he
        have : e = (t, (append1 room st.points s p).2) ∨ e ∈ l1 ++ l2 := by
          rcases List.mem_append.1 he with he | he
          · exact .inr (by simp [he])
          · rcases List.mem_cons.1 he with he | he
            · exact .inl he
            · exact .inr (by simp [he])
        rcases this with rfl | hx
        · exact k1
        · refine valid_keep (hsame e hx) (ok.valid e ?_)
          rw [hm]
          rcases List.mem_append.1 hx with he | he
          · simp [he]
          · simp [he]
      · rw [hput]
        have e1 := content_keep (m := l1) fun e he => hsame e (by simp [he])
        have e2 := content_keep (m := l2) fun e he => hsame e (by simp [he])
        have : contentOf (append1 room st.points s p).1 (l1 ++ (t, (append1 room st.points s p).2) :: l2) =
          contentOf (append1 room st.points s p).1 l1 ++ (t, view (append1 room st.points s p).1 (append1 room st.points s p).2) :: contentOf (append1 room st.points s p).1 l2 := by simp [contentOf]
        rw [this, e1, e2, k2]

end Oapi.GoTypes
