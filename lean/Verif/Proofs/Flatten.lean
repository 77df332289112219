import Verif.Proofs.Gabs2

namespace Oapi
open Spec Str

/-! ### Documents seen as sets of located leaves -/

mutual
/-- all scalars with their locations -/
def leaves (j : Json) : List (Loc × Json) :=
  match j with
  | .obj m => leavesO m
  | .arr xs => leavesA 0 xs
  | .null => [([], .null)]
  | .bool b => [([], .bool b)]
  | .num n => [([], .num n)]
  | .str s => [([], .str s)]
termination_by structural j
def leavesO (m : List (Str × Json)) : List (Loc × Json) :=
  match m with
  | [] => []
  | (k, v) :: t => (leaves v).map (fun q => (.key k :: q.1, q.2)) ++ leavesO t
termination_by structural m
def leavesA (i : Nat) (xs : List Json) : List (Loc × Json) :=
  match xs with
  | [] => []
  | x :: t => (leaves x).map (fun q => (.idx i :: q.1, q.2)) ++ leavesA (i + 1) t
termination_by structural xs
end

theorem getAt_obj_key (m : Obj) (k : Str) (l : Loc) :
    getAt (.obj m) (.key k :: l) = match Obj.lookup k m with | some c => getAt c l | none => none := rfl

theorem getAt_arr_idx (xs : List Json) (n : Nat) (l : Loc) :
    getAt (.arr xs) (.idx n :: l) = match xs[n]? with | some c => getAt c l | none => none := rfl

theorem Spec.SafeDoc.lookup {m : Obj} (h : SafeDoc (.obj m)) {k : Str} {v : Json} (hl : Obj.lookup k m = some v) :
    SafeDoc v := by
  intro l m' hg
  exact h (.key k :: l) m' (by rw [getAt_obj_key, hl]; exact hg)

theorem Spec.SafeDoc.elem {xs : List Json} (h : SafeDoc (.arr xs)) {n : Nat} {v : Json} (hl : xs[n]? = some v) :
    SafeDoc v := by
  intro l m' hg
  exact h (.idx n :: l) m' (by rw [getAt_arr_idx, hl]; exact hg)

theorem Spec.SafeDoc.keys {m : Obj} (h : SafeDoc (.obj m)) : ∀ k ∈ Obj.keys m, DotSafe k := h [] m rfl

theorem Spec.SafeDoc.mem {m : Obj} (h : SafeDoc (.obj m)) (hw : Json.WF (.obj m)) :
    ∀ p ∈ m, DotSafe p.1 ∧ Json.WF p.2 ∧ SafeDoc p.2 := by
  intro p hp
  rw [Json.WF_obj] at hw
  have hl : Obj.lookup p.1 m = some p.2 := Obj.lookup_of_mem (Obj.sorted_nodup hw.1) hp
  exact ⟨h.keys _ ((Obj.mem_keys_iff _ _).2 ⟨_, hl⟩), Json.WFO_lookup hw.2 hl, h.lookup hl⟩

theorem Spec.SafeDoc.memA {xs : List Json} (h : SafeDoc (.arr xs)) (hw : Json.WF (.arr xs)) :
    ∀ x ∈ xs, Json.WF x ∧ SafeDoc x := by
  intro x hx
  rw [Json.WF_arr, Json.WFL_iff] at hw
  obtain ⟨n, hn⟩ := List.mem_iff_getElem?.1 hx
  exact ⟨hw x hx, h.elem hn⟩

/-- segments that survive joining with dots -/
def GoodSeg (s : Str) : Prop := s ≠ [] ∧ (46 : UInt8) ∉ s ∧ Gabs.dec s = s

theorem Spec.DotSafe.good {k : Str} (h : DotSafe k) : GoodSeg k := ⟨h.1, h.2.1, Gabs.dec_of_safe k h.2.2⟩

theorem good_itoa (n : Nat) : GoodSeg (itoa n) := by
  have hd := itoa_digits n
  refine ⟨itoaGo_ne_nil n n, fun h => absurd (hd _ h) (by decide), ?_⟩
  exact Gabs.dec_of_no_tilde _ (fun h => absurd (hd _ h) (by decide))

theorem join_ne_nil {P : List Str} (hne : P ≠ []) (h : ∀ s ∈ P, s ≠ []) : join 46 P ≠ [] := by
  cases P with
  | nil => contradiction
  | cons x r =>
    cases r with
    | nil => simpa [join] using h x (by simp)
    | cons y r => simp [join]

theorem join_snoc (P : List Str) (hne : P ≠ []) (s : Str) : join 46 (P ++ [s]) = join 46 P ++ 46 :: s := by
  induction P with
  | nil => contradiction
  | cons x r ih =>
    cases r with
    | nil => simp [join]
    | cons y r =>
      have := ih (by simp)
      simp only [List.cons_append, join] at this ⊢
      rw [this]; simp

theorem elePath_join (P : List Str) (h : ∀ s ∈ P, s ≠ []) (k : Str) :
    Gabs.elePath (join 46 P) k = join 46 (P ++ [k]) := by
  unfold Gabs.elePath
  by_cases hP : P = []
  · subst hP; simp [join]
  · have := join_ne_nil hP h
    rw [if_neg (by simpa using this), join_snoc P hP]

/-- the dot path of a location below the prefix `P` -/
def dotP (P : List Str) (q : Loc × Json) : Str × Json := (join 46 (P ++ q.1.map seg), q.2)

mutual
theorem walk_eq (j : Json) (hw : Json.WF j) (hs : SafeDoc j) (P : List Str) (hP : ∀ s ∈ P, s ≠ []) :
    Gabs.walk (join 46 P) j = (leaves j).map (dotP P) := by
  match j with
  | .null | .bool _ | .num _ | .str _ => simp [Gabs.walk, leaves, dotP]
  | .arr xs => simp only [Gabs.walk, leaves]; exact walkA_eq xs (hs.memA hw) 0 P hP
  | .obj m => simp only [Gabs.walk, leaves]; exact walkO_eq m (hs.mem hw) P hP
termination_by structural j
theorem walkO_eq (m : List (Str × Json)) (hm : ∀ p ∈ m, DotSafe p.1 ∧ Json.WF p.2 ∧ SafeDoc p.2)
    (P : List Str) (hP : ∀ s ∈ P, s ≠ []) :
    Gabs.walkObject (join 46 P) m = (leavesO m).map (dotP P) := by
  match m with
  | [] => rfl
  | (k, v) :: t =>
    have hk := hm (k, v) (by simp)
    simp only [Gabs.walkObject, leavesO, List.map_append, List.map_map]
    rw [elePath_join P hP, walkO_eq t (fun p hp => hm p (by simp [hp])) P hP]
    rw [walk_eq v hk.2.1 hk.2.2 (P ++ [k]) (by
      intro s hs; simp at hs; rcases hs with hs | rfl
      · exact hP s hs
      · exact hk.1.1)]
    congr 2
    funext q; simp [dotP, seg]
termination_by structural m
theorem walkA_eq (xs : List Json) (hm : ∀ x ∈ xs, Json.WF x ∧ SafeDoc x) (i : Nat)
    (P : List Str) (hP : ∀ s ∈ P, s ≠ []) :
    Gabs.walkArray (join 46 P) i xs = (leavesA i xs).map (dotP P) := by
  match xs with
  | [] => rfl
  | x :: t =>
    have hk := hm x (by simp)
    simp only [Gabs.walkArray, leavesA, List.map_append, List.map_map]
    rw [elePath_join P hP, walkA_eq t (fun p hp => hm p (by simp [hp])) (i+1) P hP]
    rw [walk_eq x hk.1 hk.2 (P ++ [itoa i]) (by
      intro s hs; simp at hs; rcases hs with hs | rfl
      · exact hP s hs
      · exact (good_itoa i).1)]
    congr 2
    funext q; simp [dotP, seg]
termination_by structural xs
end

/-! without any assumption on keys -/

/-- the printed path of a location below a printed path -/
def dottedFrom (p : Str) (L : Loc) : Str := L.foldl (fun p s => if p = [] then seg s else p ++ 46 :: seg s) p

theorem dotted_eq (L : Loc) : dotted L = dottedFrom [] L := rfl

theorem dottedFrom_cons (p : Str) (s : Step) (L : Loc) : dottedFrom p (s :: L) = dottedFrom (Gabs.elePath p (seg s)) L := by
  simp only [dottedFrom, List.foldl_cons, Gabs.elePath, List.isEmpty_iff]

theorem dotted_snoc (L : Loc) (s : Step) : dotted (L ++ [s]) = Gabs.elePath (dotted L) (seg s) := by
  simp only [dotted, List.foldl_append, List.foldl_cons, List.foldl_nil, Gabs.elePath, List.isEmpty_iff]

mutual
theorem walk_all (j : Json) (p : Str) : Gabs.walk p j = (leaves j).map fun q => (dottedFrom p q.1, q.2) := by
  match j with
  | .null | .bool _ | .num _ | .str _ => simp [Gabs.walk, leaves, dottedFrom]
  | .arr xs => simp only [Gabs.walk, leaves]; exact walkA_all xs 0 p
  | .obj m => simp only [Gabs.walk, leaves]; exact walkO_all m p
termination_by structural j
theorem walkO_all (m : List (Str × Json)) (p : Str) : Gabs.walkObject p m = (leavesO m).map fun q => (dottedFrom p q.1, q.2) := by
  match m with
  | [] => rfl
  | (k, v) :: t =>
    simp only [Gabs.walkObject, leavesO, List.map_append, List.map_map]
    rw [walkO_all t p, walk_all v]
    congr 2
    funext q
    simp only [Function.comp, dottedFrom_cons, seg]
termination_by structural m
theorem walkA_all (xs : List Json) (i : Nat) (p : Str) : Gabs.walkArray p i xs = (leavesA i xs).map fun q => (dottedFrom p q.1, q.2) := by
  match xs with
  | [] => rfl
  | x :: t =>
    simp only [Gabs.walkArray, leavesA, List.map_append, List.map_map]
    rw [walkA_all t (i + 1) p, walk_all x]
    congr 2
    funext q
    simp only [Function.comp, dottedFrom_cons, seg]
termination_by structural xs
end

theorem flatten_all {j : Json} {ff : List (Str × Json)} (h : Gabs.flatten j = .ok ff) :
    ff = (leaves j).map fun q => (dotted q.1, q.2) := by
  cases j with
  | obj m => simp only [Gabs.flatten, Res.ok.injEq] at h; rw [← h, walkO_all]; rfl
  | arr xs => simp only [Gabs.flatten, Res.ok.injEq] at h; rw [← h, walkA_all]; rfl
  | null | bool _ | num _ | str _ => simp [Gabs.flatten] at h

/-! membership in `leaves` -/

mutual
theorem mem_leaves (j : Json) (hw : Json.WF j) (L : Loc) (v : Json) :
    (L, v) ∈ leaves j ↔ getAt j L = some v ∧ scalar v = true := by
  match j with
  | .null | .bool _ | .num _ | .str _ =>
    cases L with
    | nil =>
      simp only [leaves, List.mem_singleton, Prod.mk.injEq, true_and, getAt, Option.some.injEq]
      constructor
      · rintro rfl; simp [scalar]
      · rintro ⟨h, _⟩; exact h.symm
    | cons s L => simp [leaves, getAt, child]
  | .arr xs =>
    rw [Json.WF_arr, Json.WFL_iff] at hw
    simp only [leaves]
    rw [mem_leavesA xs hw 0 L v]
    constructor
    · rintro ⟨n, x, L', rfl, hx, hg, hs⟩
      simp only [Nat.zero_add]; rw [getAt_arr_idx, hx]; exact ⟨hg, hs⟩
    · rintro ⟨hg, hs⟩
      cases L with
      | nil => simp [getAt] at hg; subst hg; simp [scalar] at hs
      | cons s L =>
        cases s with
        | key k => simp [getAt, child] at hg
        | idx n =>
          rw [getAt_arr_idx] at hg
          cases hx : xs[n]? with
          | none => rw [hx] at hg; simp at hg
          | some x => rw [hx] at hg; exact ⟨n, x, L, by simp, hx, hg, hs⟩
  | .obj m =>
    rw [Json.WF_obj] at hw
    have hnd := Obj.sorted_nodup hw.1
    simp only [leaves]
    rw [mem_leavesO m ((Json.WFO_iff m).1 hw.2) L v]
    constructor
    · rintro ⟨k, x, L', rfl, hx, hg, hs⟩
      rw [getAt_obj_key, Obj.lookup_of_mem hnd hx]; exact ⟨hg, hs⟩
    · rintro ⟨hg, hs⟩
      cases L with
      | nil => simp [getAt] at hg; subst hg; simp [scalar] at hs
      | cons s L =>
        cases s with
        | idx k => simp [getAt, child] at hg
        | key k =>
          rw [getAt_obj_key] at hg
          cases hx : Obj.lookup k m with
          | none => rw [hx] at hg; simp at hg
          | some x => rw [hx] at hg; exact ⟨k, x, L, rfl, Obj.lookup_mem hx, hg, hs⟩
termination_by structural j
theorem mem_leavesO (m : List (Str × Json)) (hw : ∀ p ∈ m, Json.WF p.2) (L : Loc) (v : Json) :
    (L, v) ∈ leavesO m ↔ ∃ k x L', L = .key k :: L' ∧ (k, x) ∈ m ∧ getAt x L' = some v ∧ scalar v = true := by
  match m with
  | [] => simp [leavesO]
  | (k, x) :: t =>
    simp only [leavesO, List.mem_append, List.mem_map, Prod.mk.injEq, Prod.exists]
    rw [mem_leavesO t (fun p hp => hw p (by simp [hp])) L v]
    constructor
    · rintro (⟨L', v', hm, rfl, rfl⟩ | ⟨k', x', L', rfl, hm, h⟩)
      · rw [mem_leaves x (hw (k, x) (by simp))] at hm
        exact ⟨k, x, L', rfl, by simp, hm⟩
      · exact ⟨k', x', L', rfl, by simp [hm], h⟩
    · rintro ⟨k', x', L', rfl, hm, h⟩
      simp at hm
      rcases hm with ⟨e1, e2⟩ | hm
      · rw [e2] at h
        left; exact ⟨L', v, (mem_leaves x (hw (k, x) (by simp)) L' v).2 h, by rw [e1], rfl⟩
      · right; exact ⟨k', x', L', rfl, hm, h⟩
termination_by structural m
theorem mem_leavesA (xs : List Json) (hw : ∀ x ∈ xs, Json.WF x) (i : Nat) (L : Loc) (v : Json) :
    (L, v) ∈ leavesA i xs ↔ ∃ n x L', L = .idx (i + n) :: L' ∧ xs[n]? = some x ∧ getAt x L' = some v ∧ scalar v = true := by
  match xs with
  | [] => simp [leavesA]
  | x :: t =>
    simp only [leavesA, List.mem_append, List.mem_map, Prod.mk.injEq, Prod.exists]
    rw [mem_leavesA t (fun p hp => hw p (by simp [hp])) (i+1) L v]
    constructor
    · rintro (⟨L', v', hm, rfl, rfl⟩ | ⟨n, x', L', rfl, hm, h⟩)
      · rw [mem_leaves x (hw x (by simp))] at hm
        exact ⟨0, x, L', by simp, by simp, hm⟩
      · exact ⟨n+1, x', L', by simp; omega, by simpa using hm, h⟩
    · rintro ⟨n, x', L', rfl, hm, h⟩
      cases n with
      | zero =>
        simp at hm; rw [← hm] at h
        left; exact ⟨L', v, (mem_leaves x (hw x (by simp)) L' v).2 h, rfl, rfl⟩
      | succ n =>
        right; exact ⟨n, x', L', by simp; omega, by simpa using hm, h⟩
termination_by structural xs
end

mutual
theorem leaves_nodup (j : Json) (hw : Json.WF j) : (leaves j).Nodup := by
  match j with
  | .null | .bool _ | .num _ | .str _ => simp [leaves]
  | .arr xs =>
    rw [Json.WF_arr, Json.WFL_iff] at hw
    simp only [leaves]; exact leavesA_nodup xs hw 0
  | .obj m =>
    rw [Json.WF_obj] at hw
    simp only [leaves]; exact leavesO_nodup m ((Json.WFO_iff m).1 hw.2) (Obj.sorted_nodup hw.1)
termination_by structural j
theorem leavesO_nodup (m : List (Str × Json)) (hw : ∀ p ∈ m, Json.WF p.2) (hn : (Obj.keys m).Nodup) :
    (leavesO m).Nodup := by
  match m with
  | [] => simp [leavesO]
  | (k, x) :: t =>
    simp only [Obj.keys_cons, List.nodup_cons] at hn
    simp only [leavesO]
    rw [List.nodup_append]
    refine ⟨?_, leavesO_nodup t (fun p hp => hw p (by simp [hp])) hn.2, ?_⟩
    · have h := leaves_nodup x (hw (k, x) (by simp))
      exact List.Pairwise.map _ (fun a b hab e => hab (by
        simp only [Prod.mk.injEq, List.cons.injEq, true_and] at e
        exact Prod.ext e.1 e.2)) h
    · rintro a ha b hb rfl
      obtain ⟨L, v⟩ := a
      rw [mem_leavesO t (fun p hp => hw p (by simp [hp]))] at hb
      obtain ⟨k', x', L', rfl, hm, _⟩ := hb
      simp only [List.mem_map, Prod.mk.injEq, List.cons.injEq, Step.key.injEq, Prod.exists] at ha
      obtain ⟨_, _, _, ⟨rfl, _⟩, _⟩ := ha
      exact hn.1 (List.mem_map.2 ⟨(k, x'), hm, rfl⟩)
termination_by structural m
theorem leavesA_nodup (xs : List Json) (hw : ∀ x ∈ xs, Json.WF x) (i : Nat) : (leavesA i xs).Nodup := by
  match xs with
  | [] => simp [leavesA]
  | x :: t =>
    simp only [leavesA]
    rw [List.nodup_append]
    refine ⟨?_, leavesA_nodup t (fun p hp => hw p (by simp [hp])) (i+1), ?_⟩
    · have h := leaves_nodup x (hw x (by simp))
      exact List.Pairwise.map _ (fun a b hab e => hab (by
        simp only [Prod.mk.injEq, List.cons.injEq, true_and] at e
        exact Prod.ext e.1 e.2)) h
    · rintro a ha b hb rfl
      obtain ⟨L, v⟩ := a
      rw [mem_leavesA t (fun p hp => hw p (by simp [hp]))] at hb
      obtain ⟨n, x', L', rfl, hm, _⟩ := hb
      simp only [List.mem_map, Prod.mk.injEq, List.cons.injEq, Step.idx.injEq, Prod.exists] at ha
      obtain ⟨_, _, _, ⟨h, _⟩, _⟩ := ha
      omega
termination_by structural xs
end

/-! ### Good locations and their dot paths -/

/-- all segments of the location survive joining -/
def GoodLoc (L : Loc) : Prop := ∀ st ∈ L, GoodSeg (seg st)

theorem goodLoc_of_getAt {j : Json} (hs : SafeDoc j) {L : Loc} {v : Json} (h : getAt j L = some v) : GoodLoc L := by
  induction L generalizing j with
  | nil => intro st hst; simp at hst
  | cons st L ih =>
    intro st' hst'
    simp at hst'
    cases j with
    | obj m =>
      cases st with
      | idx n => simp [getAt, child] at h
      | key k =>
        rw [getAt_obj_key] at h
        cases hl : Obj.lookup k m with
        | none => rw [hl] at h; simp at h
        | some c =>
          rw [hl] at h
          rcases hst' with rfl | hst'
          · exact (hs.keys k ((Obj.mem_keys_iff _ _).2 ⟨_, hl⟩)).good
          · exact ih (hs.lookup hl) h st' hst'
    | arr xs =>
      cases st with
      | key n => simp [getAt, child] at h
      | idx n =>
        rw [getAt_arr_idx] at h
        cases hl : xs[n]? with
        | none => rw [hl] at h; simp at h
        | some c =>
          rw [hl] at h
          rcases hst' with rfl | hst'
          · exact good_itoa n
          · exact ih (hs.elem hl) h st' hst'
    | null | bool _ | num _ | str _ => cases st <;> simp [getAt, child] at h

/-- the printed path of a good location -/
theorem dotted_good {L : Loc} (h : GoodLoc L) : dotted L = join 46 (L.map seg) := by
  suffices H : ∀ (L : Loc) (P : List Str), (∀ s ∈ P, s ≠ []) → GoodLoc L → dottedFrom (join 46 P) L = join 46 (P ++ L.map seg) by
    have := H L [] (by simp) h
    simpa [dotted_eq, join] using this
  intro L
  induction L with
  | nil => intro P _ _; simp [dottedFrom]
  | cons s L ih =>
    intro P hP hg
    rw [dottedFrom_cons, elePath_join P hP, ih _ _ fun st hst => hg st (by simp [hst])]
    · simp
    · intro t ht
      rcases List.mem_append.1 ht with ht | ht
      · exact hP t ht
      · rw [List.mem_singleton] at ht; subst ht; exact (hg s (by simp)).1

theorem dotPath_segs {L : Loc} (hne : L ≠ []) (h : GoodLoc L) :
    Gabs.dotPathToSlice (join 46 (L.map seg)) = L.map seg := by
  apply Gabs.dotPathToSlice_join
  · simpa using hne
  · intro x hx; simp at hx; obtain ⟨st, hst, rfl⟩ := hx; exact (h st hst).2.1
  · intro x hx; simp at hx; obtain ⟨st, hst, rfl⟩ := hx; exact (h st hst).2.2

/-- reading an existing location through its segments -/
theorem search_segs {j : Json} {L : Loc} {v : Json} (h : getAt j L = some v) :
    Gabs.search (L.map seg) j = some v := by
  induction L generalizing j with
  | nil => exact h
  | cons st L ih =>
    cases j with
    | obj m =>
      cases st with
      | idx n => simp [getAt, child] at h
      | key k =>
        rw [getAt_obj_key] at h
        simp only [List.map_cons, seg, Gabs.search_obj]
        cases hl : Obj.lookup k m with
        | none => rw [hl] at h; simp at h
        | some c => rw [hl] at h; exact ih h
    | arr xs =>
      cases st with
      | key n => simp [getAt, child] at h
      | idx n =>
        rw [getAt_arr_idx] at h
        cases hl : xs[n]? with
        | none => rw [hl] at h; simp at h
        | some c =>
          rw [hl] at h
          have hlt : n < xs.length := (List.getElem?_eq_some_iff.1 hl).1
          rw [List.map_cons, seg, Gabs.search_arr _ _ _ (itoa_ne_star n), Gabs.arrIndex_itoa hlt]
          simp only [hl]; exact ih h
    | null | bool _ | num _ | str _ => cases st <;> simp [getAt, child] at h

/-- writing an existing location through its segments -/
theorem setGo_segs {j : Json} {L : Loc} {old : Json} (v : Json) (root : Bool)
    (h : getAt j L = some old) : Gabs.setGo v root (L.map seg) j = .ok (putAt v L j) := by
  induction L generalizing j root with
  | nil => rfl
  | cons st L ih =>
    have hgo : ∀ (f : Json → Json) c, getAt c L = some old → Gabs.goOn v f (L.map seg) c = .ok (f (putAt v L c)) := by
      intro f c hc
      cases L with
      | nil => rfl
      | cons s2 L =>
        have := ih (root := false) hc
        simp only [List.map_cons] at this ⊢
        simp only [Gabs.goOn, this]
    cases j with
    | obj m =>
      cases st with
      | idx n => simp [getAt, child] at h
      | key k =>
        rw [getAt_obj_key] at h
        cases hl : Obj.lookup k m with
        | none => rw [hl] at h; simp at h
        | some c =>
          rw [hl] at h
          simp only [List.map_cons, seg, Gabs.setGo_obj, putAt, hl]
          by_cases hc : c = .null
          · subst hc
            cases L with
            | nil => rfl
            | cons s2 L => cases s2 <;> simp [getAt, child] at h
          · rw [Gabs.fill_some hc, hgo _ _ h]
    | arr xs =>
      cases st with
      | key n => simp [getAt, child] at h
      | idx n =>
        rw [getAt_arr_idx] at h
        cases hl : xs[n]? with
        | none => rw [hl] at h; simp at h
        | some c =>
          rw [hl] at h
          have hlt : n < xs.length := (List.getElem?_eq_some_iff.1 hl).1
          simp only [List.map_cons, seg, putAt, hl]
          by_cases hc : c = .null
          · subst hc
            cases L with
            | nil =>
              exact Gabs.setGo_arr_last v root _ xs n (itoa_ne_dash n) (Gabs.arrIndex_itoa hlt)
            | cons s2 L => cases s2 <;> simp [getAt, child] at h
          · rw [Gabs.setGo_arr_some v root _ _ xs n c (itoa_ne_dash n) (Gabs.arrIndex_itoa hlt) hl hc, hgo _ _ h]
    | null | bool _ | num _ | str _ => cases st <;> simp [getAt, child] at h

theorem setP_existing {j : Json} {L : Loc} {old : Json} (v : Json) (hs : SafeDoc j) (hne : L ≠ [])
    (h : getAt j L = some old) : Container.setP j (join 46 (L.map seg)) v = .ok (putAt v L j) := by
  unfold Container.setP
  rw [dotPath_segs hne (goodLoc_of_getAt hs h)]
  have hj : j ≠ .null := by
    rintro rfl
    cases L with
    | nil => exact hne rfl
    | cons st L => cases st <;> simp [getAt, child] at h
  have := setGo_segs v true h
  cases L with
  | nil => exact absurd rfl hne
  | cons st L =>
    simp only [List.map_cons] at this ⊢
    simp only [Gabs.set, Gabs.fill_some hj, this]

theorem path_existing {j : Json} {L : Loc} {v : Json} (hs : SafeDoc j) (hne : L ≠ [])
    (h : getAt j L = some v) : Container.path j (join 46 (L.map seg)) = some v := by
  unfold Container.path
  rw [dotPath_segs hne (goodLoc_of_getAt hs h), search_segs h]

theorem segs_inj {j : Json} {L1 L2 : Loc} {a b : Json} (h1 : getAt j L1 = some a) (h2 : getAt j L2 = some b)
    (h : L1.map seg = L2.map seg) : L1 = L2 := by
  induction L1 generalizing j L2 with
  | nil => cases L2 <;> simp_all
  | cons s1 L1 ih =>
    cases L2 with
    | nil => simp at h
    | cons s2 L2 =>
      simp only [List.map_cons, List.cons.injEq] at h
      cases j with
      | obj m =>
        cases s1 <;> cases s2 <;> simp [getAt, child] at h1 h2
        rename_i k1 k2
        have : k1 = k2 := h.1
        subst this
        cases hl : Obj.lookup k1 m with
        | none => simp [hl] at h1
        | some c => simp [hl] at h1 h2; rw [ih h1 h2 h.2]
      | arr xs =>
        cases s1 <;> cases s2 <;> simp [getAt, child] at h1 h2
        rename_i k1 k2
        have : k1 = k2 := itoa_inj h.1
        subst this
        cases hl : xs[k1]? with
        | none => simp [hl] at h1
        | some c => simp [hl] at h1 h2; rw [ih h1 h2 h.2]
      | null | bool _ | num _ | str _ => cases s1 <;> simp [getAt, child] at h1

theorem flatten_eq {j : Json} {ff : List (Str × Json)} (hw : Json.WF j) (hs : SafeDoc j)
    (h : Gabs.flatten j = .ok ff) : ff = (leaves j).map (dotP []) := by
  cases j with
  | obj m =>
    simp only [Gabs.flatten, Res.ok.injEq] at h
    rw [← h]
    have := walkO_eq m (hs.mem hw) [] (by simp)
    simpa [leaves, join] using this
  | arr xs =>
    simp only [Gabs.flatten, Res.ok.injEq] at h
    rw [← h]
    have := walkA_eq xs (hs.memA hw) 0 [] (by simp)
    simpa [leaves, join] using this
  | null | bool _ | num _ | str _ => simp [Gabs.flatten] at h

theorem goodLoc_of_keys {L : Loc} (h : ∀ k, .key k ∈ L → DotSafe k) : GoodLoc L := by
  intro st hst
  cases st with
  | key k => exact (h k hst).good
  | idx n => exact good_itoa n

/-- in documents with dot-safe keys, printed paths differ -/
theorem lone_of_safe {j : Json} (hs : SafeDoc j) {L : Loc} {v : Json} (h : getAt j L = some v) (hc : scalar j = false) (hsv : scalar v = true) :
    Lone j L := by
  intro L' v' h' hsv' he
  have g := goodLoc_of_getAt hs h
  have g' := goodLoc_of_getAt hs h'
  have hne : ∀ {L : Loc} {v}, getAt j L = some v → scalar v = true → L ≠ [] := by
    rintro L v h hv rfl
    simp only [getAt, Option.some.injEq] at h
    rw [h, hv] at hc; cases hc
  rw [dotted_good g, dotted_good g'] at he
  refine segs_inj h' h ?_
  rw [← dotPath_segs (hne h' hsv') g', ← dotPath_segs (hne h hsv) g, he]

end Oapi
