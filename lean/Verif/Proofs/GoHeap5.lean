import Verif.Proofs.GoHeap4

/-! `Merge` in memory is `Merge` on documents. -/
namespace Oapi.GoHeap
open Json (canon canonO)

/-- A map or a slice. -/
def Val.isRef : Val → Bool
  | .map _ => true
  | .slice _ _ => true
  | _ => false

/-- A container that is a map or a slice keeps it, whatever is set below it. -/
theorem set_keeps {room : Nat} {v : Val} {p : List Str} {o : Val} {h h' : Mem} {o' : Val} (hp : p ≠ []) (e : set room v p o h = .ok (h', o')) (hr : o.isRef = true) : o' = o := by
  cases p with
  | nil => exact absurd rfl hp
  | cons s q =>
    have ef : fill (some o) h = (h, o) := by cases o <;> first | rfl | cases hr
    have e1 : set room v (s :: q) o h = setRec room v true (s :: q) (fill (some o) h).2 (fill (some o) h).1 := rfl
    rw [e1, ef] at e
    simp only at e
    cases o with
    | map a =>
      cases q with
      | nil => simp only [setRec] at e; cases e; rfl
      | cons s' q =>
        rw [setRec_map] at e
        cases hs : setRec room v false (s' :: q) (fill (look s (h.mapAt a)) h).2 (fill (look s (h.mapAt a)) h).1 with
        | ok x => rw [hs] at e; cases e; rfl
        | err x => rw [hs] at e; cases e
        | panic => rw [hs] at e; cases e
    | slice a len =>
      rw [setRec.eq_def] at e
      simp only [if_true] at e
      repeat' split at e
      all_goals first | cases e; rfl | cases e
    | _ => cases hr

/-- From `h` to `h'` container `c`, whose parts were `F`, has become the document `j'`, by writing to its own parts, to `G` and to new memory. -/
def Out (h : Heap) (c : Nat) (F G : List Nat) (h' : Heap) (j' : Json) : Prop :=
  ∃ o' F', h'.objs = h.objs.set c o' ∧ Rep h'.mem j' o' F' ∧ Changes (F ++ G) h.mem h'.mem ∧ (∀ a ∈ F', a ∈ F ∨ a ∈ G ∨ h.mem.length ≤ a) ∧
    ((data h (some c)).isRef = true → o' = data h (some c))

/-- What a step of a merge does, given what the value-level model does; `P` is what is known of the destination of a merge that fails. -/
def MergeSpec (h : Heap) (c : Nat) (F G : List Nat) (P : Json → Prop) (r : Heap × Res Unit) : Res Json → Prop
  | .ok j' => r.2 = .ok () ∧ Out h c F G r.1 j'
  | .err e => r.2 = .err e ∧ ∃ j', P j' ∧ Out h c F G r.1 j'
  | .panic => r.2 = .panic ∧ ∃ j', Out h c F G r.1 j'

theorem MergeSpec.weaken {h : Heap} {c : Nat} {F G : List Nat} {P Q : Json → Prop} {r : Heap × Res Unit} {x : Res Json} (hPQ : ∀ j, P j → Q j)
    (hs : MergeSpec h c F G P r x) : MergeSpec h c F G Q r x := by
  cases x with
  | ok j' => exact hs
  | err e => exact ⟨hs.1, hs.2.imp fun _ h => ⟨hPQ _ h.1, h.2⟩⟩
  | panic => exact hs

theorem data_some {h : Heap} {c : Nat} (hc : c < h.objs.length) : data h (some c) = h.objs[c] := by
  simp [data, List.getD, List.getElem?_eq_getElem hc]

theorem set_data {h : Heap} {c : Nat} (hc : c < h.objs.length) : h.objs.set c (data h (some c)) = h.objs := by
  rw [data_some hc]; exact List.set_getElem_self hc

theorem data_set {h : Heap} {c : Nat} {m : Mem} {o : Val} (hc : c < h.objs.length) : data ⟨m, h.objs.set c o⟩ (some c) = o := by
  simp [data, List.getD, hc]

theorem Out.data {h : Heap} {c : Nat} {F G : List Nat} {h' : Heap} {j' : Json} (hc : c < h.objs.length) (ho : Out h c F G h' j') :
    ∃ F', Rep h'.mem j' (data h' (some c)) F' ∧ h'.objs.length = h.objs.length ∧ Changes (F ++ G) h.mem h'.mem ∧ (∀ a ∈ F', a ∈ F ∨ a ∈ G ∨ h.mem.length ≤ a) ∧
      ((GoHeap.data h (some c)).isRef = true → GoHeap.data h' (some c) = GoHeap.data h (some c)) ∧ ∀ d, d ≠ c → GoHeap.data h' (some d) = GoHeap.data h (some d) := by
  obtain ⟨o', F', g1, g2, g3, g4, g5⟩ := ho
  have e : GoHeap.data h' (some c) = o' := by
    have : h' = ⟨h'.mem, h'.objs⟩ := rfl
    rw [this, g1, data_set hc]
  refine ⟨F', e ▸ g2, by simp [g1], g3, g4, fun ha => by rw [e]; exact g5 ha, fun d hd => ?_⟩
  simp [GoHeap.data, g1, List.getD, List.getElem?_set, Ne.symm hd]

/-- Nothing happens. -/
theorem Out.keep {h : Heap} {c : Nat} {F G : List Nat} {j : Json} {m : Mem} (hc : c < h.objs.length) (hr : Rep h.mem j (GoHeap.data h (some c)) F) (hm : Changes [] h.mem m) :
    Out h c F G ⟨m, h.objs⟩ j :=
  ⟨_, F, (set_data hc).symm, hm.frame hr (by simp), hm.mono (by simp), fun a ha => .inl ha, fun _ => rfl⟩

/-- A `Set` of a value with parts of its own. -/
theorem setC_rep (room : Nat) (p : List Str) {jv : Json} {v : Val} {G : List Nat} {h : Heap} {c : Nat} {F : List Nat} {j : Json} {m : Mem} (hc : c < h.objs.length)
    (hr : Rep h.mem j (data h (some c)) F) (hv : Rep h.mem jv v G) (hd : ∀ a ∈ F, a ∉ G) (hm : Changes [] h.mem m) (hp : p ≠ []) :
    MergeSpec h c F G (· = j) (after ⟨m, h.objs⟩ (setC room v p c ⟨m, h.objs⟩)) (Gabs.set jv p j) := by
  have hs := set_rep room p (hm.frame hr (by simp)) (hm.frame hv (by simp)) hd
  unfold setC
  have e : data ⟨m, h.objs⟩ (some c) = data h (some c) := rfl
  rw [e]
  cases hg : Gabs.set jv p j with
  | err e =>
    rw [hg] at hs
    rw [show set room v p (data h (some c)) m = .err e from hs]
    exact ⟨rfl, j, rfl, Out.keep hc hr hm⟩
  | panic =>
    rw [hg] at hs
    rw [show set room v p (data h (some c)) m = .panic from hs]
    exact ⟨rfl, j, Out.keep hc hr hm⟩
  | ok j' =>
    rw [hg] at hs
    obtain ⟨h', o', F', g1, g2, g3, g4, g5⟩ := hs
    rw [g1]
    refine ⟨rfl, o', F', rfl, g2, (hm.mono (F' := F ++ G) (by simp)).trans g3 (fun a ha _ => by simp [ha]), fun a ha => ?_, set_keeps hp g1⟩
    rcases g4 a ha with ha | ha | ha
    · exact .inl ha
    · exact .inr (.inl ha)
    · exact .inr (.inr (Nat.le_trans hm.le ha))

theorem collide_rep (room : Nat) (f : Strategy) (p : List Str) {jv ex : Json} {v xv : Val} {G : List Nat} {h : Heap} {c : Nat} {F : List Nat} {j : Json} {m : Mem}
    (hc : c < h.objs.length) (hr : Rep h.mem j (data h (some c)) F) (hv : Rep h.mem (canon jv) v G) (hd : ∀ a ∈ F, a ∉ G) (hm : Changes [] h.mem m) (hp : p ≠ [])
    (hj : Gabs.search p j = some ex) (hx : (search p (data h (some c)) h.mem).2 = some xv) :
    MergeSpec h c F G (· = j) (collide room f c p xv v ⟨m, h.objs⟩) (Container.collide f.pure j p ex jv) := by
  cases f with
  | strict => exact ⟨rfl, j, rfl, Out.keep hc hr hm⟩
  | override => exact setC_rep room p hc hr hv hd hm hp
  | default =>
    have e1 : collide room .default c p xv v ⟨m, h.objs⟩ = after ⟨m, h.objs⟩ (setC room xv p c ⟨m, h.objs⟩) := rfl
    have e2 : Container.collide Strategy.default.pure j p ex jv = Gabs.set ex p j := rfl
    rw [e1, e2]
    unfold setC
    rw [show data ⟨m, h.objs⟩ (some c) = data h (some c) from rfl]
    rcases set_same room p hr hm hj hx with ⟨g1, g2⟩ | ⟨e, g1, g2⟩
    · rw [g1, g2]
      simp only [set_data hc]
      exact ⟨rfl, Out.keep hc hr hm⟩
    · rw [g1, g2]
      exact ⟨rfl, j, rfl, Out.keep hc hr hm⟩

/-- The members of a map, each with parts of its own. -/
theorem repO_parts {h : Mem} : ∀ {m : List (Str × Json)} {kvs : GoMap} {F : List Nat}, Obj.Sorted m → RepO h m kvs F →
    ∃ fp : Str → List Nat, (∀ k, RepC h (Obj.lookup k m) (look k kvs) (fp k)) ∧ (∀ k, ∀ a ∈ fp k, a ∈ F) ∧ ∀ k k', k ≠ k' → ∀ a ∈ fp k, a ∉ fp k'
  | [], kvs, F, hs, hr => by
    obtain ⟨rfl, rfl⟩ := hr
    exact ⟨fun _ => [], fun k => rfl, by simp, by simp⟩
  | (k0, x) :: t, kvs, F, hs, hr => by
    simp only [RepO] at hr
    obtain ⟨v, vt, A, B, rfl, h1, h2, rfl, h3⟩ := hr
    obtain ⟨fp, g1, g2, g3⟩ := repO_parts hs.2 h2
    refine ⟨fun k => if k = k0 then A else fp k, fun k => ?_, fun k a ha => ?_, fun k k' hk a ha ha' => ?_⟩
    · by_cases hk : k = k0
      · simpa [Obj.lookup, look, hk, RepC] using h1
      · simpa [Obj.lookup, look, hk] using g1 k
    · by_cases hk : k = k0
      · simp only [hk, if_true] at ha; simp [ha]
      · simp only [if_neg hk] at ha; simp [g2 k a ha]
    · by_cases e : k = k0
      · have e' : k' ≠ k0 := fun e' => hk (e.trans e'.symm)
        simp only [e, if_true] at ha
        simp only [if_neg e'] at ha'
        exact h3 a ha (g2 k' a ha')
      · simp only [if_neg e] at ha
        by_cases e' : k' = k0
        · simp only [e', if_true] at ha'
          exact h3 a ha' (g2 k a ha)
        · simp only [if_neg e'] at ha'
          exact g3 k k' hk a ha ha'

/-- The members of the source that are still to be visited. -/
structure Src (h : Mem) (a : Nat) (kvs : GoMap) (t : List (Str × Json)) (fp : Str → List Nat) (F G : List Nat) : Prop where
  here : h[a]? = some (.map kvs)
  apart : a ∉ F
  away : ∀ k, a ∉ fp k
  parts : ∀ p ∈ t, ∃ v, look p.1 kvs = some v ∧ Rep h (canon p.2) v (fp p.1)
  free : ∀ p ∈ t, ∀ b ∈ F, b ∉ fp p.1
  sub : ∀ k, ∀ b ∈ fp k, b ∈ G
  sep : ∀ k k', k ≠ k' → ∀ b ∈ fp k, b ∉ fp k'

theorem src_of_rep {h : Mem} {t : List (Str × Json)} {v : Val} {F G : List Nat} (hn : (Obj.keys t).Nodup) (hr : Rep h (canon (.obj t)) v G) (hd : ∀ a ∈ F, a ∉ G) :
    ∃ a kvs fp, v = .map a ∧ Src h a kvs t fp F G := by
  simp only [Json.canon] at hr
  obtain ⟨hs, a, kvs, G', rfl, he, hO, ha, rfl⟩ := hr
  obtain ⟨fp, g1, g2, g3⟩ := repO_parts hs hO
  refine ⟨a, kvs, fp, rfl, he, fun hf => hd a hf (by simp), fun k hk => ha (g2 k a hk), ?_, fun p _ b hb hf => hd b hb (by simp [g2 _ b hf]), fun k b hb => by simp [g2 k b hb], g3⟩
  rintro ⟨k, o⟩ hp
  have hl : Obj.lookup k (Obj.ofList (canonO t)) = some (canon o) := by
    rw [Obj.lookup_ofList, Json.lookup_canonO, Obj.lookup_of_mem hn hp]
    · rfl
    · rw [Json.keys_canonO]; exact hn
  have := g1 k
  rw [hl] at this
  unfold RepC at this
  split at this
  · rename_i e1 e2
    cases e1
    exact ⟨_, e2, this⟩
  · rename_i e1 _; cases e1
  · exact this.elim

/-- The merge loop's result, step after step. -/
theorem mergeSpec_then {h : Heap} {c : Nat} {F G F1 G1 : List Nat} {r : Heap × Res Unit} {h1 : Heap} {x : Res Json} {P Q : Json → Prop} (hPQ : ∀ j, P j → Q j) (ho : h1.objs.length = h.objs.length)
    (hobj : ∃ o, h1.objs = h.objs.set c o) (hroot : (data h (some c)).isRef = true → data h1 (some c) = data h (some c))
    (hch : Changes (F ++ G) h.mem h1.mem) (hF1 : ∀ a ∈ F1, a ∈ F ∨ a ∈ G ∨ h.mem.length ≤ a) (hG1 : ∀ a ∈ G1, a ∈ G)
    (hs : MergeSpec h1 c F1 G1 P r x) : MergeSpec h c F G Q r x := by
  have key : ∀ {j'}, Out h1 c F1 G1 r.1 j' → Out h c F G r.1 j' := by
    rintro j' ⟨o', F', g1, g2, g3, g4, g5⟩
    obtain ⟨o, ho⟩ := hobj
    refine ⟨o', F', by rw [g1, ho, List.set_set], g2, hch.trans g3 ?_, ?_, fun ha => by rw [← hroot ha]; exact g5 (by rw [hroot ha]; exact ha)⟩
    · intro a ha hl
      rcases List.mem_append.1 ha with ha | ha
      · rcases hF1 a ha with ha | ha | ha
        · simp [ha]
        · simp [ha]
        · omega
      · simp [hG1 a ha]
    · intro a ha
      rcases g4 a ha with ha | ha | ha
      · exact hF1 a ha
      · exact .inr (.inl (hG1 a ha))
      · exact .inr (.inr (Nat.le_trans hch.le ha))
  cases x with
  | ok j' => exact ⟨hs.1, key hs.2⟩
  | err e => exact ⟨hs.1, hs.2.imp fun _ h => ⟨hPQ _ h.1, key h.2⟩⟩
  | panic => exact ⟨hs.1, hs.2.imp fun _ => key⟩

theorem beginning_next {f : Container.Merger} {j j' : Json} {path : List Str} {key : Str} {o : Json} {t : List (Str × Json)} (h : Container.mergeOne f j (path ++ [key]) o = .ok j')
    (x : Json) : (∃ p, BeginningOf (.obj p) (.obj t) ∧ Container.mergeMap f j' path p = .ok x) →
      ∃ p, BeginningOf (.obj p) (.obj ((key, o) :: t)) ∧ Container.mergeMap f j path p = .ok x := by
  rintro ⟨p, h1, h2⟩
  refine ⟨(key, o) :: p, ?_, by simp [Container.mergeMap, h, h2]⟩
  cases h1 with
  | stop _ after => exact .stop ((key, o) :: p) after
  | inside before after k h1 => exact .inside ((key, o) :: before) after k h1

theorem beginning_inside {f : Container.Merger} {j : Json} {newPath : List Str} {em : Obj} {t : List (Str × Json)} (hg : Gabs.search newPath j = some (.obj em)) (x : Json) :
    (∃ p, BeginningOf (.obj p) (.obj t) ∧ Container.mergeMap f j newPath p = .ok x) →
      x = j ∨ ∃ p, BeginningOf p (.obj t) ∧ Container.mergeOne f j newPath p = .ok x := by
  rintro ⟨p, h1, h2⟩
  exact .inr ⟨.obj p, h1, by rw [Container.mergeOne.eq_def, hg]; exact h2⟩

mutual
theorem mergeMap_rep (room : Nat) (f : Strategy) {c : Nat} (t : List (Str × Json)) (path : List Str) {h : Heap} {j : Json} {F G : List Nat} {a : Nat} {kvs : GoMap}
    {fp : Str → List Nat} (hc : c < h.objs.length) (hr : Rep h.mem j (data h (some c)) F) (hn : (Obj.keys t).Nodup) (hn' : Json.NodupKeysO t)
    (hS : Src h.mem a kvs t fp F G) :
    MergeSpec h c F G (fun j' => ∃ p, BeginningOf (.obj p) (.obj t) ∧ Container.mergeMap f.pure j path p = .ok j') (mergeMap room f c path (.map a) t h) (Container.mergeMap f.pure j path t) := by
  match t with
  | [] => 
    simp only [mergeMap, Container.mergeMap]
    exact ⟨rfl, Out.keep hc hr (Changes.refl _ _)⟩
  | (key, o) :: t =>
    simp only [Json.NodupKeysO] at hn'
    simp only [Obj.keys, List.map_cons, List.nodup_cons] at hn
    obtain ⟨v, hv1, hv2⟩ := hS.parts (key, o) (by simp)
    have h1 := mergeOne_rep room f o (path ++ [key]) hc hr hn'.1 hv2 (hS.free (key, o) (by simp)) (by simp)
    simp only [mergeMap, Container.mergeMap, mapAt_of hS.here, hv1]
    cases hm : mergeOne room f c (path ++ [key]) v o h with
    | mk h1' r1 =>
    rw [hm] at h1
    have weak : ∀ {j'}, Out h c F (fp key) h1' j' → Out h c F G h1' j' := by
      rintro j' ⟨o', F', g1, g2, g3, g4, g5⟩
      refine ⟨o', F', g1, g2, g3.mono fun b hb _ => ?_, fun b hb => (g4 b hb).imp id (Or.imp (hS.sub key b) id), g5⟩
      rcases List.mem_append.1 hb with hb | hb
      · simp [hb]
      · simp [hS.sub key b hb]
    cases hp : Container.mergeOne f.pure j (path ++ [key]) o with
    | err e =>
      rw [hp] at h1
      obtain ⟨e1, j', hP, ho⟩ := h1
      cases e1
      refine ⟨rfl, j', ?_, weak ho⟩
      rcases hP with rfl | ⟨p, hp1, hp2⟩
      · exact ⟨[], .stop [] _, by simp [Container.mergeMap]⟩
      · exact ⟨[(key, p)], .inside [] t key hp1, by simp [Container.mergeMap, hp2]⟩
    | panic =>
      rw [hp] at h1
      obtain ⟨e1, j', ho⟩ := h1
      cases e1
      exact ⟨rfl, j', weak ho⟩
    | ok j' =>
      rw [hp] at h1
      obtain ⟨e1, ho⟩ := h1
      cases e1
      simp only
      have hobj : ∃ o, h1'.objs = h.objs.set c o := by obtain ⟨o', F', g1, -⟩ := ho; exact ⟨o', g1⟩
      obtain ⟨F', g1, g2, g3, g4, g5, g6⟩ := ho.data hc
      have hF' : ∀ b ∈ F', b ∈ F ∨ b ∈ G ∨ h.mem.length ≤ b := fun b hb => (g4 b hb).imp id (Or.imp (hS.sub key b) id)
      have hlt : a < h.mem.length := (List.getElem?_eq_some_iff.1 hS.here).1
      refine mergeSpec_then (F1 := F') (G1 := G) (beginning_next hp) g2 hobj g5 (g3.mono fun b hb _ => ?_) hF' (fun b hb => hb)
        (mergeMap_rep room f t path (g2 ▸ hc) g1 hn.2 hn'.2 (fp := fp) (kvs := kvs) ⟨?_, ?_, hS.away, ?_, ?_, hS.sub, hS.sep⟩)
      · rcases List.mem_append.1 hb with hb | hb
        · simp [hb]
        · simp [hS.sub key b hb]
      · rw [g3.same a hlt, hS.here]
        intro hx
        rcases List.mem_append.1 hx with hx | hx
        · exact hS.apart hx
        · exact hS.away key hx
      · intro hx
        rcases g4 a hx with hx | hx | hx
        · exact hS.apart hx
        · exact hS.away key hx
        · omega
      · intro p hp
        obtain ⟨w, w1, w2⟩ := hS.parts p (by simp [hp])
        have hne : key ≠ p.1 := fun e => hn.1 (e ▸ List.mem_map_of_mem hp)
        refine ⟨w, w1, g3.frame w2 fun b hb hx => ?_⟩
        rcases List.mem_append.1 hx with hx | hx
        · exact hS.free p (by simp [hp]) b hx hb
        · exact hS.sep key p.1 hne b hx hb
      · intro p hp b hb hx
        obtain ⟨w, w1, w2⟩ := hS.parts p (by simp [hp])
        have hne : key ≠ p.1 := fun e => hn.1 (e ▸ List.mem_map_of_mem hp)
        rcases g4 b hb with hb | hb | hb
        · exact hS.free p (by simp [hp]) b hb hx
        · exact hS.sep key p.1 hne b hb hx
        · exact absurd (rep_lt _ _ _ w2 b hx) (by omega)
termination_by structural t
theorem mergeOne_rep (room : Nat) (f : Strategy) {c : Nat} (o : Json) (newPath : List Str) {h : Heap} {j : Json} {v : Val} {F G : List Nat}
    (hc : c < h.objs.length) (hr : Rep h.mem j (data h (some c)) F) (hn : Json.NodupKeys o) (hv : Rep h.mem (canon o) v G) (hd : ∀ a ∈ F, a ∉ G) (hp : newPath ≠ []) :
    MergeSpec h c F G (fun j' => j' = j ∨ ∃ p, BeginningOf p o ∧ Container.mergeOne f.pure j newPath p = .ok j') (mergeOne room f c newPath v o h) (Container.mergeOne f.pure j newPath o) := by
  have hf := search_rep newPath hr
  rw [mergeOne.eq_def, Container.mergeOne.eq_def]
  cases hsr : search newPath (data h (some c)) h.mem with
  | mk m found =>
  cases hg : Gabs.search newPath j with
  | none =>
    rw [hg, hsr] at hf
    obtain ⟨e, hm⟩ := hf
    cases e
    exact (setC_rep room newPath hc hr hv hd hm hp).weaken fun _ h => .inl h
  | some ex =>
    rw [hg, hsr] at hf
    obtain ⟨xv, A, e, hx, hm, hA⟩ := hf
    cases e
    have hcol := (collide_rep room f newPath (xv := xv) hc hr hv hd hm hp hg (by rw [hsr])).weaken (Q := fun j' => j' = j ∨ ∃ p, BeginningOf p o ∧ Container.mergeOne f.pure j newPath p = .ok j') fun _ h => .inl h
    simp only
    match o with
    | .null => obtain ⟨rfl, -⟩ := hv; exact hcol
    | .bool b => obtain ⟨rfl, -⟩ := hv; exact hcol
    | .num b => obtain ⟨rfl, -⟩ := hv; exact hcol
    | .str b => obtain ⟨rfl, -⟩ := hv; exact hcol
    | .arr xs => 
      have : ∃ a l, v = .slice a l := by obtain ⟨a, len, bs, G, rfl, -⟩ := hv; exact ⟨a, len, rfl⟩
      obtain ⟨a, l, rfl⟩ := this
      exact hcol
    | .obj t => 
      simp only [Json.NodupKeys] at hn
      obtain ⟨a, kvs, fp, rfl, hS⟩ := src_of_rep hn.1 hv hd
      cases ex with
      | null => obtain ⟨rfl, -⟩ := hx; exact hcol
      | bool b => obtain ⟨rfl, -⟩ := hx; exact hcol
      | num b => obtain ⟨rfl, -⟩ := hx; exact hcol
      | str b => obtain ⟨rfl, -⟩ := hx; exact hcol
      | arr xs => 
        have : ∃ a l, xv = .slice a l := by obtain ⟨a, len, bs, G, rfl, -⟩ := hx; exact ⟨a, len, rfl⟩
        obtain ⟨a, l, rfl⟩ := this
        exact hcol
      | obj em =>
        have : ∃ a, xv = .map a := by obtain ⟨-, a, kvs, G, rfl, -⟩ := hx; exact ⟨a, rfl⟩
        obtain ⟨xa, rfl⟩ := this
        simp only
        have hS' : Src m a kvs t fp F G := ⟨by rw [hm.same a (List.getElem?_eq_some_iff.1 hS.here).1 (by simp), hS.here], hS.apart, hS.away,
          fun p hp => by obtain ⟨w, w1, w2⟩ := hS.parts p hp; exact ⟨w, w1, hm.frame w2 (by simp)⟩, hS.free, hS.sub, hS.sep⟩
        refine mergeSpec_then (h1 := ⟨m, h.objs⟩) (F1 := F) (G1 := G) (beginning_inside hg) rfl ⟨_, (set_data hc).symm⟩ (fun _ => rfl) (hm.mono (by simp)) (fun b hb => .inl hb) (fun b hb => hb) ?_
        exact mergeMap_rep room f t newPath (h := ⟨m, h.objs⟩) hc (hm.frame hr (by simp)) hn.1 hn.2 hS'
termination_by structural o
end

end Oapi.GoHeap
