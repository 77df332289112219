import Verif.Proofs.GoHeap7
import Verif.Model.GoDefaults

/-! The default operations in memory: one step. -/
namespace Oapi.GoHeap
open Spec (getAt putAt child)
open Container (keyLoc)

theorem fill_ref {o : Val} (h : Mem) (hr : o ≠ .null) : fill (some o) h = (h, o) := by
  cases o <;> first | rfl | exact absurd rfl hr

theorem fill_json {j : Json} (hr : j ≠ .null) : Gabs.fill (some j) = j := by
  cases j <;> first | rfl | exact absurd rfl hr

theorem set_walk (room : Nat) {jv : Json} {v : Val} {G : List Nat} {p q : List Str} {h h' : Mem} {j : Json} {o o' w : Val} {F : List Nat}
    (hr : Rep h j o F) (hv : Rep h jv v G) (hd : ∀ a ∈ F, a ∉ G) (hl : p.length = q.length) (hne : p ≠ q) (hw : walkM p o h = some w)
    (hs : set room v q o h = .ok (h', o')) : walkM p o' h' = some w := by
  cases q with
  | nil => exact absurd (List.length_eq_zero_iff.1 hl) hne
  | cons s q =>
    have hon : o ≠ .null := by
      rintro rfl
      cases p with
      | nil => cases hl
      | cons => simp [walkM] at hw
    have e1 : set room v (s :: q) o h = setRec room v true (s :: q) (fill (some o) h).2 (fill (some o) h).1 := rfl
    rw [e1, fill_ref h hon] at hs
    exact setRec_walk room (s :: q) p true hr hv hd hl hne hw hs

theorem set_getAt {jv : Json} {p q : List Str} {j j' x : Json} (hl : p.length = q.length) (hne : p ≠ q) (hg : getAt j (keyLoc p) = some x)
    (hs : Gabs.set jv q j = .ok j') : getAt j' (keyLoc p) = some x := by
  cases q with
  | nil => exact absurd (List.length_eq_zero_iff.1 hl) hne
  | cons s q =>
    have hjn : j ≠ .null := by
      rintro rfl
      cases p with
      | nil => cases hl
      | cons => obtain ⟨m, x, e, -⟩ := getAt_keys_cons hg; cases e
    have e2 : Gabs.set jv (s :: q) j = Gabs.setGo jv true (s :: q) (Gabs.fill (some j)) := rfl
    rw [e2, fill_json hjn] at hs
    exact setGo_getAt (s :: q) p true hl hne hg hs

theorem set_replace (room : Nat) {jv : Json} {v : Val} {G : List Nat} {p : List Str} {h : Mem} {j : Json} {o : Val} {F : List Nat} {jc : Json} (hp : p ≠ [])
    (hr : Rep h j o F) (hv : Rep h jv v G) (hd : ∀ a ∈ F, a ∉ G) (hg : getAt j (keyLoc p) = some jc) :
    ∃ c A h' F', walkM p o h = some c ∧ Rep h jc c A ∧ (∀ a ∈ A, a ∈ F) ∧ set room v p o h = .ok (h', o) ∧
      Gabs.set jv p j = .ok (putAt jv (keyLoc p) j) ∧ Rep h' (putAt jv (keyLoc p) j) o F' ∧ (∀ a ∈ F', (a ∈ F ∧ a ∉ A) ∨ a ∈ G) ∧
      h'.length = h.length ∧ ∀ a, (a ∈ F → a ∈ A) → h'[a]? = h[a]? := by
  cases p with
  | nil => exact absurd rfl hp
  | cons s q =>
    have hjn : j ≠ .null := by rintro rfl; obtain ⟨m, x, e, -⟩ := getAt_keys_cons hg; cases e
    have hon : o ≠ .null := by rintro rfl; exact hjn (rep_null hr)
    have e1 : set room v (s :: q) o h = setRec room v true (s :: q) (fill (some o) h).2 (fill (some o) h).1 := rfl
    have e2 : Gabs.set jv (s :: q) j = Gabs.setGo jv true (s :: q) (Gabs.fill (some j)) := rfl
    rw [e1, e2, fill_ref h hon, fill_json hjn]
    exact setRec_replace room (s :: q) true hp hr hv hd hg

/-- Merging a new default into an operation, wherever its map is. -/
theorem merge_op (room : Nat) {h : Heap} {w : Nat} {ov jv : Json} {A : List Nat} (hw : w < h.objs.length) (hr : Rep h.mem jv (data h (some w)) A) (hn : Json.NodupKeys ov) :
    match Container.merge jv ov Container.mergeDefault with
    | .ok nc => ∃ h2 A', merge room .default w (some (make (Json.canon ov) h).2) ov (make (Json.canon ov) h).1 = (h2, .ok ()) ∧ Rep h2.mem nc (data h2 (some w)) A' ∧
        Changes A h.mem h2.mem ∧ (∀ a ∈ A', a ∈ A ∨ h.mem.length ≤ a) ∧ ((data h (some w)).isRef = true → data h2 (some w) = data h (some w)) ∧
        (∀ x, x < h.objs.length → x ≠ w → data h2 (some x) = data h (some x)) ∧ h.objs.length ≤ h2.objs.length
    | .err e => ∃ h2, merge room .default w (some (make (Json.canon ov) h).2) ov (make (Json.canon ov) h).1 = (h2, .err e)
    | .panic => False := by
  obtain ⟨S, s1, s2, s3⟩ := alloc_rep (Json.canon ov) h.mem (Json.canon_WF ov)
  have hold : ∀ x, x < h.objs.length → data (make (Json.canon ov) h).1 (some x) = data h (some x) := by
    intro x hx
    simp [make, data, List.getD, List.getElem?_append_left hx]
  have hnew : data (make (Json.canon ov) h).1 (some (make (Json.canon ov) h).2) = (alloc (Json.canon ov) h.mem).2 := by
    simp [make, data, List.getD]
  have hlen : (make (Json.canon ov) h).1.objs.length = h.objs.length + 1 := by simp [make]
  have hmem : (make (Json.canon ov) h).1.mem = (alloc (Json.canon ov) h.mem).1 := rfl
  obtain ⟨h1, G, g1, g2, g3, g4, g5⟩ := merge_rep room .default (h := (make (Json.canon ov) h).1) (c := w) (src := (make (Json.canon ov) h).2) (order := ov)
    (by rw [hlen]; omega) (by rw [hold w hw, hmem]; exact s2.frame hr (by simp)) (by rw [hnew]; exact s1) hn rfl
  have hle : h.mem.length ≤ (make (Json.canon ov) h).1.mem.length := s2.le
  have hw1 : w < h1.objs.length := by rw [g1]; simp [make]; omega
  have epure : Strategy.pure .default = Container.mergeDefault := rfl
  rw [epure] at g5
  cases hm : merge room .default w (some (make (Json.canon ov) h).2) ov (make (Json.canon ov) h).1 with
  | mk h2 r =>
  rw [hm] at g5
  cases hg : Container.merge jv ov Container.mergeDefault with
  | panic => exact absurd hg (merge_no_panic .default jv ov)
  | err e =>
    rw [hg] at g5
    obtain ⟨e1, -⟩ := g5
    cases e1
    exact ⟨h2, rfl⟩
  | ok nc =>
    rw [hg] at g5
    obtain ⟨e1, ho⟩ := g5
    cases e1
    obtain ⟨A', k1, k2, k3, k4, k5, k6⟩ := ho.data hw1
    have hd1 : ∀ x, x < h.objs.length → data h1 (some x) = data h (some x) := by
      intro x hx
      rw [← hold x hx]
      have e := congrArg (·[x]?) g1
      simp only [List.getElem?_append_left (show x < (make (Json.canon ov) h).1.objs.length by rw [hlen]; omega)] at e
      simp only [data, List.getD, e]
    refine ⟨h2, A', rfl, k1, ?_, ?_, ?_, ?_, ?_⟩
    · refine ((s2.mono (by simp)).trans (g2.mono (F' := A) (by simp)) (fun a ha _ => ha)).trans k3 ?_
      intro a ha hlt
      rcases List.mem_append.1 ha with ha | ha
      · exact ha
      · have := g3 a ha; omega
    · intro a ha
      rcases k4 a ha with ha | ha | ha
      · exact .inl ha
      · exact .inr (Nat.le_trans hle (g3 a ha))
      · exact .inr (Nat.le_trans hle (Nat.le_trans g2.le ha))
    · intro href
      rw [k5 (by rw [hd1 w hw]; exact href), hd1 w hw]
    · intro x hx hxw
      rw [k6 x hxw, hd1 x hx]
    · rw [k2]; have := congrArg List.length g1; simp [make] at this; omega

/-- Where an operation is in the document. -/
abbrev keysOf (P m : Str) : List Str := [b!"paths", P, m]

/-- What is known of an operation: it is a part of the document, or a document of its own. -/
def OpInv (h : Heap) (c : Nat) (cnt : Json) (o : OAPI.Op) (w : Nat) (D : List Nat) : Prop :=
  if o.attached then walkM (keysOf o.path o.method) (data h (some c)) h.mem = some (data h (some w)) ∧ getAt cnt (keyLoc (keysOf o.path o.method)) = some o.val ∧
    (data h (some w)).isRef = true ∧ D = []
  else Rep h.mem o.val (data h (some w)) D

/-- The document, and the operations found in it. -/
structure Inv (h : Heap) (c : Nat) (st : OAPI.St) (hops : List HOp) (F : List Nat) (D : Nat → List Nat) (K : List (Nat × Json × List Nat)) : Prop where
  hc : c < h.objs.length
  rep : Rep h.mem st.cnt (data h (some c)) F
  same : st.ops.map (fun o => (o.path, o.method)) = hops.map (fun o => (o.path, o.method))
  nodup : (st.ops.map (fun o => (o.path, o.method))).Nodup
  cont : (hops.map HOp.cont).Nodup
  own : ∀ o ∈ hops, o.cont < h.objs.length ∧ o.cont ≠ c
  op : ∀ (i : Nat) o ho, st.ops[i]? = some o → hops[i]? = some ho → OpInv h c st.cnt o ho.cont (D i)
  free : ∀ (i : Nat), ∀ a ∈ D i, a ∉ F
  sep : ∀ (i k : Nat), i ≠ k → ∀ a ∈ D i, a ∉ D k
  lt : ∀ (i : Nat), ∀ a ∈ D i, a < h.mem.length
  /-- Other containers, with their documents and parts. -/
  keep : ∀ q ∈ K, (q.1 < h.objs.length ∧ q.1 ≠ c ∧ ∀ o ∈ hops, o.cont ≠ q.1) ∧ Rep h.mem q.2.1 (data h (some q.1)) q.2.2 ∧ (∀ a ∈ q.2.2, a ∉ F) ∧ ∀ (i : Nat), ∀ a ∈ q.2.2, a ∉ D i

theorem Inv.both {h : Heap} {c : Nat} {st : OAPI.St} {hops : List HOp} {F : List Nat} {D : Nat → List Nat} {K : List (Nat × Json × List Nat)} (I : Inv h c st hops F D K) {i : Nat} {o : OAPI.Op}
    (ho : st.ops[i]? = some o) : ∃ w, hops[i]? = some w ∧ w.path = o.path ∧ w.method = o.method := by
  have := congrArg (·[i]?) I.same
  simp only [List.getElem?_map, ho, Option.map_some] at this
  cases hw : hops[i]? with
  | none => rw [hw] at this; cases this
  | some w =>
    rw [hw] at this
    simp only [Option.map_some, Option.some.injEq, Prod.mk.injEq] at this
    exact ⟨w, rfl, this.1.symm, this.2.symm⟩

theorem nodup_get {α β : Type} {f : α → β} {l : List α} (hn : (l.map f).Nodup) {i k : Nat} {x y : α} (hi : l[i]? = some x) (hk : l[k]? = some y) (hne : i ≠ k) : f x ≠ f y := by
  intro e
  have h1 : (l.map f)[i]? = some (f x) := by simp [hi]
  have h2 : (l.map f)[k]? = some (f x) := by simp [hk, e]
  exact hne ((List.getElem?_inj (List.getElem?_eq_some_iff.1 h1).1 hn).1 (h1.trans h2.symm))

/-- The document an operation is, and its parts. -/
theorem Inv.opRep {h : Heap} {c : Nat} {st : OAPI.St} {hops : List HOp} {F : List Nat} {D : Nat → List Nat} {K : List (Nat × Json × List Nat)} (I : Inv h c st hops F D K) {i : Nat} {o : OAPI.Op} {w : HOp}
    (ho : st.ops[i]? = some o) (hw : hops[i]? = some w) : ∃ A, Rep h.mem o.val (data h (some w.cont)) A := by
  have := I.op i o w ho hw
  unfold OpInv at this
  split at this
  · obtain ⟨h1, h2, -, -⟩ := this
    obtain ⟨x, A, k1, k2, -⟩ := rep_focus _ I.rep h2
    rw [h1] at k1
    cases k1
    exact ⟨A, k2⟩
  · exact ⟨_, this⟩

/-- Merging a default into an operation, in place. -/
theorem inv_merge (room : Nat) {h : Heap} {c : Nat} {st : OAPI.St} {hops : List HOp} {F : List Nat} {D : Nat → List Nat} {K : List (Nat × Json × List Nat)} (I : Inv h c st hops F D K) {i : Nat} {o : OAPI.Op} {w : HOp}
    (ho : st.ops[i]? = some o) (hw : hops[i]? = some w) {ov : Json} (hn : Json.NodupKeys ov) :
    match Container.merge o.val ov Container.mergeDefault with
    | .ok nc => ∃ h2 cnt1 F' D', merge room .default w.cont (some (make (Json.canon ov) h).2) ov (make (Json.canon ov) h).1 = (h2, .ok ()) ∧
        (if o.attached then Gabs.set nc (keysOf o.path o.method) st.cnt else .ok st.cnt) = .ok cnt1 ∧
        Inv h2 c ⟨cnt1, st.ops.set i { o with val := nc }⟩ hops F' D' K
    | .err e => ∃ h2, merge room .default w.cont (some (make (Json.canon ov) h).2) ov (make (Json.canon ov) h).1 = (h2, .err e)
    | .panic => False := by
  have hwm : w ∈ hops := List.mem_of_getElem? hw
  obtain ⟨hwl, hwc⟩ := I.own w hwm
  have hlt : i < st.ops.length := (List.getElem?_eq_some_iff.1 ho).1
  have hkeys : (st.ops.set i { o with val := o.val }).map (fun o => (o.path, o.method)) = st.ops.map (fun o => (o.path, o.method)) := by
    rw [set_getElem ho]
  have hsame : ∀ nc, (st.ops.set i { o with val := nc }).map (fun o => (o.path, o.method)) = st.ops.map (fun o => (o.path, o.method)) := by
    intro nc
    rw [← hkeys, List.map_set, List.map_set]
  have hother : ∀ {k : Nat} {x : OAPI.Op} {y : HOp} {nc}, (st.ops.set i { o with val := nc })[k]? = some x → hops[k]? = some y → k ≠ i →
      st.ops[k]? = some x ∧ y.cont ≠ w.cont ∧ y.cont < h.objs.length := by
    intro k x y nc hx hy hki
    rw [List.getElem?_set_ne (Ne.symm hki)] at hx
    exact ⟨hx, nodup_get I.cont hy hw hki, (I.own y (List.mem_of_getElem? hy)).1⟩
  have hself : ∀ {x : OAPI.Op} {nc}, (st.ops.set i { o with val := nc })[i]? = some x → x = { o with val := nc } := by
    intro x nc hx
    rw [List.getElem?_set_self hlt] at hx
    cases hx; rfl
  have hop := I.op i o w ho hw
  by_cases hat : o.attached = true
  · unfold OpInv at hop
    rw [if_pos hat] at hop
    obtain ⟨o1, o2, o3, o4⟩ := hop
    obtain ⟨x, A, k1, k2, k3, k4, k5⟩ := rep_focus _ I.rep o2
    rw [o1] at k1
    cases k1
    have hm := merge_op room hwl k2 hn
    cases hg : Container.merge o.val ov Container.mergeDefault with
    | panic => rw [hg] at hm; exact hm
    | err e => rw [hg] at hm; exact hm
    | ok nc =>
      rw [hg] at hm
      obtain ⟨h2, A', m1, m2, m3, m4, m5, m6, m7⟩ := hm
      have hdw := m5 o3
      rw [hdw] at m2
      have hsm : ∀ a ∈ F, a ∉ A → h2.mem[a]? = h.mem[a]? := fun a ha hn => m3.same a (rep_lt _ _ _ I.rep a ha) hn
      obtain ⟨F', f1, f2⟩ := k4 m2 hsm (fun a ha hn ha' => by
        rcases m4 a ha' with ha' | ha'
        · exact hn ha'
        · exact absurd (rep_lt _ _ _ I.rep a ha) (by omega))
      have hdc : data h2 (some c) = data h (some c) := m6 c I.hc (Ne.symm hwc)
      have hset : Gabs.set nc (keysOf o.path o.method) st.cnt = .ok (putAt nc (keyLoc (keysOf o.path o.method)) st.cnt) := by
        obtain ⟨S, s1, s2, s3⟩ := alloc_rep nc h.mem (rep_wf _ _ _ m2)
        obtain ⟨_, _, _, _, -, -, -, -, e, -⟩ := set_replace 0 (p := keysOf o.path o.method) (by simp) (s2.frame I.rep (by simp)) s1 (fun a ha hg => by
          have := rep_lt _ _ _ I.rep a ha
          have := s3 a hg
          omega) o2
        exact e
      refine ⟨h2, _, F', D, m1, by rw [if_pos hat]; exact hset, ?_⟩
      have hDF : ∀ k, ∀ a ∈ D k, a ∉ A := fun k a ha hA => I.free k a ha (k3 a hA)
      refine ⟨Nat.lt_of_lt_of_le I.hc m7, by rw [hdc]; exact f1, by rw [hsame]; exact I.same, by rw [hsame]; exact I.nodup, I.cont, ?_, ?_, ?_, I.sep, ?_, ?_⟩
      · intro q hq
        obtain ⟨q1, q2⟩ := I.own q hq
        exact ⟨Nat.lt_of_lt_of_le q1 m7, q2⟩
      · intro k x y hx hy
        by_cases hki : k = i
        · subst hki
          rw [hw] at hy
          cases hy
          have := hself hx
          subst this
          unfold OpInv
          rw [if_pos (show ({ o with val := nc } : OAPI.Op).attached = true from hat)]
          refine ⟨?_, ?_, by rw [hdw]; exact o3, o4⟩
          · simp only
            rw [hdc, hdw, k5 hsm _ rfl, o1]
          · exact Container.getAt_putAt_self nc o2
        · obtain ⟨z1, z2, z3⟩ := hother hx hy hki
          have hz := I.op k x y z1 hy
          have hdy : data h2 (some y.cont) = data h (some y.cont) := m6 _ z3 z2
          unfold OpInv at hz ⊢
          split at hz
          · rename_i hxat
            rw [if_pos hxat]
            obtain ⟨y1, y2, y3, y4⟩ := hz
            refine ⟨by rw [hdc, hdy, k5 hsm _ (by simp), y1], ?_, by rw [hdy]; exact y3, y4⟩
            have hne := nodup_get I.nodup z1 ho hki
            rw [← y2]
            simp only
            refine getAt_putAt_apart ?_
            have hne' : keyLoc (keysOf o.path o.method) ≠ keyLoc (keysOf x.path x.method) := by
              intro e
              simp only [keyLoc, keysOf, List.map_cons, List.map_nil, List.cons.injEq, Spec.Step.key.injEq, and_true, true_and] at e
              exact hne (by rw [e.1, e.2])
            exact ⟨fun hp => hne' (hp.eq_of_length (by simp [keyLoc])), fun hp => hne' (hp.eq_of_length (by simp [keyLoc])).symm⟩
          · rename_i hxat
            rw [if_neg hxat, hdy]
            exact m3.frame hz (hDF k)
      · intro k a ha hF
        rcases (f2 a).1 hF with hF | hF
        · exact I.free k a ha hF.1
        · rcases m4 a hF with hF | hF
          · exact hDF k a ha hF
          · exact absurd (I.lt k a ha) (by omega)
      · intro k a ha
        exact Nat.lt_of_lt_of_le (I.lt k a ha) m3.le
      · intro q hq
        obtain ⟨⟨q1, q2, q3⟩, q4, q5, q6⟩ := I.keep q hq
        refine ⟨⟨Nat.lt_of_lt_of_le q1 m7, q2, q3⟩, ?_, ?_, q6⟩
        · rw [m6 q.1 q1 (Ne.symm (q3 w hwm))]
          exact m3.frame q4 fun a ha hA => q5 a ha (k3 a hA)
        · intro a ha hF
          have hl := rep_lt _ _ _ q4 a ha
          rcases (f2 a).1 hF with hF | hF
          · exact q5 a ha hF.1
          · rcases m4 a hF with hF | hF
            · exact q5 a ha (k3 a hF)
            · omega
  · unfold OpInv at hop
    rw [if_neg hat] at hop
    have hm := merge_op room hwl hop hn
    cases hg : Container.merge o.val ov Container.mergeDefault with
    | panic => rw [hg] at hm; exact hm
    | err e => rw [hg] at hm; exact hm
    | ok nc =>
      rw [hg] at hm
      obtain ⟨h2, A', m1, m2, m3, m4, m5, m6, m7⟩ := hm
      have hdc : data h2 (some c) = data h (some c) := m6 c I.hc (Ne.symm hwc)
      have hFD : ∀ a ∈ F, a ∉ D i := fun a ha hD => I.free i a hD ha
      have hrep := m3.frame I.rep hFD
      have hwalk : ∀ p, walkM p (data h (some c)) h2.mem = walkM p (data h (some c)) h.mem := fun p =>
        walkM_frame p I.rep fun a ha => m3.same a (rep_lt _ _ _ I.rep a ha) (hFD a ha)
      refine ⟨h2, st.cnt, F, fun k => if k = i then A' else D k, m1, by rw [if_neg hat], ?_⟩
      refine ⟨Nat.lt_of_lt_of_le I.hc m7, by rw [hdc]; exact hrep, by rw [hsame]; exact I.same, by rw [hsame]; exact I.nodup, I.cont, ?_, ?_, ?_, ?_, ?_, ?_⟩
      · intro q hq
        obtain ⟨q1, q2⟩ := I.own q hq
        exact ⟨Nat.lt_of_lt_of_le q1 m7, q2⟩
      · intro k x y hx hy
        by_cases hki : k = i
        · subst hki
          rw [hw] at hy
          cases hy
          have := hself hx
          subst this
          unfold OpInv
          rw [if_neg (show ¬ ({ o with val := nc } : OAPI.Op).attached = true from hat)]
          simpa using m2
        · obtain ⟨z1, z2, z3⟩ := hother hx hy hki
          have hz := I.op k x y z1 hy
          have hdy : data h2 (some y.cont) = data h (some y.cont) := m6 _ z3 z2
          simp only [if_neg hki]
          unfold OpInv at hz ⊢
          split at hz
          · rename_i hxat
            rw [if_pos hxat]
            obtain ⟨y1, y2, y3, y4⟩ := hz
            exact ⟨by rw [hdc, hdy, hwalk, y1], y2, by rw [hdy]; exact y3, y4⟩
          · rename_i hxat
            rw [if_neg hxat, hdy]
            exact m3.frame hz (I.sep k i hki)
      · intro k a ha hF
        split at ha
        · rcases m4 a ha with ha | ha
          · exact I.free i a ha hF
          · exact absurd (rep_lt _ _ _ I.rep a hF) (by omega)
        · exact I.free k a ha hF
      · intro k l hkl a ha hb
        split at ha
        · rename_i e
          subst e
          rw [if_neg (Ne.symm hkl)] at hb
          rcases m4 a ha with ha | ha
          · exact I.sep _ l hkl a ha hb
          · exact absurd (I.lt l a hb) (by omega)
        · split at hb
          · rename_i e
            subst e
            rcases m4 a hb with hb | hb
            · exact I.sep k _ hkl a ha hb
            · exact absurd (I.lt k a ha) (by omega)
          · exact I.sep k l hkl a ha hb
      · intro k a ha
        split at ha
        · exact rep_lt _ _ _ m2 a ha
        · exact Nat.lt_of_lt_of_le (I.lt k a ha) m3.le
      · intro q hq
        obtain ⟨⟨q1, q2, q3⟩, q4, q5, q6⟩ := I.keep q hq
        refine ⟨⟨Nat.lt_of_lt_of_le q1 m7, q2, q3⟩, ?_, q5, ?_⟩
        · rw [m6 q.1 q1 (Ne.symm (q3 w hwm))]
          exact m3.frame q4 fun a ha hA => q6 i a ha hA
        · intro k a ha hD
          have hl := rep_lt _ _ _ q4 a ha
          split at hD
          · rcases m4 a hD with hD | hD
            · exact q6 i a ha hD
            · omega
          · exact q6 k a ha hD

end Oapi.GoHeap
