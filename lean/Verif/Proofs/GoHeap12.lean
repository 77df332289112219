import Verif.Proofs.GoHeap11

/-! Histories with a view. -/
namespace Oapi.GoHeap
open Spec Container

/-- The containers but one. -/
def without (d : Docs) (w : Nat) : Docs := fun x => if x = w then none else d x

theorem without_upd {d : Docs} {w t : Nat} {j : Json} (h : t ≠ w) : without (d.upd t j) w = (without d w).upd t j := by
  funext x
  simp only [without, Docs.upd]
  by_cases e : x = w
  · subst e
    simp [Ne.symm h]
  · simp [e]

theorem without_self {d : Docs} {w : Nat} {j : Json} : without (d.upd w j) w = without d w := by
  funext x
  simp only [without, Docs.upd]
  split <;> rfl

theorem without_ne {d : Docs} {w x : Nat} (h : x ≠ w) : without d w x = d x := by simp [without, h]

/-- Container `w` looks at the part at `L` of container `c`; all others are trees of their own. -/
structure ViewW (c w : Nat) (L : Loc) (p : List Str) (h : Heap) (d : Docs) (F : Nat → List Nat) : Prop where
  world : WorldF h (without d w) F
  ne : c ≠ w
  lt : w < h.objs.length
  docs : ∃ j x, d c = some j ∧ d w = some x ∧ getAt j L = some x ∧ scalar x = false
  look : search p (data h (some c)) h.mem = (h.mem, some (data h (some w)))

theorem ref_of_not_scalar {h : Mem} {j : Json} {v : Val} {A : List Nat} (hr : Rep h j v A) (hs : scalar j = false) : v.isRef = true := by
  cases j with
  | obj m => obtain ⟨-, a, kvs, G, rfl, -⟩ := hr; rfl
  | arr m => obtain ⟨a, kvs, bs, G, rfl, -⟩ := hr; rfl
  | null => cases hs
  | bool b => cases hs
  | num b => cases hs
  | str b => cases hs

theorem not_scalar_of_ref {h : Mem} {j : Json} {v : Val} {A : List Nat} (hr : Rep h j v A) (hs : v.isRef = true) : scalar j = false := by
  cases j with
  | obj m => rfl
  | arr m => rfl
  | null => rw [hr.1] at hs; cases hs
  | bool b => rw [hr.1] at hs; cases hs
  | num b => rw [hr.1] at hs; cases hs
  | str b => rw [hr.1] at hs; cases hs

section
variable {c w : Nat} {L : Loc} {p : List Str} {h : Heap} {d : Docs} {F : Nat → List Nat}

/-- The whole and the part. -/
theorem ViewW.focus (V : ViewW c w L p h d F) (hs : b!"*" ∉ p) (hn : NamesAll p L) :
    ∃ j x A, d c = some j ∧ d w = some x ∧ getAt j L = some x ∧ c < h.objs.length ∧ Rep h.mem j (data h (some c)) (F c) ∧ Rep h.mem x (data h (some w)) A ∧
      (data h (some w)).isRef = true ∧ (∀ a ∈ A, a ∈ F c) ∧
      (∀ {h' : Mem} {x' : Json} {A' : List Nat}, Rep h' x' (data h (some w)) A' → (∀ a ∈ F c, a ∉ A → h'[a]? = h.mem[a]?) → (∀ a ∈ F c, a ∉ A → a ∉ A') →
        ∃ F', Rep h' (putAt x' L j) (data h (some c)) F' ∧ ∀ a, a ∈ F' ↔ (a ∈ F c ∧ a ∉ A) ∨ a ∈ A') ∧
      ∀ {h' : Mem}, (∀ a ∈ F c, a ∉ A → h'[a]? = h.mem[a]?) → search p (data h (some c)) h' = (h', some (data h (some w))) := by
  obtain ⟨j, x, h1, h2, h3, h4⟩ := V.docs
  obtain ⟨k1, k2⟩ := V.world.1 c j (by rw [without_ne V.ne]; exact h1)
  obtain ⟨v, A, f1, f2, f3, f4, f5⟩ := view_focus p L hs hn k2 h3
  have : v = data h (some w) := by
    have := f1.symm.trans V.look
    simpa using this
  subst this
  exact ⟨j, x, A, h1, h2, h3, k1, k2, f2, ref_of_not_scalar f2 h4, f3, f4, f5⟩

/-- All containers are trees. -/
theorem ViewW.rep (V : ViewW c w L p h d F) (hs : b!"*" ∉ p) (hn : NamesAll p L) {y : Nat} {j : Json} (hy : d y = some j) :
    y < h.objs.length ∧ ∃ A, Rep h.mem j (data h (some y)) A := by
  by_cases e : y = w
  · subst e
    obtain ⟨_, x, A, _, h2, _, _, _, h5, _⟩ := V.focus hs hn
    rw [h2] at hy
    cases hy
    exact ⟨V.lt, A, h5⟩
  · have := V.world.1 y j (by rw [without_ne e]; exact hy)
    exact ⟨this.1, _, this.2⟩

theorem view_new (V : ViewW c w L p h d F) (hs : b!"*" ∉ p) (hn : NamesAll p L) {m : Mem} {o : Val} {j : Json} {G : List Nat} (hm : Changes [] h.mem m) (hr : Rep m j o G)
    (hG : ∀ a ∈ G, h.mem.length ≤ a) : (∃ F', ViewW c w L p ⟨m, h.objs ++ [o]⟩ (d.upd h.objs.length j) F') ∧ d h.objs.length = none := by
  obtain ⟨jc, x, A, d1, d2, d3, cl, rc, rw', isr, hA, f1, f2⟩ := V.focus hs hn
  have hw := V.lt
  obtain ⟨k1, k2⟩ := world_newF V.world hm hr hG
  rw [without_ne (by omega)] at k2
  rw [← without_upd (by omega)] at k1
  have hd : ∀ {y : Nat}, y < h.objs.length → data ⟨m, h.objs ++ [o]⟩ (some y) = data h (some y) := by
    intro y hy; simp [data, List.getD, List.getElem?_append_left hy]
  refine ⟨⟨_, k1, V.ne, by simp; omega, ⟨jc, x, ?_, ?_, d3, not_scalar_of_ref rw' isr⟩, ?_⟩, k2⟩
  · simp only [Docs.upd]; rw [if_neg (by omega)]; exact d1
  · simp only [Docs.upd]; rw [if_neg (by omega)]; exact d2
  · rw [hd cl, hd hw]
    exact f2 fun a ha _ => hm.same a (rep_lt _ _ _ rc a ha) (by simp)

/-- Another container changes. -/
theorem view_other (V : ViewW c w L p h d F) (hs : b!"*" ∉ p) (hn : NamesAll p L) {h' : Heap} {t : Nat} {o' : Val} {j0 j' : Json} {F' : List Nat} (htc : t ≠ c) (htw : t ≠ w)
    (hd : d t = some j0) (hobj : ∃ more, h'.objs = (h.objs ++ more).set t o') (hr : Rep h'.mem j' o' F') (hch : Changes (F t) h.mem h'.mem)
    (hF : ∀ a ∈ F', a ∈ F t ∨ h.mem.length ≤ a) : ∃ F', ViewW c w L p h' (d.upd t j') F' := by
  obtain ⟨jc, x, A, d1, d2, d3, cl, rc, rw', isr, hA, f1, f2⟩ := V.focus hs hn
  have hw := V.lt
  have hdt : without d w t = some j0 := by rw [without_ne htw]; exact hd
  have k1 := world_updF V.world.1 V.world.2 hdt hobj hr hch hF
  rw [← without_upd htw] at k1
  obtain ⟨more, hobj⟩ := hobj
  have hdata : ∀ {y : Nat}, y < h.objs.length → y ≠ t → data h' (some y) = data h (some y) := by
    intro y hx hne
    simp [data, hobj, List.getD, List.getElem?_set, Ne.symm hne, List.getElem?_append_left hx]
  refine ⟨_, k1, V.ne, by rw [hobj]; simp; omega, ⟨jc, x, ?_, ?_, d3, not_scalar_of_ref rw' isr⟩, ?_⟩
  · simp only [Docs.upd]; rw [if_neg (Ne.symm htc)]; exact d1
  · simp only [Docs.upd]; rw [if_neg (Ne.symm htw)]; exact d2
  · rw [hdata cl (Ne.symm htc), hdata hw (Ne.symm htw)]
    exact f2 fun a ha _ => hch.same a (rep_lt _ _ _ rc a ha) fun ht =>
      V.world.2 c t jc j0 (by rw [without_ne V.ne]; exact d1) hdt (Ne.symm htc) a ha ht

/-- The part changes, and with it the whole. -/
theorem view_part (V : ViewW c w L p h d F) (hs : b!"*" ∉ p) (hn : NamesAll p L) {h' : Heap} {j0 j' : Json} {A F' : List Nat} (hd : d w = some j0)
    (hA : Rep h.mem j0 (data h (some w)) A) (hobj : ∃ more, h'.objs = h.objs ++ more) (hr : Rep h'.mem j' (data h (some w)) F') (hch : Changes A h.mem h'.mem)
    (hF : ∀ a ∈ F', a ∈ A ∨ h.mem.length ≤ a) :
    ∃ jc, d c = some jc ∧ ∃ F', ViewW c w L p h' ((d.upd w j').upd c (putAt j' L jc)) F' := by
  obtain ⟨jc, x, A', d1, d2, d3, cl, rc, rw', isr, hAs, f1, f2⟩ := V.focus hs hn
  rw [d2] at hd
  cases hd
  have := rep_parts_unique hA rw'
  subst this
  have hw := V.lt
  have hsame : ∀ a ∈ F c, a ∉ A → h'.mem[a]? = h.mem[a]? := fun a ha hn => hch.same a (rep_lt _ _ _ rc a ha) hn
  obtain ⟨Fc, g1, g2⟩ := f1 hr hsame (fun a ha hn ha' => by
    rcases hF a ha' with ha' | ha'
    · exact hn ha'
    · exact absurd (rep_lt _ _ _ rc a ha) (by omega))
  obtain ⟨more, hobj⟩ := hobj
  have hdata : ∀ {y : Nat}, y < h.objs.length → data h' (some y) = data h (some y) := by
    intro y hx
    simp [data, hobj, List.getD, List.getElem?_append_left hx]
  have hdc : without d w c = some jc := by rw [without_ne V.ne]; exact d1
  have k1 := world_updF (h' := h') (o' := data h (some c)) V.world.1 V.world.2 hdc ⟨more, by
      rw [hobj]
      refine (set_getElem ?_).symm
      rw [List.getElem?_append_left cl, List.getElem?_eq_getElem cl, data_some cl]⟩ g1 (hch.mono fun a ha _ => hAs a ha) (fun a ha => by
    rcases (g2 a).1 ha with ha | ha
    · exact .inl ha.1
    · rcases hF a ha with ha | ha
      · exact .inl (hAs a ha)
      · exact .inr ha)
  rw [← without_self (j := j'), ← without_upd V.ne] at k1
  refine ⟨jc, d1, _, k1, V.ne, by rw [hobj]; simp; omega, ⟨putAt j' L jc, j', by simp [Docs.upd], ?_, getAt_putAt_self j' d3, not_scalar_of_ref hr isr⟩, ?_⟩
  · simp only [Docs.upd]; simp [Ne.symm V.ne]
  · rw [hdata cl, hdata hw]
    exact f2 hsame

/-- Nothing changes. -/
theorem view_same (V : ViewW c w L p h d F) (hs : b!"*" ∉ p) (hn : NamesAll p L) : ∃ j x, d c = some j ∧ d w = some x ∧ d.upd c (putAt x L j) = d := by
  obtain ⟨jc, x, A, d1, d2, d3, cl, rc, rw', isr, hAs, f1, f2⟩ := V.focus hs hn
  refine ⟨jc, x, d1, d2, ?_⟩
  obtain ⟨F', g, -⟩ := f1 rw' (fun a _ _ => rfl) (fun a _ hn => hn)
  have : putAt x L jc = jc := by
    have := (doc_rep g).symm.trans (doc_rep rc)
    simpa using this
  rw [this]
  funext y
  simp only [Docs.upd]
  split
  · rename_i e; rw [e, d1]
  · rfl

theorem setC_ne {q : Str} : Gabs.dotPathToSlice q ≠ [] := by
  unfold Gabs.dotPathToSlice
  simp [Str.split_ne_nil]

/-- A call on another container, or on the part. -/
theorem exec_view (room : Nat) (V : ViewW c w L p h d F) (hs : b!"*" ∉ p) (hn : NamesAll p L) {known : List Nat} {cmd : Cmd} (hk : ∀ y ∈ known, (d y).isSome = true)
    (hl : Legal known h cmd) (ht : target cmd ≠ some c) :
    ∃ d1, Effect d cmd (exec room h cmd).2 d1 ∧ (target cmd ≠ some w → ∃ F', ViewW c w L p (exec room h cmd).1 d1 F') ∧
      (target cmd = some w → ∃ j x, d1 c = some j ∧ d1 w = some x ∧ ∃ F', ViewW c w L p (exec room h cmd).1 (d1.upd c (putAt x L j)) F') ∧
      ∀ y ∈ learn (exec room h cmd).2 known, (d1 y).isSome = true := by
  have hsome : ∀ {y}, y ∈ known → ∃ j, d y = some j := fun hc => Option.isSome_iff_exists.1 (hk _ hc)
  have hupd : ∀ (n : Nat) (j : Json), ∀ y ∈ n :: known, ((d.upd n j) y).isSome = true := by
    intro n j y hc
    simp only [Docs.upd]
    split
    · rfl
    · rename_i hne
      rcases List.mem_cons.1 hc with hc | hc
      · exact absurd hc hne
      · exact hk y hc
  have hupd' : ∀ (n : Nat) (j : Json), ∀ y ∈ known, ((d.upd n j) y).isSome = true := fun n j y hc => hupd n j y (List.mem_cons_of_mem _ hc)
  have hwF : ∀ {t j A}, d t = some j → t ≠ w → Rep h.mem j (data h (some t)) A → A = F t := by
    intro t j A hd htw hA
    exact rep_parts_unique hA (V.world.1 t j (by rw [without_ne htw]; exact hd)).2
  -- one container has changed
  have step : ∀ {h' : Heap} {t : Nat} {o' : Val} {j0 j' : Json} {A F' : List Nat}, t ≠ c → d t = some j0 → Rep h.mem j0 (data h (some t)) A →
      (∃ more, h'.objs = (h.objs ++ more).set t o') → Rep h'.mem j' o' F' → Changes A h.mem h'.mem → (∀ a ∈ F', a ∈ A ∨ h.mem.length ≤ a) →
      ((data h (some t)).isRef = true → o' = data h (some t)) →
      (some t ≠ some w → ∃ F', ViewW c w L p h' (d.upd t j') F') ∧
      (some t = some w → ∃ j x, (d.upd t j') c = some j ∧ (d.upd t j') w = some x ∧ ∃ F', ViewW c w L p h' ((d.upd t j').upd c (putAt x L j)) F') := by
    intro h' t o' j0 j' A F' htc hd hA hobj hr hch hF hroot
    refine ⟨fun htw => ?_, fun htw => ?_⟩
    · have htw : t ≠ w := fun e => htw (by rw [e])
      have := hwF hd htw hA
      subst this
      exact view_other V hs hn htc htw hd hobj hr hch hF
    · have htw : t = w := by simpa using htw
      subst htw
      obtain ⟨_, _, _, _, _, _, _, _, _, isr, _⟩ := V.focus hs hn
      have ho := hroot isr
      subst ho
      obtain ⟨more, hobj⟩ := hobj
      obtain ⟨jc, e, k⟩ := view_part V hs hn hd hA ⟨more, by
        rw [hobj]
        refine set_getElem ?_
        rw [List.getElem?_append_left V.lt, List.getElem?_eq_getElem V.lt, data_some V.lt]⟩ hr hch hF
      exact ⟨jc, j', by simp only [Docs.upd]; rw [if_neg (Ne.symm htc)]; exact e, by simp [Docs.upd], k⟩
  cases cmd with
  | new =>
    obtain ⟨w1, w2⟩ := view_new V hs hn (Changes.grow [] h.mem [.map []]) (rep_new h.mem) (by simp)
    exact ⟨_, ⟨_, w2, rfl, rfl⟩, fun _ => w1, (fun e => by cases e), hupd _ _⟩
  | make j =>
    obtain ⟨F, g1, g2, g3⟩ := alloc_rep j h.mem hl
    obtain ⟨w1, w2⟩ := view_new V hs hn g2 g1 g3
    exact ⟨_, ⟨_, w2, rfl, rfl⟩, fun _ => w1, (fun e => by cases e), hupd _ _⟩
  | clone y =>
    obtain ⟨j, hj⟩ := hsome hl
    obtain ⟨_, A, hA⟩ := V.rep hs hn hj
    obtain ⟨m, v, G, g1, g2, g3, g4⟩ := clone_total hA
    obtain ⟨w1, w2⟩ := view_new V hs hn g3 g2 g4
    simp only [exec, g1]
    exact ⟨_, ⟨_, j, w2, hj, rfl, rfl⟩, fun _ => w1, (fun e => by cases e), hupd _ _⟩
  | setP t q src =>
    have htc : t ≠ c := fun e => ht (by rw [e]; rfl)
    obtain ⟨jc, hjc⟩ := hsome hl.1
    obtain ⟨js, hjs⟩ := hsome hl.2
    obtain ⟨tl, A, hA⟩ := V.rep hs hn hjc
    obtain ⟨_, B, hB⟩ := V.rep hs hn hjs
    have hsp := setP_rep room q hA hB
    cases hg : Container.setP jc q js with
    | panic => exact absurd hg (setP_no_panic _ _ _)
    | err e =>
      rw [hg] at hsp
      simp only [exec, show setP room q (data h (some src)) t h = .err e from hsp]
      obtain ⟨j, x, e1, e2, e3⟩ := view_same V hs hn
      exact ⟨d, ⟨jc, js, hjc, hjs, .inr ⟨e, hg, rfl, rfl⟩⟩, fun _ => ⟨F, V⟩, fun _ => ⟨j, x, e1, e2, F, by rw [e3]; exact V⟩, hk⟩
    | ok j' =>
      rw [hg] at hsp
      obtain ⟨h', o', F', k1, k2, k3, k4, k5⟩ := hsp
      have hroot : (data h (some t)).isRef = true → o' = data h (some t) := by
        intro isr
        have e := k1
        simp only [setP] at e
        split at e
        · rename_i m v' _
          simp only [setC] at e
          split at e
          · rename_i m' o2 e2
            cases e
            have ho : o2 = data h (some t) := set_keeps setC_ne e2 isr
            have : o' = o2 := by
              have := congrArg (·[t]?) k2
              simpa [List.getElem?_set, tl] using this.symm
            rw [this, ho]
          · cases e
          · cases e
        · cases e
        · cases e
      have st := step htc hjc hA ⟨[], by simpa using k2⟩ k3 k4 k5 hroot
      simp only [exec, k1]
      exact ⟨_, ⟨jc, js, hjc, hjs, .inl ⟨j', hg, rfl, rfl⟩⟩, st.1, st.2, hupd' _ _⟩
  | merge t f src order =>
    have htc : t ≠ c := fun e => ht (by rw [e]; rfl)
    obtain ⟨hl1, hl2, ho⟩ := hl
    obtain ⟨jc, hjc⟩ := hsome hl1
    obtain ⟨js, hjs⟩ := hsome hl2
    obtain ⟨tl, A, hA⟩ := V.rep hs hn hjc
    obtain ⟨_, B, hB⟩ := V.rep hs hn hjs
    have ho := ho js (doc_rep hB)
    have hwf := rep_wf _ _ _ hB
    have hcan := Json.canon_reorder ho (Json.NodupKeys_of_WF _ hwf)
    obtain ⟨hh, G, m1, m2, m3, m4, m5⟩ := merge_rep room f tl hA hB hcan.1 ((Json.canon_of_WF _ hwf).symm.trans hcan.2)
    have out : ∀ {h' j'}, Out hh t A G h' j' →
      (some t ≠ some w → ∃ F', ViewW c w L p h' (d.upd t j') F') ∧
      (some t = some w → ∃ j x, (d.upd t j') c = some j ∧ (d.upd t j') w = some x ∧ ∃ F', ViewW c w L p h' ((d.upd t j').upd c (putAt x L j)) F') := by
      rintro h' j' ⟨o', F', k1, k2, k3, k4, k5⟩
      refine step htc hjc hA ⟨_, by rw [k1, m1]⟩ k2 ((m2.mono (by simp)).trans k3 ?_) ?_ (fun isr => by rw [← m4]; exact k5 (by rw [m4]; exact isr))
      · intro a ha hlt
        rcases List.mem_append.1 ha with ha | ha
        · exact ha
        · exact absurd (m3 a ha) (by omega)
      · intro a ha
        rcases k4 a ha with ha | ha | ha
        · exact .inl ha
        · exact .inr (m3 a ha)
        · exact .inr (Nat.le_trans m2.le ha)
    cases hm : merge room f t (some src) order h with
    | mk h' r =>
    rw [hm] at m5
    cases hg : Container.merge jc order f.pure with
    | panic => exact absurd hg (merge_no_panic _ _ _)
    | err e =>
      rw [hg] at m5
      obtain ⟨e1, j', ⟨p, hp1, hp2⟩, k⟩ := m5
      cases e1
      simp only [exec, hm]
      exact ⟨_, ⟨jc, js, hjc, hjs, ho, .inr ⟨e, j', p, hg, rfl, hp1, hp2, rfl⟩⟩, (out k).1, (out k).2, hupd' _ _⟩
    | ok j' =>
      rw [hg] at m5
      obtain ⟨e1, k⟩ := m5
      cases e1
      simp only [exec, hm]
      exact ⟨_, ⟨jc, js, hjc, hjs, ho, .inl ⟨j', hg, rfl, rfl⟩⟩, (out k).1, (out k).2, hupd' _ _⟩

end

/-- A history with a view. -/
theorem away_hist {room c w : Nat} {L : Loc} {p : List Str} {known0 known : List Nat} {h0 h : Heap} {l : List (Cmd × Res (Option Nat))} {d0 : Docs} {F0 : Nat → List Nat}
    (V : ViewW c w L p h0 d0 F0) (hs : b!"*" ∉ p) (hn : NamesAll p L) (hk : ∀ y ∈ known0, (d0 y).isSome = true) (ha : Away room c known0 h0 l known h) :
    ∃ d, ViewHist c w L d0 l d ∧ (∃ F, ViewW c w L p h d F) ∧ ∀ y ∈ known, (d y).isSome = true := by
  induction ha with
  | start => exact ⟨d0, .nil _, ⟨F0, V⟩, hk⟩
  | call cmd _ hl ht ih =>
    obtain ⟨d, h1, ⟨F, V1⟩, h3⟩ := ih
    obtain ⟨d1, e1, e2, e3, e4⟩ := exec_view room V1 hs hn h3 hl ht
    by_cases hw : target cmd = some w
    · obtain ⟨j, x, k1, k2, k3⟩ := e3 hw
      refine ⟨_, .part h1 hw e1 k1 k2, k3, fun y hy => ?_⟩
      simp only [Docs.upd]
      split
      · rfl
      · exact e4 y hy
    · exact ⟨d1, .other h1 hw e1, e2 hw, e4⟩

end Oapi.GoHeap
