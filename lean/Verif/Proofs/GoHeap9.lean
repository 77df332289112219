import Verif.Proofs.GoHeap8
import Verif.Props.Container

/-! The default operations in memory: the whole. -/
namespace Oapi.GoHeap
open Spec (getAt putAt child)
open Container (keyLoc)

theorem detach_key (W : List Str) (o : OAPI.Op) : (OAPI.detach W o).path = o.path ∧ (OAPI.detach W o).method = o.method ∧ (OAPI.detach W o).val = o.val := by
  unfold OAPI.detach
  split <;> exact ⟨rfl, rfl, rfl⟩

/-- Writing a clone of an operation's value into the document: an operation that was there leaves it. -/
theorem inv_setP (room : Nat) {h : Heap} {c : Nat} {st : OAPI.St} {hops : List HOp} {F : List Nat} {D : Nat → List Nat} {K : List (Nat × Json × List Nat)} (I : Inv h c st hops F D K)
    {jv : Json} {v : Val} {A : List Nat} (hv : Rep h.mem jv v A) (p : Str) (hlen : (Gabs.dotPathToSlice p).length = 3) :
    match Container.setP st.cnt p jv with
    | .ok cnt2 => ∃ h2 F' D', setP room p v c h = .ok h2 ∧ Inv h2 c ⟨cnt2, st.ops.map (OAPI.detach (Gabs.dotPathToSlice p))⟩ hops F' D' K
    | .err e => setP room p v c h = .err e
    | .panic => False := by
  obtain ⟨m, v', G, g1, g2, g3, g4⟩ := clone_rep hv
  have hrep := g3.frame I.rep (by simp)
  have hdis : ∀ a ∈ F, a ∉ G := fun a ha hg => by
    have := rep_lt _ _ _ I.rep a ha
    have := g4 a hg
    omega
  have e2 : Container.setP st.cnt p jv = Gabs.set jv (Gabs.dotPathToSlice p) st.cnt := rfl
  have hpan := setP_no_panic st.cnt p jv
  rw [e2] at hpan ⊢
  simp only [setP, g1, setC]
  rw [show data ⟨m, h.objs⟩ (some c) = data h (some c) from rfl]
  generalize hW : Gabs.dotPathToSlice p = W at *
  have hsame : (st.ops.map (OAPI.detach W)).map (fun o => (o.path, o.method)) = st.ops.map (fun o => (o.path, o.method)) := by
    rw [List.map_map]
    refine List.map_congr_left fun o _ => ?_
    simp [detach_key]
  have hget : ∀ {k : Nat} {x : OAPI.Op}, (st.ops.map (OAPI.detach W))[k]? = some x → ∃ x0, st.ops[k]? = some x0 ∧ x = OAPI.detach W x0 := by
    intro k x hx
    rw [List.getElem?_map] at hx
    cases h0 : st.ops[k]? with
    | none => rw [h0] at hx; cases hx
    | some x0 => rw [h0] at hx; cases hx; exact ⟨x0, rfl, rfl⟩
  have hwalk0 : ∀ q, walkM q (data h (some c)) m = walkM q (data h (some c)) h.mem := fun q =>
    walkM_frame q I.rep fun a ha => g3.same a (rep_lt _ _ _ I.rep a ha) (by simp)
  -- data of the other containers
  have hdat : ∀ {m' : Mem} {o' : Val} {x : Nat}, x ≠ c → data ⟨m', h.objs.set c o'⟩ (some x) = data h (some x) := by
    intro m' o' x hx
    simp [data, List.getD, List.getElem?_set, Ne.symm hx]
  by_cases hk : ∃ (k : Nat) (o : OAPI.Op) (w : HOp), st.ops[k]? = some o ∧ hops[k]? = some w ∧ o.attached = true ∧ keysOf o.path o.method = W
  · obtain ⟨k, o, w, ho, hw, hat, hkey⟩ := hk
    have hop := I.op k o w ho hw
    unfold OpInv at hop
    rw [if_pos hat] at hop
    obtain ⟨o1, o2, o3, o4⟩ := hop
    rw [hkey] at o1 o2
    obtain ⟨x, B, m', F', r1, r2, r3, r4, r5, r6, r7, r8, r9⟩ := set_replace room (p := W) (by rintro rfl; cases hlen) hrep g2 hdis o2
    rw [hwalk0, o1] at r1
    cases r1
    rw [r5, r4]
    simp only
    refine ⟨_, F', fun l => if l = k then B else D l, rfl, ?_⟩
    have hch : Changes F h.mem m' := ⟨by rw [r8]; exact g3.le, fun a hlt ha => by
      rw [r9 a (fun hF => absurd hF ha)]
      exact g3.same a hlt (by simp)⟩
    have hBs : SameOn B m m' := fun a ha => r9 a fun _ => ha
    refine ⟨by simpa using I.hc, by rw [data_set I.hc]; exact r6, by simp only [hsame]; exact I.same, by simp only [hsame]; exact I.nodup, I.cont, ?_, ?_, ?_, ?_, ?_, ?_⟩
    · intro q hq
      obtain ⟨q1, q2⟩ := I.own q hq
      exact ⟨by simpa using q1, q2⟩
    · intro l x y hx hy
      obtain ⟨x0, hx0, rfl⟩ := hget hx
      obtain ⟨-, hyc⟩ := I.own y (List.mem_of_getElem? hy)
      have hxi := I.op l x0 y hx0 hy
      by_cases hlk : l = k
      · subst hlk
        rw [ho] at hx0
        cases hx0
        rw [hw] at hy
        cases hy
        have : OAPI.detach W o = { o with attached := false } := by
          unfold OAPI.detach; rw [if_pos hkey]
        rw [this]
        unfold OpInv
        rw [if_neg (by simp), hdat hyc]
        simp only [if_true]
        exact rep_frame _ _ _ r2 hBs
      · simp only [if_neg hlk]
        have hne := nodup_get I.nodup hx0 ho hlk
        unfold OpInv at hxi
        split at hxi
        · rename_i hxat
          have hkne : keysOf x0.path x0.method ≠ W := by
            rw [← hkey]
            intro e
            simp only [keysOf, List.cons.injEq, and_true, true_and] at e
            exact hne (by rw [e.1, e.2])
          have : OAPI.detach W x0 = x0 := by unfold OAPI.detach; rw [if_neg hkne]
          rw [this]
          unfold OpInv
          rw [if_pos hxat, hdat hyc]
          obtain ⟨y1, y2, y3, y4⟩ := hxi
          refine ⟨?_, set_getAt (by rw [hlen]; rfl) hkne y2 r5, y3, y4⟩
          rw [data_set I.hc]
          exact set_walk room hrep g2 hdis (by rw [hlen]; rfl) hkne (by rw [hwalk0]; exact y1) r4
        · rename_i hxat
          unfold OpInv
          have : ¬ (OAPI.detach W x0).attached = true := by
            unfold OAPI.detach; split
            · simp
            · exact hxat
          rw [if_neg this, hdat hyc, (detach_key W x0).2.2]
          exact hch.frame hxi (I.free l)
    · intro l a ha hF
      split at ha
      · rcases r7 a hF with hF | hF
        · exact hF.2 ha
        · exact hdis a (r3 a ha) hF
      · rcases r7 a hF with hF | hF
        · exact I.free l a ha hF.1
        · exact absurd (I.lt l a ha) (by have := g4 a hF; omega)
    · intro l l' hll a ha hb
      split at ha
      · rename_i e
        subst e
        rw [if_neg (Ne.symm hll)] at hb
        exact I.free l' a hb (r3 a ha)
      · split at hb
        · exact I.free l a ha (r3 a hb)
        · exact I.sep l l' hll a ha hb
    · intro l a ha
      split at ha
      · exact Nat.lt_of_lt_of_le (rep_lt _ _ _ I.rep a (r3 a ha)) hch.le
      · exact Nat.lt_of_lt_of_le (I.lt l a ha) hch.le
    · intro q hq
      obtain ⟨⟨q1, q2, q3⟩, q4, q5, q6⟩ := I.keep q hq
      refine ⟨⟨by simpa using q1, q2, q3⟩, ?_, ?_, ?_⟩
      · rw [hdat q2]
        exact hch.frame q4 q5
      · intro a ha hF
        have hl := rep_lt _ _ _ q4 a ha
        rcases r7 a hF with hF | hF
        · exact q5 a ha hF.1
        · have := g4 a hF; omega
      · intro l a ha hD
        split at hD
        · exact q5 a ha (r3 a hD)
        · exact q6 l a ha hD
  · have hsp := set_rep room W hrep g2 hdis
    cases hg : Gabs.set jv W st.cnt with
    | panic => exact absurd hg hpan
    | err e =>
      rw [hg] at hsp
      rw [show set room v' W (data h (some c)) m = .err e from hsp]
    | ok cnt2 =>
      rw [hg] at hsp
      obtain ⟨m', o', F', k1, k2, k3, k4, k5⟩ := hsp
      rw [k1]
      simp only
      have hch : Changes F h.mem m' := (g3.mono (by simp)).trans k3 fun a ha _ => ha
      refine ⟨_, F', D, rfl, ?_⟩
      refine ⟨by simpa using I.hc, by rw [data_set I.hc]; exact k2, by simp only [hsame]; exact I.same, by simp only [hsame]; exact I.nodup, I.cont, ?_, ?_, ?_, I.sep, ?_, ?_⟩
      · intro q hq
        obtain ⟨q1, q2⟩ := I.own q hq
        exact ⟨by simpa using q1, q2⟩
      · intro l x y hx hy
        obtain ⟨x0, hx0, rfl⟩ := hget hx
        obtain ⟨-, hyc⟩ := I.own y (List.mem_of_getElem? hy)
        have hxi := I.op l x0 y hx0 hy
        unfold OpInv at hxi
        split at hxi
        · rename_i hxat
          have hkne : keysOf x0.path x0.method ≠ W := fun e => hk ⟨l, x0, y, hx0, hy, hxat, e⟩
          have : OAPI.detach W x0 = x0 := by unfold OAPI.detach; rw [if_neg hkne]
          rw [this]
          unfold OpInv
          rw [if_pos hxat, hdat hyc]
          obtain ⟨y1, y2, y3, y4⟩ := hxi
          refine ⟨?_, set_getAt (by rw [hlen]; rfl) hkne y2 hg, y3, y4⟩
          rw [data_set I.hc]
          exact set_walk room hrep g2 hdis (by rw [hlen]; rfl) hkne (by rw [hwalk0]; exact y1) k1
        · rename_i hxat
          unfold OpInv
          have : ¬ (OAPI.detach W x0).attached = true := by
            unfold OAPI.detach; split
            · simp
            · exact hxat
          rw [if_neg this, hdat hyc, (detach_key W x0).2.2]
          exact hch.frame hxi (I.free l)
      · intro l a ha hF
        have hl := I.lt l a ha
        rcases k4 a hF with hF | hF | hF
        · exact I.free l a ha hF
        · have := g4 a hF; omega
        · have := g3.le; omega
      · intro l a ha
        exact Nat.lt_of_lt_of_le (I.lt l a ha) hch.le
      · intro q hq
        obtain ⟨⟨q1, q2, q3⟩, q4, q5, q6⟩ := I.keep q hq
        refine ⟨⟨by simpa using q1, q2, q3⟩, ?_, ?_, q6⟩
        · rw [hdat q2]
          exact hch.frame q4 q5
        · intro a ha hF
          have hl := rep_lt _ _ _ q4 a ha
          rcases k4 a hF with hF | hF | hF
          · exact q5 a ha hF
          · have := g4 a hF; omega
          · have := g3.le; omega

theorem written_length (P m : Str) : (Gabs.dotPathToSlice (Container.sliceToDotPath [b!"paths", P, m])).length = 3 := by
  rw [Props.C10_dot_path_mangles_dots _ (by simp)]
  rfl

/-- One operation gets one default. -/
theorem inv_apply (room : Nat) {h : Heap} {c : Nat} {st : OAPI.St} {hops : List HOp} {F : List Nat} {D : Nat → List Nat} {K : List (Nat × Json × List Nat)} (I : Inv h c st hops F D K) {i : Nat} {w : HOp}
    (hw : hops[i]? = some w) {ov : Json} (hn : Json.NodupKeys ov) :
    match OAPI.applyAt ov st i with
    | .ok st' => ∃ h2 F' D', applyAt room c ov h w = .ok h2 ∧ Inv h2 c st' hops F' D' K
    | .err e => applyAt room c ov h w = .err e
    | .panic => False := by
  have hlen : hops.length = st.ops.length := by have := congrArg List.length I.same; simpa using this.symm
  have hi : i < st.ops.length := by rw [← hlen]; exact (List.getElem?_eq_some_iff.1 hw).1
  have ho : st.ops[i]? = some st.ops[i] := List.getElem?_eq_getElem hi
  generalize st.ops[i] = o at ho
  obtain ⟨w', e, hp, hm⟩ := I.both ho
  rw [hw] at e
  cases e
  unfold OAPI.applyAt
  rw [ho]
  simp only
  have hmerge := inv_merge room I ho hw hn
  cases hg : Container.merge o.val ov Container.mergeDefault with
  | panic => rw [hg] at hmerge; exact hmerge.elim
  | err e =>
    rw [hg] at hmerge
    obtain ⟨h2, e1⟩ := hmerge
    simp only [applyAt, e1]
  | ok nc =>
    rw [hg] at hmerge
    obtain ⟨h2, cnt1, F', D', m1, m2, I2⟩ := hmerge
    simp only
    rw [show ([b!"paths", o.path, o.method] : List Str) = keysOf o.path o.method from rfl, m2]
    simp only
    have ho2 : (st.ops.set i { o with val := nc })[i]? = some { o with val := nc } := List.getElem?_set_self hi
    obtain ⟨A, hA⟩ := I2.opRep ho2 hw
    have hs := inv_setP room I2 hA (OAPI.opKey o) (written_length _ _)
    have e1 : applyAt room c ov h w = setP room (OAPI.opKey o) (data h2 (some w.cont)) c h2 := by
      simp only [applyAt, m1, OAPI.opKey, hp, hm]
    rw [e1]
    simp only at hs
    cases hset : Container.setP cnt1 (OAPI.opKey o) nc with
    | panic => rw [hset] at hs; exact hs.elim
    | err e => rw [hset] at hs; exact hs
    | ok cnt2 => rw [hset] at hs; exact hs

theorem inv_applyAll (room : Nat) {c : Nat} {hops : List HOp} {ov : Json} (hn : Json.NodupKeys ov) : ∀ (is : List Nat) {h : Heap} {st : OAPI.St} {F : List Nat} {D : Nat → List Nat} {K : List (Nat × Json × List Nat)},
    Inv h c st hops F D K →
    match OAPI.applyAll ov is st with
    | .ok st' => ∃ h2 F' D', applyAll room c ov hops is h = .ok h2 ∧ Inv h2 c st' hops F' D' K
    | .err e => applyAll room c ov hops is h = .err e
    | .panic => False
  | [], h, st, F, D, K, I => ⟨h, F, D, rfl, I⟩
  | i :: t, h, st, F, D, K, I => by
    simp only [OAPI.applyAll, applyAll]
    cases hw : hops[i]? with
    | none =>
      have hlen : hops.length = st.ops.length := by have := congrArg List.length I.same; simpa using this.symm
      have : st.ops[i]? = none := by rw [List.getElem?_eq_none_iff] at hw ⊢; omega
      have e : OAPI.applyAt ov st i = .ok st := by unfold OAPI.applyAt; rw [this]
      rw [e]
      exact inv_applyAll room hn t I
    | some w =>
      have ha := inv_apply room I hw hn
      cases hg : OAPI.applyAt ov st i with
      | panic => rw [hg] at ha; exact ha.elim
      | err e => rw [hg] at ha; simp only at ha; simp only [ha]
      | ok st' =>
        rw [hg] at ha
        obtain ⟨h2, F', D', a1, I'⟩ := ha
        simp only [a1]
        exact inv_applyAll room hn t I'

theorem matching_keys (mt : Str → Str → Str → Res Bool) (pattern : Str) : ∀ {ops : List OAPI.Op} {ops' : List OAPI.Op} (i : Nat),
    ops.map (fun o => (o.path, o.method)) = ops'.map (fun o => (o.path, o.method)) → OAPI.matching mt pattern i ops = OAPI.matching mt pattern i ops'
  | [], [], i, _ => rfl
  | [], _ :: _, i, h => by cases h
  | _ :: _, [], i, h => by cases h
  | o :: t, o' :: t', i, h => by
    simp only [List.map_cons, List.cons.injEq, Prod.mk.injEq] at h
    simp only [OAPI.matching, h.1.1, h.1.2, matching_keys mt pattern (i + 1) h.2]

theorem matching_same {h : Heap} {c : Nat} {st : OAPI.St} {hops : List HOp} {F : List Nat} {D : Nat → List Nat} {K : List (Nat × Json × List Nat)} (I : Inv h c st hops F D K) (mt : Str → Str → Str → Res Bool) (pattern : Str) :
    matching mt pattern hops = OAPI.matching mt pattern 0 st.ops := by
  unfold matching
  refine matching_keys mt pattern 0 ?_
  rw [I.same, List.map_map]
  rfl

theorem inv_applyDefaults (room : Nat) {c : Nat} {hops : List HOp} (mt : Str → Str → Str → Res Bool) :
    ∀ (defops : List (Str × Json)), (∀ q ∈ defops, Json.NodupKeys q.2) → ∀ {h : Heap} {st : OAPI.St} {F : List Nat} {D : Nat → List Nat} {K : List (Nat × Json × List Nat)}, Inv h c st hops F D K →
    match OAPI.applyDefaults mt defops st with
    | .ok st' => ∃ h2 F' D', applyDefaults room c mt hops defops h = .ok h2 ∧ Inv h2 c st' hops F' D' K
    | .err e => applyDefaults room c mt hops defops h = .err e
    | .panic => applyDefaults room c mt hops defops h = .panic
  | [], _, h, st, F, D, K, I => ⟨h, F, D, rfl, I⟩
  | (pattern, ov) :: t, hq, h, st, F, D, K, I => by
    simp only [OAPI.applyDefaults, applyDefaults, matching_same I]
    cases hm : OAPI.matching mt pattern 0 st.ops with
    | panic => rfl
    | err e => rfl
    | ok is =>
      simp only
      have ha := inv_applyAll room (hq (pattern, ov) (by simp)) is I
      cases hg : OAPI.applyAll ov is st with
      | panic => rw [hg] at ha; exact ha.elim
      | err e => rw [hg] at ha; simp only at ha; simp only [ha]
      | ok st' =>
        rw [hg] at ha
        obtain ⟨h2, F', D', a1, I'⟩ := ha
        simp only [a1]
        exact inv_applyDefaults room mt t (fun q hq' => hq q (by simp [hq'])) I'

end Oapi.GoHeap
