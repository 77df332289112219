import Verif.Proofs.Resolver4

/-! Resolution as a substitution that does not depend on the iteration order. -/
namespace Oapi.Resolver
open Spec
open Container (keyLoc)

theorem ExpPP.expansion {cfg : Cfg} {c : Json} {pp : List Str} {j j' : Json} (h : ExpPP cfg pp j j') (hcyc : CyclesExported cfg c)
    (hl : Walk cfg c pp j) (hb : NotBare j) (hbs : ∀ p d, Reach cfg j p → cfg.res p = .ok d → NotBare d) : Expansion cfg j j' := by
  induction h with
  | @mk pp j σ d v hother hexp hcy hres hrec ih =>
    have hin : ∀ L x p, RefAt j L x p → p.toStr ∈ pp → ∃ e, get cfg.exp p = some e ∧ e.kind = .schema := by
      intro L x p hr hp
      exact hcyc _ _ L x p hl hr hp
    have hnot : ∀ L x p, RefAt j L x p → get cfg.exp p = none → p.toStr ∉ pp := by
      intro L x p hr hg hp
      obtain ⟨e, he, _⟩ := hin L x p hr hp
      rw [hg] at he; cases he
    refine .mk σ d v hother ?_ ?_ ?_
    · intro L x p e hr hg
      refine hexp L x p e hr hg fun hp => ?_
      obtain ⟨e', he, hk⟩ := hin L x p hr hp
      rw [hg] at he; cases he; exact hk
    · intro L x p hr hg
      obtain ⟨h1, h2⟩ := hres L x p hr (hnot L x p hr hg) hg
      refine ⟨h1, ?_⟩
      rw [h2, mkRepl, if_neg]
      rintro rfl
      exact hb x p hr
    · intro L x p hr hg
      obtain ⟨h1, _⟩ := hres L x p hr (hnot L x p hr hg) hg
      exact ih L x p hr (hnot L x p hr hg) hg (hl.step hr (hnot L x p hr hg) h1) (hbs p _ (.doc hr) h1)
        (fun q d' hq hd => hbs q d' (Reach.sub (.doc hr) h1 hq) hd)

/-- The expansion is unique, and depends on the exports and the resolver function only. -/
theorem expansion_unique {cfg cfg' : Cfg} (he : cfg'.exp = cfg.exp) (hr : cfg'.res = cfg.res) {j a b : Json} (h : Expansion cfg j a)
    (h' : Expansion cfg' j b) : a = b := by
  induction h generalizing b with
  | @mk j σ d v hother hexp hres hrec ih =>
    cases h' with
    | mk σ' d' v' hother' hexp' hres' hrec' =>
      congr 1
      funext L
      by_cases hL : ∃ x p, RefAt j L x p
      · obtain ⟨x, p, hL⟩ := hL
        cases hg : get cfg.exp p with
        | some e => rw [hexp L x p e hL hg, hexp' L x p e hL (by rw [he]; exact hg)]
        | none =>
          have hg' : get cfg'.exp p = none := by rw [he]; exact hg
          obtain ⟨h1, h2⟩ := hres L x p hL hg
          obtain ⟨h1', h2'⟩ := hres' L x p hL hg'
          rw [hr, h1] at h1'
          injection h1' with e
          have := hrec' L x p hL hg'
          rw [← e] at this
          rw [h2, h2', ih L x p hL hg this]
      · rw [hother L fun x p h => hL ⟨x, p, h⟩, hother' L fun x p h => hL ⟨x, p, h⟩]

/-! ### Every reachable exported pointer is written -/

theorem _root_.Oapi.Spec.Walk.need {cfg : Cfg} {c : Json} {pp : List Str} {j : Json} (h : Walk cfg c pp j) {e : Export} (hn : Need cfg pp j e) : Need cfg [] c e := by
  induction h with
  | top => exact hn
  | step _ hr hp hres ih => exact ih (.deep hr hp hres hn)

theorem _root_.Oapi.Spec.Walk.mem {cfg : Cfg} {c : Json} {pp : List Str} {j : Json} (h : Walk cfg c pp j) {s : Str} (hs : s ∈ pp) :
    ∃ pp' j' L x q, Walk cfg c pp' j' ∧ RefAt j' L x q ∧ q.toStr = s ∧ q.toStr ∉ pp' := by
  induction h with
  | top => cases hs
  | @step pp j L x p d hc hr hp hres ih =>
    rcases List.mem_append.1 hs with hs | hs
    · exact ih hs
    · rw [List.mem_singleton] at hs
      exact ⟨pp, j, L, x, p, hc, hr, hs.symm, hp⟩

theorem _root_.Oapi.Spec.Walk.reach {cfg : Cfg} {c : Json} {pp : List Str} {j : Json} (h : Walk cfg c pp j) : ∀ {L x p}, RefAt j L x p → Reach cfg c p := by
  induction h with
  | top => exact fun hr => .doc hr
  | step _ hr _ hres ih => exact fun hr' => .step (ih hr) ⟨_, _, _, hres, hr'⟩

theorem reach_walk {cfg : Cfg} {c : Json} (hby : ∀ p q : Pointer, Reach cfg c p → Reach cfg c q → p.toStr = q.toStr → cfg.res p = cfg.res q) {q : Pointer}
    (h : Reach cfg c q) : ∃ pp j L x q', Walk cfg c pp j ∧ RefAt j L x q' ∧ q'.toStr = q.toStr ∧ q'.toStr ∉ pp := by
  induction h with
  | @doc L x p hr => exact ⟨[], c, L, x, p, .top, hr, rfl, by simp⟩
  | @step p q hreach hs ih =>
    obtain ⟨pp, j, L, x, p', hc, hr, he, hp⟩ := ih
    obtain ⟨d, L', x', hd, hr'⟩ := hs
    have hc' : Walk cfg c (pp ++ [p'.toStr]) d := .step hc hr hp (by rw [hby p' p (hc.reach hr) hreach he]; exact hd)
    by_cases hq : q.toStr ∈ pp ++ [p'.toStr]
    · exact hc'.mem hq
    · exact ⟨_, d, L', x', q, hc', hr', rfl, hq⟩

theorem reach_need {cfg : Cfg} {c : Json} (hby : ∀ p q : Pointer, Reach cfg c p → Reach cfg c q → p.toStr = q.toStr → cfg.res p = cfg.res q) {q : Pointer}
    (h : Reach cfg c q) {e : Export} (he : get cfg.exp q = some e) : Need cfg [] c e := by
  obtain ⟨pp, j, L, x, q', hc, hr, hs, hp⟩ := reach_walk hby h
  refine hc.need (.here hr hp ?_)
  rw [← he]; unfold get; rw [hs]

theorem need_reach {cfg : Cfg} {pp : List Str} {j : Json} {e : Export} (h : Need cfg pp j e) : ∃ q, Reach cfg j q ∧ get cfg.exp q = some e := by
  induction h with
  | here hr _ hg => exact ⟨_, .doc hr, hg⟩
  | deep hr _ hres _ ih =>
    obtain ⟨q, hq, hg⟩ := ih
    exact ⟨q, Reach.sub (.doc hr) hres hq, hg⟩

/-- A written component is the expansion of what its pointer resolves to. -/
theorem CompPP.expansion {cfg : Cfg} {c : Json} {pp : List Str} {j : Json} {e : Export} {v : Json} (h : CompPP cfg pp j e v) (hcyc : CyclesExported cfg c)
    (hl : Walk cfg c pp j) (hbs : ∀ p d, Reach cfg j p → cfg.res p = .ok d → NotBare d) :
    ∃ p d, Reach cfg j p ∧ get cfg.exp p = some e ∧ cfg.res p = .ok d ∧ Expansion cfg d v := by
  induction h with
  | here hr hp hg hres hexp =>
    exact ⟨_, _, .doc hr, hg, hres, hexp.expansion hcyc (hl.step hr hp hres) (hbs _ _ (.doc hr) hres)
      (fun q d' hq hd => hbs q d' (Reach.sub (.doc hr) hres hq) hd)⟩
  | deep hr hp hres _ ih =>
    obtain ⟨q, d', h1, h2, h3, h4⟩ := ih (hl.step hr hp hres) (fun q d' hq hd => hbs q d' (Reach.sub (.doc hr) hres hq) hd)
    exact ⟨q, d', Reach.sub (.doc hr) hres h1, h2, h3, h4⟩

/-! ### Adding components in any order -/

/-- Entries for the same component agree. -/
def Agree (a b : List (Export × Json)) : Prop := ∀ s ∈ a, ∀ t ∈ b, compLoc s.1 = compLoc t.1 → s.2 = t.2

theorem keyLoc_inj {a b : List Str} (h : keyLoc a = keyLoc b) : a = b := by
  have h1 := keyLoc_prefix (a := a) (b := b) (by rw [h]; exact List.prefix_refl _)
  exact h1.eq_of_length (by have := congrArg List.length h; simpa [keyLoc] using this)

theorem compKeys_np {e e' : Export} (h : compKeys e ≠ compKeys e') : ¬ compKeys e <+: compKeys e' :=
  fun hp => h (hp.eq_of_length (by simp [compKeys]))

theorem put_comm {cfg : Cfg} {con : Json} (hs : Store cfg con) {s t : Export × Json} (h1 : s.1 ∈ cfg.exp) (h2 : t.1 ∈ cfg.exp)
    (ha : compLoc s.1 = compLoc t.1 → s.2 = t.2) :
    putKeys s.2 (compKeys s.1) (putKeys t.2 (compKeys t.1) con) = putKeys t.2 (compKeys t.1) (putKeys s.2 (compKeys s.1) con) := by
  by_cases h : compKeys s.1 = compKeys t.1
  · rw [h, ha (by rw [compLoc_eq, compLoc_eq, h])]
  · exact putKeys_comm hs.1 (hs.2 _ h2) (hs.2 _ h1) (compKeys_np (Ne.symm h)) (compKeys_np h)

theorem add_absorb {cfg : Cfg} {l : List (Export × Json)} (hl : Entries cfg l) (ha : Agree l l) {t : Export × Json} (ht : t ∈ l) :
    ∀ {con : Json}, Store cfg con → addComponents l (putKeys t.2 (compKeys t.1) con) = addComponents l con := by
  induction l with
  | nil => cases ht
  | cons u l ih =>
    intro con hs
    have hu := hl u (by simp)
    have htm := hl t ht
    rw [addComponents_cons, addComponents_cons]
    rcases List.mem_cons.1 ht with rfl | ht'
    · rw [putKeys_putKeys (hs.2 _ hu.1)]
    · rw [put_comm hs hu.1 htm.1 (ha u (by simp) t ht)]
      exact ih hl.tail (fun a ha' b hb => ha a (by simp [ha']) b (by simp [hb])) ht' (hs.put hu.1 hu.2)

theorem add_comm1 {cfg : Cfg} {l : List (Export × Json)} (hl : Entries cfg l) {t : Export × Json} (ht : t.1 ∈ cfg.exp)
    (ha : Agree l [t]) : ∀ {con : Json}, Store cfg con →
    addComponents l (putKeys t.2 (compKeys t.1) con) = putKeys t.2 (compKeys t.1) (addComponents l con) := by
  induction l with
  | nil => intro con _; rfl
  | cons u l ih =>
    intro con hs
    have hu := hl u (by simp)
    rw [addComponents_cons, addComponents_cons, put_comm hs hu.1 ht (ha u (by simp) t (by simp))]
    exact ih hl.tail (fun a ha' b hb => ha a (by simp [ha']) b hb) (hs.put hu.1 hu.2)

/-- Only the set of entries matters. -/
theorem add_set {cfg : Cfg} {a b : List (Export × Json)} (ha : Entries cfg a) (hb : Entries cfg b) (hab : ∀ t, t ∈ a ↔ t ∈ b)
    (hag : Agree a a) {con : Json} (hs : Store cfg con) : addComponents a con = addComponents b con := by
  have hagb : Agree b b := fun s hs t ht => hag s ((hab s).2 hs) t ((hab t).2 ht)
  have absorb : ∀ (l l' : List (Export × Json)), Entries cfg l → (∀ t ∈ l, t ∈ l') → Entries cfg l' → Agree l' l' → ∀ {con}, Store cfg con →
      addComponents l' (addComponents l con) = addComponents l' con := by
    intro l
    induction l with
    | nil => intro l' _ _ _ _ con _; rfl
    | cons t l ih =>
      intro l' hl hsub hl' hag' con hs
      have ht := hl t (by simp)
      rw [addComponents_cons, ih l' hl.tail (fun t ht => hsub t (by simp [ht])) hl' hag' (hs.put ht.1 ht.2)]
      exact add_absorb hl' hag' (hsub t (by simp)) hs
  have comm : ∀ (l l' : List (Export × Json)), Entries cfg l → Entries cfg l' → Agree l' l → ∀ {con}, Store cfg con →
      addComponents l' (addComponents l con) = addComponents l (addComponents l' con) := by
    intro l
    induction l with
    | nil => intro l' _ _ _ con _; rfl
    | cons t l ih =>
      intro l' hl hl' hag' con hs
      have ht := hl t (by simp)
      rw [addComponents_cons, addComponents_cons, ih l' hl.tail hl' (fun a ha' b hb => hag' a ha' b (by simp [hb])) (hs.put ht.1 ht.2)]
      rw [add_comm1 hl' ht.1 (fun a ha' b hb => by
        rw [List.mem_singleton] at hb; subst hb; exact hag' a ha' b (by simp)) hs]
  rw [← absorb b a hb (fun t ht => (hab t).2 ht) ha hag hs, comm b a hb ha (fun s hs t ht => hag s hs t ((hab t).2 ht)) hs,
    absorb a b ha (fun t ht => (hab t).1 ht) hb hagb hs]

/-- A list with the same elements, each component once. -/
theorem exists_nodup (l : List (Export × Json)) : ∃ T : List (Export × Json), T.Nodup ∧ ∀ t, t ∈ T ↔ t ∈ l := by
  classical
  induction l with
  | nil => exact ⟨[], .nil, by simp⟩
  | cons t l ih =>
    obtain ⟨T, h1, h2⟩ := ih
    by_cases h : t ∈ l
    · refine ⟨T, h1, fun s => ?_⟩
      rw [h2]
      constructor
      · intro hs; simp [hs]
      · intro hs
        rcases List.mem_cons.1 hs with rfl | hs
        · exact h
        · exact hs
    · exact ⟨t :: T, List.nodup_cons.2 ⟨fun hm => h ((h2 t).1 hm), h1⟩, fun s => by simp [h2]⟩

/-- The complete description of a successful resolution. -/
theorem resolve_spec {cfg : Cfg} {c r : Json} {n : Nat} (hg : GoodCfg cfg c) (ht : Tidy c) (hc : CanReceive cfg c)
    (hb : NotBare c) (hbs : ∀ p d, Reach cfg c p → cfg.res p = .ok d → NotBare d) (hcyc : CyclesExported cfg c)
    (h : resolve cfg n c = .ok r) :
    ∃ D T, Expansion cfg c D ∧ (T.map fun t => compLoc t.1).Nodup ∧
      (∀ e v, (e, v) ∈ T ↔ ∃ p d, Reach cfg c p ∧ get cfg.exp p = some e ∧ cfg.res p = .ok d ∧ Expansion cfg d v) ∧
      r = addComponents T D ∧ Store cfg D ∧ Entries cfg T := by
  obtain ⟨D, log, h1, h2, h3, h4⟩ := resolve_ok hg ht hc h
  obtain ⟨T, hT1, hT2⟩ := exists_nodup log
  have hspec : ∀ t ∈ log, ∃ p d, Reach cfg c p ∧ get cfg.exp p = some t.1 ∧ cfg.res p = .ok d ∧ Expansion cfg d t.2 :=
    fun t ht => (h3.1 t ht).1.expansion hcyc .top hbs
  have hagree : ∀ s ∈ log, ∀ t ∈ log, compLoc s.1 = compLoc t.1 → s = t := by
    intro s hs t ht he
    obtain ⟨p, d, a0, a1, a2, a3⟩ := hspec s hs
    obtain ⟨q, d', b0, b1, b2, b3⟩ := hspec t ht
    obtain ⟨m1, m2⟩ := get_mem a1
    obtain ⟨n1, n2⟩ := get_mem b1
    have hpq : p.toStr = q.toStr := by rw [← m2, ← n2]; exact hg.apart _ m1 _ n1 he
    have e1 : s.1 = t.1 := by
      have : get cfg.exp p = get cfg.exp q := by unfold get; rw [hpq]
      rw [this, b1] at a1; exact (Option.some.inj a1).symm
    have e2 : d = d' := by
      have := hg.byString p q a0 b0 hpq
      rw [a2, b2] at this; cases this; rfl
    subst e2
    exact Prod.ext e1 (expansion_unique rfl rfl a3 b3)
  have hTent : Entries cfg T := fun t ht => h3.entries t ((hT2 t).1 ht)
  refine ⟨D, T, ?_, ?_, ?_, ?_, h4, hTent⟩
  · exact h2.expansion hcyc .top hb hbs
  · rw [List.Nodup, List.pairwise_map]
    refine hT1.imp_of_mem ?_
    intro a b ha hb hne he
    exact hne (hagree a ((hT2 a).1 ha) b ((hT2 b).1 hb) he)
  · intro e v
    constructor
    · intro hm
      exact hspec (e, v) ((hT2 _).1 hm)
    · rintro ⟨p, d, k1, k2, k3, k4⟩
      rw [hT2]
      obtain ⟨v', hv'⟩ := h3.2 e (reach_need hg.byString k1 k2)
      obtain ⟨q, d', m1, m2, m3, m4⟩ := hspec _ hv'
      have hpq : q.toStr = p.toStr := by rw [← (get_mem m2).2, ← (get_mem k2).2]
      have : d' = d := by
        have := hg.byString q p m1 k1 hpq
        rw [m3, k3] at this; cases this; rfl
      subst this
      have e' : v' = v := expansion_unique rfl rfl m4 k4
      rw [← e']; exact hv'
  · rw [h1]
    exact add_set h3.entries hTent (fun t => (hT2 t).symm) (fun s hs t ht he => by rw [hagree s hs t ht he]) h4

end Oapi.Resolver
