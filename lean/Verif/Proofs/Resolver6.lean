import Verif.Proofs.Resolver5

/-! Termination and success. -/
namespace Oapi.Resolver
open Spec
open Container (keyLoc)

/-! ### Success on tidy documents -/

theorem pigeon {U pp : List Str} (hn : pp.Nodup) (hs : ∀ s ∈ pp, s ∈ U) : pp.length ≤ U.length := by
  induction pp generalizing U with
  | nil => simp
  | cons a pp ih =>
    obtain ⟨h1, h2⟩ := List.nodup_cons.1 hn
    have := ih (U := U.erase a) h2 (fun s hs' => (List.mem_erase_of_ne (by rintro rfl; exact h1 hs')).2 (hs s (by simp [hs'])))
    have hl := List.length_erase_of_mem (hs a (by simp))
    have hpos : 0 < U.length := List.length_pos_of_mem (hs a (by simp))
    simp only [List.length_cons]
    omega

theorem nodup_snoc {pp : List Str} {s : Str} (h : pp.Nodup) (hs : s ∉ pp) : (pp ++ [s]).Nodup := by
  rw [List.nodup_append]
  refine ⟨h, by simp, ?_⟩
  intro a ha b hb
  rw [List.mem_singleton] at hb
  subst hb
  rintro rfl
  exact hs ha

/-- A document as the iterator meets it. -/
def Met (cfg : Cfg) (c d : Json) : Prop := d = c ∨ ∃ p, Reach cfg c p ∧ cfg.res p = .ok d

theorem Met.reach {cfg : Cfg} {c d : Json} (h : Met cfg c d) {L x p} (hr : RefAt d L x p) : Reach cfg c p := by
  rcases h with rfl | ⟨q, hq, hd⟩
  · exact .doc hr
  · exact .step hq ⟨d, L, x, hd, hr⟩

theorem Met.authored {cfg : Cfg} {c d : Json} (h : Met cfg c d) {x} (hr : HasRef d x) : Authored cfg c x := by
  rcases h with rfl | ⟨q, hq, hd⟩
  · exact Or.inl hr
  · exact Or.inr ⟨q, d, hq, hd, hr⟩

/-- The recursive call succeeds if the path leaves room. -/
def CallTotal (cfg : Cfg) (c : Json) (U : List Str) (n : Nat) (call : List Str → Json → St → Res (Cur × St)) : Prop :=
  ∀ pp d st, Tidy d → Met cfg c d → Store cfg st.con → pp.Nodup → (∀ s ∈ pp, s ∈ U) → U.length + 1 ≤ n + pp.length →
    ∃ r, call pp d st = .ok r

theorem visit_total {cfg : Cfg} {c : Json} {U : List Str} {n : Nat} {call} (hc : CallOK cfg c call) (hct : CallTotal cfg c U n call)
    (hg : GoodCfg cfg c) (hsolv : Solvable cfg c U) {pp : List Str} {cx : Cur} {st : St}
    {L : Loc} {x : Str} {p : Pointer} (hgl : GoodLoc L) (hx : ExtRef x p) (hr : Reach cfg c p) (hs : Store cfg st.con)
    (hat : getAt (readCur cx st) L = some (refObj x)) (htop : cx = none → ∀ e ∈ cfg.exp, Apart L (compLoc e))
    (hn : pp.Nodup) (hU : ∀ s ∈ pp, s ∈ U) (hl : U.length + 1 ≤ n + 1 + pp.length) :
    ∃ r, visit cfg call pp cx st (dot (L ++ [.key refKey])) (.str x) = .ok r := by
  unfold visit
  simp only [hx.1]
  have hext : p.isExternal = true := by simp [Pointer.isExternal, hx.2]
  rw [if_neg (by rw [hext]; simp)]
  have hread : ∀ (st' : St) log, Entries cfg log → st'.con = addComponents log st.con → getAt (readCur cx st') L = some (refObj x) := by
    intro st' log hl he
    cases cx with
    | some j => exact hat
    | none =>
      show getAt st'.con L = _
      rw [he, getAt_addComponents hl (htop rfl) hs]
      exact hat
  by_cases hpp : p.toStr ∈ pp
  · rw [if_pos hpp]
    unfold setRecursive
    cases hge : get cfg.exp p with
    | none => exact ⟨_, replacePtr_wr _ hgl hat⟩
    | some e =>
      simp only
      split
      · exact ⟨_, updateLocal_wr _ hgl hat⟩
      · exact ⟨_, replacePtr_wr _ hgl hat⟩
  · rw [if_neg hpp]
    obtain ⟨d, hres⟩ := hsolv.resolves p hr
    rw [hres]
    simp only
    have htd := hg.docs p d hr hres
    obtain ⟨r', hcall⟩ := hct (pp ++ [p.toStr]) d st htd (Or.inr ⟨p, hr, hres⟩) hs (nodup_snoc hn hpp)
      (fun s hs' => by
        rcases List.mem_append.1 hs' with hs' | hs'
        · exact hU s hs'
        · rw [List.mem_singleton] at hs'; subst hs'; exact hsolv.finite p hr) (by simp; omega)
    rw [hcall]
    obtain ⟨nc', st'⟩ := r'
    obtain ⟨d', log, h1, h2, h3, h4, h5⟩ := hc _ _ _ _ htd (fun L' x' q hq => .step hr ⟨d, L', x', hres, hq⟩) hs hcall
    simp only at h1 h2 ⊢
    subst h1
    unfold set
    have hs' : Store cfg st'.con := by rw [h2]; exact hs.add h5.entries
    cases hge : get cfg.exp p with
    | none => exact ⟨_, replacePtr_wr _ hgl (hread st' log h5.entries h2)⟩
    | some e =>
      simp only
      have hm := (get_mem hge).1
      rw [setP_comp (hg.names e hm) _ (hs'.2 e hm)]
      have hent : Entries cfg (log ++ [(e, d')]) := by
        intro t ht
        rcases List.mem_append.1 ht with ht | ht
        · exact h5.entries t ht
        · rw [List.mem_singleton] at ht; subst ht; exact ⟨hm, h4⟩
      have h2' : putKeys d' (compKeys e) st'.con = addComponents (log ++ [(e, d')]) st.con := by
        rw [addComponents_append, h2]; rfl
      exact ⟨_, updateLocal_wr _ hgl (hread ⟨putKeys d' (compKeys e) st'.con, st'.clock⟩ _ hent h2')⟩

/-- What a visit leaves for the rest of the loop. -/
theorem loop_next {cfg : Cfg} {c : Json} {call} (hc : CallOK cfg c call) (hg : GoodCfg cfg c) {pp : List Str} {w : Loc × Json}
    {ws : List (Loc × Json)} {cx cx1 : Cur} {st st1 : St} (hs : Store cfg st.con) (htodo : ∀ y ∈ w :: ws, Todo cfg c cx (readCur cx st) y)
    (hp1 : ∀ y ∈ ws, Apart w.1 y.1) {x : Str} {p : Pointer} (hx : w.2 = .str x) (hp : ExtRef x p)
    (hv : visit cfg call pp cx st (dotted w.1) w.2 = .ok (cx1, st1)) :
    Store cfg st1.con ∧ ∀ y ∈ ws, Todo cfg c cx1 (readCur cx1 st1) y := by
  obtain ⟨L, hL, hgl', hat, hreach, htop⟩ := htodo w (by simp) x p hx hp
  have hgl : GoodLoc L := fun s hs => hgl' s (by simp [hs])
  rw [hx, hL, dotted_good hgl'] at hv
  obtain ⟨w', l, hstep, haft⟩ := visit_ok hc hg hgl hp hreach hs hat htop hv
  have hother : ∀ y ∈ ws, ∀ L' x' p', y.1 = L' ++ [.key refKey] → y.2 = .str x' → ExtRef x' p' → Apart L L' := by
    intro y hy L' x' p' hL' hx' hp'
    obtain ⟨L2, hL2, _, h1, _, h3⟩ := htodo y (by simp [hy]) x' p' hx' hp'
    have : L' = L2 := by
      have := hL'.symm.trans hL2
      exact (List.append_inj' this rfl).1
    subst this
    refine apart_refObj hat h1 ?_
    rintro rfl
    exact (hp1 y hy).1 (by rw [hL, hL']; exact List.prefix_refl _)
  have hent := hstep.entries
  constructor
  · cases cx with
    | some j =>
      simp only [after, Prod.mk.injEq] at haft
      rw [haft.2]; exact hs.add hent
    | none =>
      simp only [after, Prod.mk.injEq] at haft
      rw [haft.2]
      exact (hs.add hent).putAt hstep.WF (htop rfl)
  · have hcx1 : (cx1 = none ↔ cx = none) := by
      cases cx <;> simp only [after, Prod.mk.injEq] at haft <;> simp [haft.1]
    intro y hy x' p' hx' hp'
    obtain ⟨L', hL', hg', h1, h2, h3⟩ := htodo y (by simp [hy]) x' p' hx' hp'
    have hap := hother y hy L' x' p' hL' hx' hp'
    refine ⟨L', hL', hg', ?_, h2, fun hn => h3 (hcx1.1 hn)⟩
    cases cx with
    | some j =>
      simp only [after, Prod.mk.injEq] at haft
      rw [haft.1]
      simp only [readCur, Option.getD_some] at h1 ⊢
      rw [getAt_putAt_apart hap]; exact h1
    | none =>
      simp only [after, Prod.mk.injEq] at haft
      rw [haft.1]
      simp only [readCur, Option.getD_none] at h1 ⊢
      rw [haft.2, getAt_putAt_apart hap, getAt_addComponents hent (h3 rfl) hs]; exact h1

theorem loop_total {cfg : Cfg} {c : Json} {U : List Str} {n : Nat} {call} (hc : CallOK cfg c call) (hct : CallTotal cfg c U n call)
    (hg : GoodCfg cfg c) (hsolv : Solvable cfg c U) {pp : List Str} (hn : pp.Nodup) (hU : ∀ s ∈ pp, s ∈ U)
    (hl : U.length + 1 ≤ n + 1 + pp.length) (ws : List (Loc × Json)) :
    ∀ {cx : Cur} {st : St}, Store cfg st.con → (∀ w ∈ ws, Todo cfg c cx (readCur cx st) w) →
    (∀ w ∈ ws, ∀ x, w.2 = .str x → ∃ p, Pointer.parse x = .ok p) →
    ws.Pairwise (fun a b => Apart a.1 b.1) → ∃ r, loop cfg call pp (ws.map dotEntry) cx st = .ok r := by
  induction ws with
  | nil => intro cx st _ _ _ _; exact ⟨_, rfl⟩
  | cons w ws ih =>
    intro cx st hs htodo hpar hpw
    obtain ⟨hp1, hp2⟩ := List.pairwise_cons.1 hpw
    simp only [List.map_cons, dotEntry, loop]
    by_cases hext : ∃ x p, w.2 = .str x ∧ ExtRef x p
    · obtain ⟨x, p, hx, hp⟩ := hext
      obtain ⟨L, hL, hgl', hat, hreach, htop⟩ := htodo w (by simp) x p hx hp
      have hgl : GoodLoc L := fun s hs => hgl' s (by simp [hs])
      obtain ⟨⟨cx1, st1⟩, hv⟩ := visit_total hc hct hg hsolv hgl hp hreach hs hat htop hn hU hl
      have hv' : visit cfg call pp cx st (dotted w.1) w.2 = .ok (cx1, st1) := by rw [hx, hL, dotted_good hgl']; exact hv
      obtain ⟨k1, k2⟩ := loop_next hc hg hs htodo hp1 hx hp hv'
      rw [hv']
      exact ih k1 k2 (fun w hw => hpar w (by simp [hw])) hp2
    · have hv : visit cfg call pp cx st (dotted w.1) w.2 = .ok (cx, st) := by
        unfold visit
        cases hw2 : w.2 with
        | str x =>
          obtain ⟨p, hp⟩ := hpar w (by simp) x hw2
          simp only [hp]
          have : p.isExternal = false := by
            cases he : p.isExternal with
            | false => rfl
            | true => exact absurd ⟨x, p, hw2, hp, by simpa [Pointer.isExternal] using he⟩ hext
          rw [if_pos this]
        | _ => rfl
      rw [hv]
      exact ih hs (fun y hy => htodo y (by simp [hy])) (fun w hw => hpar w (by simp [hw])) hp2

theorem iter_total_step {cfg : Cfg} {c : Json} {U : List Str} {n : Nat} (hg : GoodCfg cfg c) (hsolv : Solvable cfg c U)
    (hct : CallTotal cfg c U n fun pp j st => iter cfg n pp (some j) st) {pp : List Str} {cx : Cur} {st : St}
    (ht : Tidy (readCur cx st)) (hm : Met cfg c (readCur cx st)) (hs : Store cfg st.con)
    (htop : cx = none → ∀ L x p, RefAt (readCur cx st) L x p → ∀ e ∈ cfg.exp, Apart L (compLoc e))
    (hn : pp.Nodup) (hU : ∀ s ∈ pp, s ∈ U) (hl : U.length + 1 ≤ n + 1 + pp.length) :
    ∃ r, iter cfg (n + 1) pp cx st = .ok r := by
  rw [iter]
  have he : ∃ es, Container.extractKey (readCur cx st) b!"$ref" = .ok es := by
    obtain ⟨m, hm⟩ := ht.isObj
    rw [hm]
    exact ⟨_, rfl⟩
  obtain ⟨es, he⟩ := he
  rw [he]
  simp only
  obtain ⟨ws, hws, hmem, hall, hap⟩ := extract_locs ht.wf ht.routed he (hg.ord st.clock es)
  rw [hws]
  refine loop_total (iter_ok hg n) hct hg hsolv hn hU hl ws (st := { st with clock := st.clock + 1 }) hs ?_ ?_ hap
  · intro w hw x p hx hp
    obtain ⟨hat, _, hst⟩ := hall w hw
    obtain ⟨L, hL, hgl⟩ := hst x hx
    have hr : RefAt (readCur cx st) L x p := ⟨by rw [← hL, hat, hx], hp⟩
    exact ⟨L, hL, hgl ⟨p, hp⟩, ht.single L x p hr, hm.reach hr, fun hn => htop hn L x p hr⟩
  · intro w hw x hx
    obtain ⟨hat, _, hst⟩ := hall w hw
    obtain ⟨L, hL, _⟩ := hst x hx
    exact hsolv.parses x (hm.authored ⟨L, by rw [← hL, hat, hx]⟩)

theorem iter_total {cfg : Cfg} {c : Json} {U : List Str} (hg : GoodCfg cfg c) (hsolv : Solvable cfg c U) (n : Nat) :
    CallTotal cfg c U n fun pp j st => iter cfg n pp (some j) st := by
  induction n with
  | zero =>
    intro pp d st _ _ _ hn hU hl
    have := pigeon hn hU
    omega
  | succ n ih =>
    intro pp d st ht hm hs hn hU hl
    exact iter_total_step hg hsolv ih (cx := some d) ht hm hs (by simp) hn hU hl

theorem resolve_total {cfg : Cfg} {c : Json} {U : List Str} {n : Nat} (hg : GoodCfg cfg c) (ht : Tidy c) (hc : CanReceive cfg c)
    (hsolv : Solvable cfg c U) (hn : U.length + 1 ≤ n) : ∃ r, resolve cfg n c = .ok r := by
  unfold resolve
  cases n with
  | zero => omega
  | succ n =>
    obtain ⟨⟨cx, st⟩, hr⟩ := iter_total_step hg hsolv (iter_total hg hsolv n) (pp := []) (cx := none) (st := ⟨c, 0⟩) ht (Or.inl rfl)
      (canReceive_store ht hc) (fun _ L x p hr e he => canReceive_apart hc hr he) .nil (by simp) (by simpa using hn)
    rw [hr]
    exact ⟨_, rfl⟩

end Oapi.Resolver
