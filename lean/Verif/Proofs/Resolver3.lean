import Verif.Proofs.Resolver2

/-! The iteration and the whole resolution. -/
namespace Oapi.Resolver
open Spec
open Container (keyLoc)

theorem exp_of_writes {cfg : Cfg} {pp : List Str} {j : Json} (hw : Json.WF j) {rs : List (Loc × Json)}
    (hpw : rs.Pairwise fun a b => Apart a.1 b.1)
    (h1 : ∀ y ∈ rs, ∃ x p l, RefAt j y.1 x p ∧ RefStep cfg pp y.1 x p y.2 l)
    (hex : ∀ y ∈ rs, ∃ old, getAt j y.1 = some old)
    (h2 : ∀ L x p, RefAt j L x p → ∃ w l, (L, w) ∈ rs ∧ RefStep cfg pp L x p w l) :
    ExpPP cfg pp j (putAll j rs) := by
  have hnd : (rs.map Prod.fst).Nodup := by
    rw [List.Nodup, List.pairwise_map]
    exact hpw.imp fun h e => h.1 (by rw [e]; exact List.prefix_refl _)
  have hσ : ∀ L x p, RefAt j L x p → ∃ w l, writes rs L = some w ∧ RefStep cfg pp L x p w l := by
    intro L x p h
    obtain ⟨w, l, hm, hs⟩ := h2 L x p h
    exact ⟨w, l, writes_of_mem hnd hm, hs⟩
  have hdv : ∀ L, ∃ dv : Json × Json, ∀ x p, RefAt j L x p → p.toStr ∉ pp → get cfg.exp p = none →
      cfg.res p = .ok dv.1 ∧ writes rs L = some (mkRepl L x dv.2) ∧ ExpPP cfg (pp ++ [p.toStr]) dv.1 dv.2 := by
    intro L
    by_cases h : ∃ x p, RefAt j L x p ∧ p.toStr ∉ pp ∧ get cfg.exp p = none
    · obtain ⟨x, p, hr, hp, hg⟩ := h
      obtain ⟨w, l, hw, hs⟩ := hσ L x p hr
      cases hs with
      | cycLocal h => exact absurd h hp
      | cycEmpty h => exact absurd h hp
      | exported _ h => rw [hg] at h; cases h
      | @inlined d v log _ _ hres hexp _ _ =>
        refine ⟨(d, v), ?_⟩
        intro x' p' hr' _ _
        obtain ⟨rfl, rfl⟩ := RefAt.inj hr hr'
        exact ⟨hres, hw, hexp⟩
    · exact ⟨(.null, .null), fun x p hr hp hg => absurd ⟨x, p, hr, hp, hg⟩ h⟩
  obtain ⟨dv, hdv⟩ := Classical.axiomOfChoice hdv
  rw [putAll_eq hw hex hpw]
  refine .mk (writes rs) (fun L => (dv L).1) (fun L => (dv L).2) ?_ ?_ ?_ ?_ ?_
  · intro L hno
    apply writes_none
    intro v hm
    obtain ⟨x, p, l, hr, _⟩ := h1 _ hm
    exact hno x p hr
  · intro L x p e hr hg hk
    obtain ⟨w, l, hw, hs⟩ := hσ L x p hr
    cases hs with
    | cycLocal _ h => rw [hg] at h; cases h; exact hw
    | cycEmpty h h' => exact absurd (hk h) (h' e hg)
    | exported _ h => rw [hg] at h; cases h; exact hw
    | inlined _ h => rw [hg] at h; cases h
  · intro L x p hr hp hk
    obtain ⟨w, l, hw, hs⟩ := hσ L x p hr
    cases hs with
    | cycLocal _ h h' => exact absurd h' (hk _ h)
    | cycEmpty h h' => exact hw
    | exported h => exact absurd hp h
    | inlined h => exact absurd hp h
  · intro L x p hr hp hg
    exact ⟨(hdv L x p hr hp hg).1, (hdv L x p hr hp hg).2.1⟩
  · intro L x p hr hp hg
    exact (hdv L x p hr hp hg).2.2

theorem log_of_steps {cfg : Cfg} {pp : List Str} {j : Json} {log : List (Export × Json)}
    (h1 : ∀ L x p, RefAt j L x p → ∃ w l, RefStep cfg pp L x p w l ∧ ∀ t ∈ l, t ∈ log)
    (h2 : ∀ t ∈ log, ∃ L x p w l, RefAt j L x p ∧ RefStep cfg pp L x p w l ∧ t ∈ l) : Log cfg pp j log := by
  constructor
  · intro t ht
    obtain ⟨L, x, p, w, l, hr, hs, ht⟩ := h2 t ht
    cases hs with
    | cycLocal => cases ht
    | cycEmpty => cases ht
    | exported hp hg hres hexp hw hl =>
      rcases List.mem_append.1 ht with ht | ht
      · exact ⟨.deep hr hp hres (hl.1 t ht).1, (hl.1 t ht).2⟩
      · rw [List.mem_singleton] at ht
        subst ht
        exact ⟨.here hr hp hg hres hexp, hw⟩
    | inlined hp hg hres hexp hw hl => exact ⟨.deep hr hp hres (hl.1 t ht).1, (hl.1 t ht).2⟩
  · intro e hn
    cases hn with
    | here hr hp hg =>
      obtain ⟨w, l, hs, hl⟩ := h1 _ _ _ hr
      cases hs with
      | cycLocal h => exact absurd h hp
      | cycEmpty h => exact absurd h hp
      | exported _ hg' => rw [hg] at hg'; cases hg'; exact ⟨_, hl _ (List.mem_append_right _ (List.mem_singleton.2 rfl))⟩
      | inlined _ hg' => rw [hg] at hg'; cases hg'
    | deep hr hp hres hn =>
      obtain ⟨w, l, hs, hl⟩ := h1 _ _ _ hr
      cases hs with
      | cycLocal h => exact absurd h hp
      | cycEmpty h => exact absurd h hp
      | exported _ _ hres' _ _ hlog =>
        rw [hres] at hres'; cases hres'
        obtain ⟨v, hv⟩ := hlog.2 e hn
        exact ⟨v, hl _ (by simp [hv])⟩
      | inlined _ _ hres' _ _ hlog =>
        rw [hres] at hres'; cases hres'
        obtain ⟨v, hv⟩ := hlog.2 e hn
        exact ⟨v, hl _ hv⟩

/-- One call of the iterator, on a container of its own or on the document itself. -/
theorem iter_step {cfg : Cfg} {c : Json} {n : Nat} (hg : GoodCfg cfg c)
    (hc : CallOK cfg c fun pp j st => iter cfg n pp (some j) st) {pp : List Str} {cx : Cur} {st : St} {r : Cur × St}
    (ht : Tidy (readCur cx st)) (hreach : ∀ L x p, RefAt (readCur cx st) L x p → Reach cfg c p) (hs : Store cfg st.con)
    (htop : cx = none → ∀ L x p, RefAt (readCur cx st) L x p → ∀ e ∈ cfg.exp, Apart L (compLoc e))
    (h : iter cfg (n + 1) pp cx st = .ok r) :
    ∃ rs log, (r.1, r.2.con) = afterAll cx st.con log rs ∧ ExpPP cfg pp (readCur cx st) (putAll (readCur cx st) rs) ∧
      Json.WF (putAll (readCur cx st) rs) ∧ Log cfg pp (readCur cx st) log ∧
      (∀ y ∈ rs, Json.WF y.2 ∧ ∃ x p, RefAt (readCur cx st) y.1 x p) ∧ rs.Pairwise fun a b => Apart a.1 b.1 := by
  rw [iter] at h
  cases he : Container.extractKey (readCur cx st) b!"$ref" with
  | err => rw [he] at h; cases h
  | panic => rw [he] at h; cases h
  | ok es =>
    rw [he] at h
    simp only at h
    obtain ⟨ws, hws, hmem, hall, hap⟩ := extract_locs ht.wf ht.routed he (hg.ord st.clock es)
    rw [hws] at h
    have htodo : ∀ w ∈ ws, Todo cfg c cx (readCur cx { st with clock := st.clock + 1 }) w := by
      intro w hw x p hx hp
      obtain ⟨hat, _, hst⟩ := hall w hw
      obtain ⟨L, hL, hgl⟩ := hst x hx
      have hr : RefAt (readCur cx st) L x p := ⟨by rw [← hL, hat, hx], hp⟩
      exact ⟨L, hL, hgl ⟨p, hp⟩, ht.single L x p hr, hreach L x p hr, fun hn => htop hn L x p hr⟩
    obtain ⟨rs, log, k1, k2, k3, k4, k5⟩ := loop_ok hc hg ws (st := { st with clock := st.clock + 1 }) hs htodo hap h
    have hin : ∀ L x p, (L ++ [.key refKey], .str x) ∈ ws → ExtRef x p → RefAt (readCur cx st) L x p :=
      fun L x p hm hp => ⟨(hall _ hm).1, hp⟩
    have hin' : ∀ L x p, RefAt (readCur cx st) L x p → (L ++ [.key refKey], .str x) ∈ ws :=
      fun L x p hr => hmem L x ⟨p, hr.2⟩ hr.1
    have hr3 : ∀ y ∈ rs, ∃ x p l, RefAt (readCur cx st) y.1 x p ∧ RefStep cfg pp y.1 x p y.2 l := by
      intro y hy
      obtain ⟨x, p, l, m1, m2, m3⟩ := k3 y hy
      exact ⟨x, p, l, hin _ _ _ m1 m2, m3⟩
    have hex : ∀ y ∈ rs, ∃ old, getAt (readCur cx st) y.1 = some old := by
      intro y hy
      obtain ⟨x, p, l, m1, m2⟩ := hr3 y hy
      exact ⟨_, ht.single _ _ _ m1⟩
    refine ⟨rs, log, k1, ?_, ?_, ?_, ?_, k2⟩
    · refine exp_of_writes ht.wf k2 hr3 hex ?_
      intro L x p hr
      obtain ⟨w, l, m1, m2, _⟩ := k4 L x p (hin' L x p hr) hr.2
      exact ⟨w, l, m1, m2⟩
    · rw [putAll_eq ht.wf hex k2]
      apply subst_WF _ _ _ ht.wf
      intro l v hv
      obtain ⟨x, p, l', _, m2⟩ := hr3 _ (writes_mem hv)
      exact m2.WF
    · apply log_of_steps
      · intro L x p hr
        obtain ⟨w, l, _, m2, m3⟩ := k4 L x p (hin' L x p hr) hr.2
        exact ⟨w, l, m2, m3⟩
      · intro t ht
        obtain ⟨L, x, p, w, l, m1, m2, m3, m4⟩ := k5 t ht
        exact ⟨L, x, p, w, l, hin _ _ _ m1 m2, m3, m4⟩
    · intro y hy
      obtain ⟨x, p, l', m1, m2⟩ := hr3 y hy
      exact ⟨m2.WF, x, p, m1⟩

theorem iter_ok {cfg : Cfg} {c : Json} (hg : GoodCfg cfg c) (n : Nat) : CallOK cfg c fun pp j st => iter cfg n pp (some j) st := by
  induction n with
  | zero => intro pp d st r _ _ _ h; cases h
  | succ n ih =>
    intro pp d st r ht hr hs h
    obtain ⟨rs, log, k1, k2, k3, k4, _⟩ := iter_step hg ih (cx := some d) ht hr hs (by simp) h
    simp only [afterAll, Prod.mk.injEq] at k1
    exact ⟨_, log, k1.1, k1.2, k2, k3, k4⟩

theorem canReceive_store {cfg : Cfg} {c : Json} (ht : Tidy c) (h : CanReceive cfg c) : Store cfg c := by
  refine ⟨ht.wf, fun e he p hp hne v hv => ?_⟩
  refine ((h e he).2 (keyLoc p) ?_).1 v hv
  obtain ⟨t, ht⟩ := hp
  exact ⟨keyLoc t, by rw [compLoc_eq, ← ht]; simp [keyLoc]⟩

theorem canReceive_apart {cfg : Cfg} {c : Json} (h : CanReceive cfg c) {L : Loc} {x : Str} {p : Pointer} (hr : RefAt c L x p)
    {e : Export} (he : e ∈ cfg.exp) : Apart L (compLoc e) := by
  constructor
  · intro hp
    exact ((h e he).2 L hp).2 x p hr
  · rintro ⟨t, rfl⟩
    have := hr.1
    rw [List.append_assoc, Oapi.getAt_append, (h e he).1] at this
    cases this

/-- Everything a successful resolution does. -/
theorem resolve_ok {cfg : Cfg} {c r : Json} {n : Nat} (hg : GoodCfg cfg c) (ht : Tidy c) (hc : CanReceive cfg c)
    (h : resolve cfg n c = .ok r) :
    ∃ D log, r = addComponents log D ∧ ExpPP cfg [] c D ∧ Log cfg [] c log ∧ Store cfg D := by
  unfold resolve at h
  cases n with
  | zero => cases h
  | succ n =>
    cases hi : iter cfg (n + 1) [] none ⟨c, 0⟩ with
    | err => rw [hi] at h; cases h
    | panic => rw [hi] at h; cases h
    | ok r' =>
      obtain ⟨cx, st⟩ := r'
      rw [hi] at h
      simp only at h
      have hs := canReceive_store ht hc
      obtain ⟨rs, log, k1, k2, k3, k4, k5, k6⟩ := iter_step hg (iter_ok hg n) (cx := none) (st := ⟨c, 0⟩) ht
        (fun L x p hr => .doc hr) hs (fun _ L x p hr e he => canReceive_apart hc hr he) hi
      simp only [afterAll, Prod.mk.injEq] at k1
      cases h
      refine ⟨putAll c rs, log, k1.2, k2, k4, k3, ?_⟩
      have k5' : ∀ y ∈ rs, Json.WF y.2 ∧ ∃ x p, RefAt c y.1 x p := k5
      clear k1 k2 k3 k4 k5 k6
      suffices H : ∀ (rs : List (Loc × Json)) (d : Json), Store cfg d → (∀ y ∈ rs, Json.WF y.2 ∧ ∃ x p, RefAt c y.1 x p) →
          Store cfg (putAll d rs) from (H rs c hs k5').2
      intro rs
      induction rs with
      | nil => intro d hd _; exact hd
      | cons y rs ih =>
        intro d hd hy
        obtain ⟨hw, x, p, hr⟩ := hy y (by simp)
        exact ih _ (hd.putAt hw fun e he => canReceive_apart hc hr he) (fun z hz => hy z (by simp [hz]))

end Oapi.Resolver
