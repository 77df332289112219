import Verif.Proofs.Types3

/-! The scanner: the invariant of its map, and whole scans. -/
namespace Oapi.Types
open Spec

/-- The map the scanner keeps: every type has one entry and every point denotes the type it is registered for. -/
structure Inv (pr : Prog) (m : PMap) : Prop where
  nodup : (m.map Prod.fst).Nodup
  pts : ∀ u q, q ∈ m.at u → ∃ pkg f t, GP pr pkg f q t ∧ under pr.env t = u

theorem Inv.nil (pr : Prog) : Inv pr [] := ⟨by simp, by intro u q h; cases h⟩

theorem Inv.append {pr m pkg f r t} (h : Inv pr m) (hg : GP pr pkg f r t) : Inv pr (m.append (under pr.env t) r) := by
  refine ⟨append_nodup _ _ h.nodup, ?_⟩
  intro u q hq
  rcases append_inv hq with hq | ⟨rfl, rfl⟩
  · exact h.pts u q hq
  · exact ⟨pkg, f, t, hg, rfl⟩

theorem walk_inv {pr : Prog} (hp : ProgOK pr) : ∀ n {pkg f} r t p m m', GP pr pkg f r t → walk pr.env n r t p m = .ok m' →
    Inv pr m → Inv pr m' := by
  intro n
  induction n with
  | zero => intro pkg f r t p m m' _ h; cases h
  | succ n ih =>
    intro pkg f r t p m m' hg h hi
    simp only [walk] at h
    have h0 := hi.append hg
    split at h
    · cases h; exact h0
    · obtain ⟨l, hl, hl1, _⟩ := hg.next hp
      rw [hl] at h
      simp only at h
      refine walkAll_rel (R := fun a b => Inv pr a → Inv pr b) (fun _ h => h) (fun h1 h2 h => h2 (h1 h)) ?_ ?_ h h0
      · intro e he a b hab
        obtain ⟨tok, _, hge⟩ := hl1 e he
        exact ih _ _ _ _ _ hge hab
      · intro e he a b hab
        rcases walkNamed_inv hab with ⟨h, _⟩ | ⟨k, hk, ⟨_, h⟩ | ⟨d, hd, ⟨_, h⟩ | ⟨pk, hpk, h⟩⟩⟩
        · cases h; exact fun h => h
        · cases h
        · cases h
        · have := GP.named hp hd hpk
          rw [← hk] at this
          exact ih _ _ _ _ _ this h.symm

/-! ### `findType` -/

theorem goText_inj {pkg pkg' : Str} {f f' : Fragment} (h : GoPkg pkg) (h' : GoPkg pkg') (hf : ∀ x ∈ f, TokOK x) (hf' : ∀ x ∈ f', TokOK x)
    (e : goText pkg f = goText pkg' f') : pkg = pkg' ∧ f = f' := by
  unfold goText at e
  rw [← toStr_plain hf, ← toStr_plain hf'] at e
  have e1 : pkg ++ 35 :: f.toStr = pkg' ++ 35 :: f'.toStr := by simpa using e
  have n1 : (35 : UInt8) ∉ pkg := fun hm => (Url.uri_facts _ (Url.import_facts _ (h.2 _ hm)).1).2.1 rfl
  have n2 : (35 : UInt8) ∉ pkg' := fun hm => (Url.uri_facts _ (Url.import_facts _ (h'.2 _ hm)).1).2.1 rfl
  have c1 := Url.cut_some (t := f.toStr) n1
  rw [e1, Url.cut_some n2] at c1
  simp only [Prod.mk.injEq, Option.some.injEq] at c1
  exact ⟨c1.1.symm, Fragment.toStr_inj c1.2.symm⟩

theorem Inv.one {pr m} (h : Inv pr m) {u u' : GoType} {q q' : Pointer} (hq : q ∈ m.at u) (hq' : q' ∈ m.at u') (e : q.toStr = q'.toStr) :
    u = u' := by
  obtain ⟨pkg, f, t, hg, rfl⟩ := h.pts _ _ hq
  obtain ⟨pkg', f', t', hg', rfl⟩ := h.pts _ _ hq'
  rw [hg.text, hg'.text] at e
  obtain ⟨rfl, rfl⟩ := goText_inj hg.pkgOK hg'.pkgOK hg.toks hg'.toks e
  have := hg.denotes
  rw [hg'.denotes] at this
  cases this; rfl

theorem findType_some {m : PMap} (h : (m.map Prod.fst).Nodup) {p : Pointer} {u : GoType} (hf : m.findType p = some u) :
    ∃ q ∈ m.at u, q.toStr = p.toStr := by
  unfold PMap.findType at hf
  rw [Option.map_eq_some_iff] at hf
  obtain ⟨e, he, rfl⟩ := hf
  have h1 := List.mem_of_find?_eq_some he
  have h2 := List.find?_some he
  rw [List.any_eq_true] at h2
  obtain ⟨q, hq, e2⟩ := h2
  rw [at_of_mem h (k := e.1) (ps := e.2) h1]
  exact ⟨q, hq, by simpa using (eq_comm.1 (by simpa using e2))⟩

theorem Inv.find {pr m} (h : Inv pr m) (p : Pointer) (u : GoType) : m.findType p = some u ↔ ∃ q ∈ m.at u, q.toStr = p.toStr := by
  constructor
  · exact findType_some h.nodup
  · rintro ⟨q, hq, e⟩
    cases hf : m.findType p with
    | none =>
      unfold PMap.findType at hf
      rw [Option.map_eq_none_iff, List.find?_eq_none] at hf
      have := hf _ (mem_of_at hq)
      rw [Bool.not_eq_true, List.any_eq_false] at this
      exact absurd (by simp [e]) (this q hq)
    | some u' =>
      obtain ⟨q', hq', e'⟩ := findType_some h.nodup hf
      rw [h.one hq hq' (e.trans e'.symm)]

theorem at_perm {m m' : PMap} (h : (m.map Prod.fst).Nodup) (hp : m'.Perm m) (u : GoType) : m'.at u = m.at u := by
  have h' : (m'.map Prod.fst).Nodup := (hp.map Prod.fst).nodup_iff.2 h
  by_cases hm : ∃ ps, (u, ps) ∈ m
  · obtain ⟨ps, hm⟩ := hm
    rw [at_of_mem h hm, at_of_mem h' (hp.mem_iff.2 hm)]
  · have hnil : ∀ (m : PMap), (∀ ps, (u, ps) ∉ m) → m.at u = [] := by
      intro m hm
      cases hx : m.at u with
      | nil => rfl
      | cons q l => exact absurd (mem_of_at (m := m) (k := u) (q := q) (by rw [hx]; simp)) (hm _)
    rw [hnil m (fun ps hps => hm ⟨ps, hps⟩), hnil m' (fun ps hps => hm ⟨ps, hp.mem_iff.1 hps⟩)]

theorem Inv.perm {pr : Prog} {m m' : PMap} (h : Inv pr m) (hp : m'.Perm m) : Inv pr m' :=
  ⟨(hp.map Prod.fst).nodup_iff.2 h.nodup, fun u q hq => h.pts u q (by rwa [at_perm h.nodup hp] at hq)⟩

theorem Inv.find_perm {pr : Prog} {m m' : PMap} (h : Inv pr m) (hp : m'.Perm m) (p : Pointer) : m'.findType p = m.findType p := by
  have hi := h.perm hp
  have key : ∀ u, m'.findType p = some u ↔ m.findType p = some u := by
    intro u
    rw [hi.find, h.find, at_perm h.nodup hp]
  cases h1 : m.findType p with
  | some u => exact (key u).2 h1
  | none =>
    cases h2 : m'.findType p with
    | none => rfl
    | some u => rw [(key u).1 h2] at h1; cases h1

/-! ### One object -/

theorem root_GP {pr : Prog} (hp : ProgOK pr) {pkg name : Str} {t : GoType} (hs : pr.scope pkg name = some t) :
    GP pr pkg [name] (Pointer.newGoLoose pkg name) t := by
  obtain ⟨h1, h2, h3⟩ := hp.objects _ _ _ hs
  refine ⟨h1, newGoLoose_point h1 h2, ?_, ?_, h3⟩
  · simp only [denotesGo, hs, follow]
  · intro x hx; rw [List.mem_singleton] at hx; subst hx; exact h2.tok

theorem collect_eq (env : Env) (pkg name : Str) (t : GoType) (m : PMap) :
    collectTypes env pkg name t m = walk env (depth env t) (Pointer.newGoLoose pkg name) t [] m := rfl

theorem collect_fuel (env : Env) (pkg name : Str) (t : GoType) (m : PMap) : ∀ e, collectTypes env pkg name t m ≠ .err e := by
  intro e h
  rw [collect_eq] at h
  have h1 := walk_err _ _ _ _ _ _ h
  subst h1
  exact (walk_same (world_closed env t) (depth env t) (depth env t) _ t [] m (self_mem_world env t) (by simp) (by simp)
    (by simp [depth]) (by simp [depth])).2 h

/-- What one collected object leaves behind, in terms of the specification. -/
structure Collected (pr : Prog) (pkg name : Str) (t : GoType) (m : PMap) : Prop where
  simple : ∀ toks c, follow pr.env t toks = some c → (passes pr.env t toks).Nodup →
    ∃ q ∈ m.at (under pr.env c), q.toStr = goText pkg (name :: toks)
  all : ∀ v, TReach pr.env (under pr.env t) v → ∃ q, q ∈ m.at v
  defined : ∀ v k, TReach pr.env (under pr.env t) v → Child v (.named k) →
    ∃ d pk, pr.env[k]? = some d ∧ d.pkg = some pk ∧ ∃ q ∈ m.at (under pr.env (.named k)), q.toStr = goText pk [d.name]

theorem Collected.keep {pr pkg name t m m'} (h : Collected pr pkg name t m) (hk : Kept m m') : Collected pr pkg name t m' := by
  refine ⟨?_, ?_, ?_⟩
  · intro toks c h1 h2
    obtain ⟨q, hq, e⟩ := h.simple toks c h1 h2
    exact ⟨q, hk _ _ hq, e⟩
  · intro v hv
    obtain ⟨q, hq⟩ := h.all v hv
    exact ⟨q, hk _ _ hq⟩
  · intro v k hv hc
    obtain ⟨d, pk, h1, h2, q, hq, e⟩ := h.defined v k hv hc
    exact ⟨d, pk, h1, h2, q, hk _ _ hq, e⟩

theorem collected {pr : Prog} (hp : ProgOK pr) {pkg name : Str} {t : GoType} (hs : pr.scope pkg name = some t) {m m' : PMap}
    (h : collectTypes pr.env pkg name t m = .ok m') : Collected pr pkg name t m' := by
  rw [collect_eq] at h
  have hcov := walk_cover hp _ _ _ _ _ _ (root_GP hp hs) h
  refine ⟨?_, ?_, ?_⟩
  · intro toks c h1 h2
    exact (hcov toks c h1 h2 (by simp)).1
  · intro v hv
    obtain ⟨toks, c, h1, rfl, h3⟩ := simple_path hv
    obtain ⟨q, hq, _⟩ := (hcov toks c h1 (List.nodup_append.1 h3).1 (by simp)).1
    exact ⟨q, hq⟩
  · intro v k hv hc
    obtain ⟨toks, c, h1, rfl, h3⟩ := simple_path hv
    obtain ⟨tok, hs⟩ := hc
    exact (hcov toks c h1 (List.nodup_append.1 h3).1 (by simp)).2 (by simp)
      (fun hm => (List.nodup_append.1 h3).2.2 _ hm _ (by simp) rfl) tok k hs

theorem collect_panic {pr : Prog} (hp : ProgOK pr) {pkg name : Str} {t : GoType} (hs : pr.scope pkg name = some t) (m : PMap) :
    collectTypes pr.env pkg name t m = .panic ↔ MeetsError pr.env (under pr.env t) := by
  constructor
  · intro h
    exact walk_panic hp _ _ _ _ _ (root_GP hp hs) h
  · rintro ⟨v, n, d, h1, h2, h3, h4⟩
    cases h : collectTypes pr.env pkg name t m with
    | err e => exact absurd h (collect_fuel _ _ _ _ _ e)
    | panic => rfl
    | ok m' =>
      obtain ⟨d', pk, h5, h6, _⟩ := (collected hp hs h).defined v n h1 h2
      rw [h3] at h5; cases h5
      rw [h4] at h6; cases h6

theorem collect_inv {pr : Prog} (hp : ProgOK pr) {pkg name : Str} {t : GoType} (hs : pr.scope pkg name = some t) {m m' : PMap}
    (h : collectTypes pr.env pkg name t m = .ok m') : (Inv pr m → Inv pr m') ∧ Kept m m' :=
  ⟨walk_inv hp _ _ _ _ _ _ (root_GP hp hs) h, walk_kept _ _ _ _ _ _ h⟩

/-! ### Whole scans -/

/-- The step of one pointer. -/
theorem scanPtr_cases (pr : Prog) (pkg : Str) (ptr : Pointer) (m : PMap) :
    (∃ name t, ptr.url.scheme = b!"go" ∧ ptr.pkgPath = pkg ∧ ptr.fragment.head? = some name ∧ pr.scope pkg name = some t ∧
      scanPtr pr pkg ptr m = collectTypes pr.env pkg name t m) ∨
    (scanPtr pr pkg ptr m = .ok m ∧ ∀ name t, ptr.url.scheme = b!"go" → ptr.pkgPath = pkg → ptr.fragment.head? = some name →
      pr.scope pkg name ≠ some t) := by
  unfold scanPtr
  by_cases h1 : ptr.url.scheme = b!"go"
  · rw [if_neg (by simp [h1])]
    by_cases h2 : pkg = ptr.pkgPath
    · rw [if_neg (by simp [h2])]
      cases h3 : ptr.fragment.head? with
      | none => exact .inr ⟨rfl, by intro _ _ _ _ h; cases h⟩
      | some name =>
        simp only
        cases h4 : pr.scope pkg name with
        | none => refine .inr ⟨rfl, ?_⟩; intro n t _ _ h hs; cases h; rw [h4] at hs; cases hs
        | some t => exact .inl ⟨name, t, h1, h2.symm, rfl, h4, rfl⟩
    · rw [if_pos (by simp [h2])]
      exact .inr ⟨rfl, by intro _ _ _ h; exact absurd h.symm h2⟩
  · rw [if_pos (by simp [h1])]
    exact .inr ⟨rfl, by intro _ _ h; exact absurd h h1⟩

/-- What holds of `m'` after asking for the objects `R`, starting from `m`. -/
structure ScanOK (pr : Prog) (R : Str → Str → GoType → Prop) (m m' : PMap) : Prop where
  inv : Inv pr m → Inv pr m'
  kept : Kept m m'
  got : ∀ pkg name t, R pkg name t → Collected pr pkg name t m'

theorem scanPkg_res {pr : Prog} (hp : ProgOK pr) (pkg : Str) : ∀ (ptrs : List Pointer) (m : PMap),
    (∃ m', scanPkg pr pkg ptrs m = .ok m' ∧ ScanOK pr (Requested pr [(pkg, ptrs)]) m m' ∧
      ∀ pk name t, Requested pr [(pkg, ptrs)] pk name t → ¬ MeetsError pr.env (under pr.env t)) ∨
    (scanPkg pr pkg ptrs m = .panic ∧ ∃ pk name t, Requested pr [(pkg, ptrs)] pk name t ∧ MeetsError pr.env (under pr.env t)) := by
  intro ptrs
  induction ptrs with
  | nil =>
    intro m
    have hno : ∀ pk name t, ¬ Requested pr [(pkg, [])] pk name t := by
      rintro pk name t ⟨ptrs, h1, ptr, h2, _⟩
      rw [List.mem_singleton] at h1; cases h1; cases h2
    exact .inl ⟨m, rfl, ⟨fun h => h, Kept.refl m, fun _ _ _ h => absurd h (hno _ _ _)⟩, fun _ _ _ h => absurd h (hno _ _ _)⟩
  | cons ptr ptrs ih =>
    intro m
    have up : ∀ pk name t, Requested pr [(pkg, ptrs)] pk name t → Requested pr [(pkg, ptr :: ptrs)] pk name t := by
      rintro pk name t ⟨ps, h1, p, h2, h3⟩
      rw [List.mem_singleton] at h1; cases h1
      exact ⟨ptr :: ptrs, by simp, p, by simp [h2], h3⟩
    simp only [scanPkg]
    rcases scanPtr_cases pr pkg ptr m with ⟨name, t, h1, h2, h3, h4, h5⟩ | ⟨h5, hno⟩
    · have hreq : Requested pr [(pkg, ptr :: ptrs)] pkg name t := ⟨ptr :: ptrs, by simp, ptr, by simp, h1, h2, h3, h4⟩
      rw [h5]
      cases hc : collectTypes pr.env pkg name t m with
      | err e => exact absurd hc (collect_fuel _ _ _ _ _ _)
      | panic => exact .inr ⟨rfl, pkg, name, t, hreq, (collect_panic hp h4 m).1 hc⟩
      | ok m1 =>
        simp only
        obtain ⟨hi, hk⟩ := collect_inv hp h4 hc
        rcases ih m1 with ⟨m', hm', hok, hE⟩ | ⟨hm', pk, nm, t', hr, hE⟩
        · have split : ∀ pk nm t', Requested pr [(pkg, ptr :: ptrs)] pk nm t' → Requested pr [(pkg, ptrs)] pk nm t' ∨ (pk = pkg ∧ nm = name ∧ t' = t) := by
            rintro pk nm t' ⟨ps, g1, p, g2, g3, g4, g5, g6⟩
            rw [List.mem_singleton] at g1; cases g1
            rcases List.mem_cons.1 g2 with rfl | g2
            · rw [h3] at g5; cases g5; rw [h4] at g6; cases g6; exact .inr ⟨rfl, rfl, rfl⟩
            · exact .inl ⟨ptrs, by simp, p, g2, g3, g4, g5, g6⟩
          refine .inl ⟨m', hm', ⟨fun h => hok.inv (hi h), hk.trans hok.kept, ?_⟩, ?_⟩
          · intro pk nm t' h
            rcases split _ _ _ h with h | ⟨rfl, rfl, rfl⟩
            · exact hok.got _ _ _ h
            · exact (collected hp h4 hc).keep hok.kept
          · intro pk nm t' h
            rcases split _ _ _ h with h | ⟨rfl, rfl, rfl⟩
            · exact hE _ _ _ h
            · intro hE'
              rw [(collect_panic hp h4 m).2 hE'] at hc; cases hc
        · exact .inr ⟨hm', pk, nm, t', up _ _ _ hr, hE⟩
    · rw [h5]
      simp only
      have down : ∀ pk nm t', Requested pr [(pkg, ptr :: ptrs)] pk nm t' → Requested pr [(pkg, ptrs)] pk nm t' := by
        rintro pk nm t' ⟨ps, g1, p, g2, g3, g4, g5, g6⟩
        rw [List.mem_singleton] at g1; cases g1
        rcases List.mem_cons.1 g2 with rfl | g2
        · exact absurd g6 (hno _ _ g3 g4 g5)
        · exact ⟨ptrs, by simp, p, g2, g3, g4, g5, g6⟩
      rcases ih m with ⟨m', hm', hok, hE⟩ | ⟨hm', pk, nm, t', hr, hE⟩
      · exact .inl ⟨m', hm', ⟨hok.inv, hok.kept, fun _ _ _ h => hok.got _ _ _ (down _ _ _ h)⟩, fun _ _ _ h => hE _ _ _ (down _ _ _ h)⟩
      · exact .inr ⟨hm', pk, nm, t', up _ _ _ hr, hE⟩

theorem scanPkgs_res {pr : Prog} (hp : ProgOK pr) : ∀ (runs : List (Str × List Pointer)) (m : PMap),
    (∃ m', scanPkgs pr runs m = .ok m' ∧ ScanOK pr (Requested pr runs) m m' ∧
      ∀ pk name t, Requested pr runs pk name t → ¬ MeetsError pr.env (under pr.env t)) ∨
    (scanPkgs pr runs m = .panic ∧ ∃ pk name t, Requested pr runs pk name t ∧ MeetsError pr.env (under pr.env t)) := by
  intro runs
  induction runs with
  | nil =>
    intro m
    have hno : ∀ pk name t, ¬ Requested pr [] pk name t := by
      rintro pk name t ⟨ptrs, h1, _⟩; cases h1
    exact .inl ⟨m, rfl, ⟨fun h => h, Kept.refl m, fun _ _ _ h => absurd h (hno _ _ _)⟩, fun _ _ _ h => absurd h (hno _ _ _)⟩
  | cons a runs ih =>
    intro m
    obtain ⟨pkg, ptrs⟩ := a
    have up1 : ∀ pk name t, Requested pr [(pkg, ptrs)] pk name t → Requested pr ((pkg, ptrs) :: runs) pk name t := by
      rintro pk name t ⟨ps, h1, h2⟩
      rw [List.mem_singleton] at h1
      exact ⟨ps, by simp [h1], h2⟩
    have up2 : ∀ pk name t, Requested pr runs pk name t → Requested pr ((pkg, ptrs) :: runs) pk name t := by
      rintro pk name t ⟨ps, h1, h2⟩
      exact ⟨ps, by simp [h1], h2⟩
    have split : ∀ pk name t, Requested pr ((pkg, ptrs) :: runs) pk name t → Requested pr [(pkg, ptrs)] pk name t ∨ Requested pr runs pk name t := by
      rintro pk name t ⟨ps, h1, h2⟩
      rcases List.mem_cons.1 h1 with h1 | h1
      · exact .inl ⟨ps, by simp [h1], h2⟩
      · exact .inr ⟨ps, h1, h2⟩
    simp only [scanPkgs]
    rcases scanPkg_res hp pkg ptrs m with ⟨m1, hm1, hok1, hE1⟩ | ⟨hm1, pk, nm, t, hr, hE⟩
    · rw [hm1]
      simp only
      rcases ih m1 with ⟨m', hm', hok, hE⟩ | ⟨hm', pk, nm, t, hr, hE⟩
      · refine .inl ⟨m', hm', ⟨fun h => hok.inv (hok1.inv h), hok1.kept.trans hok.kept, ?_⟩, ?_⟩
        · intro pk nm t h
          rcases split _ _ _ h with h | h
          · exact (hok1.got _ _ _ h).keep hok.kept
          · exact hok.got _ _ _ h
        · intro pk nm t h
          rcases split _ _ _ h with h | h
          · exact hE1 _ _ _ h
          · exact hE _ _ _ h
      · exact .inr ⟨hm', pk, nm, t, up2 _ _ _ hr, hE⟩
    · rw [hm1]
      exact .inr ⟨rfl, pk, nm, t, up1 _ _ _ hr, hE⟩

end Oapi.Types
