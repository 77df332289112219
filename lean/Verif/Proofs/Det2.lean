import Verif.Proofs.Types8

/- What a scan registers depends only on the objects that are asked for. -/
namespace Oapi.Types
open Spec

/-- The children in `next`, with their tokens. -/
theorem GP.next_tok {pr pkg f r t} (hp : ProgOK pr) (h : GP pr pkg f r t) {l : List (Pointer × GoType)}
    (hl : Types.next r (under pr.env t) = .ok l) : ∀ e ∈ l, ∃ tok, withToken r tok = .ok e.1 ∧ GP pr pkg (f ++ [tok]) e.1 e.2 := by
  have hu := TypeOK.under hp h.type
  have hchild : ∀ tok c q, stepInto (under pr.env t) tok = some c → withToken r tok = .ok q → GP pr pkg (f ++ [tok]) q c := by
    intro tok c q hs hq
    obtain ⟨q', h1, h2⟩ := h.child hp hs
    rw [hq] at h1; cases h1; exact h2
  generalize under pr.env t = u at hu hchild hl
  have key : ∀ (x : GoType) (tok : Str), stepInto u tok = some x →
      (match withToken r tok with | .ok p => Res.ok [(p, x)] | .err e => .err e | .panic => .panic) = .ok l →
      ∀ e ∈ l, ∃ tok, withToken r tok = .ok e.1 ∧ GP pr pkg (f ++ [tok]) e.1 e.2 := by
    intro x tok hs hm e he
    cases hw : withToken r tok with
    | err _ => rw [hw] at hm; cases hm
    | panic => rw [hw] at hm; cases hm
    | ok q =>
      rw [hw] at hm
      cases hm
      rw [List.mem_singleton] at he; subst he
      exact ⟨tok, hw, hchild _ _ _ hs hw⟩
  cases u with
  | basic _ => cases hl; intro e he; cases he
  | named _ => cases hl; intro e he; cases he
  | other _ => cases hl; intro e he; cases he
  | pointer x => exact key x b!"*" (by simp [stepInto]) hl
  | slice x => exact key x b!"[]" (by simp [stepInto]) hl
  | array _ x => exact key x b!"[]" (by simp [stepInto]) hl
  | map _ x => exact key x b!"[]" (by simp [stepInto]) hl
  | chan _ x => exact key x b!"[]" (by simp [stepInto]) hl
  | struct fs =>
    intro e he
    obtain ⟨fi, h1, h2, h3⟩ := fieldNext_types hl e he
    refine ⟨fi.name, h3, hchild _ _ _ ?_ h3⟩
    simp only [stepInto, find_unique (hu.1 fs (self_mem_parts _)) h1 h2, Option.map_some]

/-! ### Points are determined by their text -/

/-- How the scanner makes its points. -/
inductive Built : Str → Fragment → Pointer → Prop
  | root {pkg n} : Built pkg [n] (Pointer.newGoLoose pkg n)
  | tok {pkg f q q' tok} : Built pkg f q → withToken q tok = .ok q' → Built pkg (f ++ [tok]) q'

theorem Built.ne {pkg f q} (h : Built pkg f q) : f ≠ [] := by cases h <;> simp

theorem Built.unique {pkg f q} (h : Built pkg f q) : ∀ {q'}, Built pkg f q' → q = q' := by
  induction h with
  | root =>
    intro q' h'
    generalize hf : ([_] : Fragment) = f' at h'
    cases h' with
    | root => cases hf; rfl
    | tok h1 _ =>
      have hne := h1.ne
      have hl := congrArg List.length hf
      simp only [List.length_cons, List.length_append, List.length_nil] at hl
      exact absurd (List.length_eq_zero_iff.1 (by omega)) hne
  | tok h1 h2 ih =>
    rename_i f0 q0 q1 tok
    intro q' h'
    generalize hf : f0 ++ [tok] = f' at h'
    cases h' with
    | root =>
      have := h1.ne
      cases f0 with
      | nil => exact absurd rfl this
      | cons x a => simp at hf
    | tok h3 h4 =>
      obtain ⟨e1, e2⟩ := List.append_inj' hf rfl
      subst e1; cases e2
      have := ih h3
      subst this
      rw [h2] at h4; cases h4; rfl

/-! ### The entries of a walk -/

/-- `q` is registered for `u` by the walk from `r : t` after the types `p`. -/
inductive Ent (env : Env) : Pointer → GoType → List GoType → GoType → Pointer → Prop
  | self {r t p} : Ent env r t p (under env t) r
  | child {r t p l e u q} : under env t ∉ p → next r (under env t) = .ok l → e ∈ l → Ent env e.1 e.2 (p ++ [under env t]) u q →
      Ent env r t p u q
  | named {r t p l e n d pk u q} : under env t ∉ p → next r (under env t) = .ok l → e ∈ l → e.2 = .named n → env[n]? = some d →
      d.pkg = some pk → Ent env (Pointer.newGoLoose pk d.name) e.2 (p ++ [under env t]) u q → Ent env r t p u q

/-- Everything in the map that was not there before is such an entry … -/
theorem walk_sound {env : Env} : ∀ n r t p m m', walk env n r t p m = .ok m' →
    ∀ u q, q ∈ m'.at u → q ∈ m.at u ∨ Ent env r t p u q := by
  intro n
  induction n with
  | zero => intro r t p m m' h; cases h
  | succ n ih =>
    intro r t p m m' h
    simp only [walk] at h
    have h0 : ∀ u q, q ∈ (m.append (under env t) r).at u → q ∈ m.at u ∨ Ent env r t p u q := by
      intro u q hq
      rcases append_inv hq with h | ⟨rfl, rfl⟩
      · exact .inl h
      · exact .inr .self
    split at h
    · cases h; exact h0
    · rename_i hn
      cases hl : Types.next r (under env t) with
      | err e => rw [hl] at h; cases h
      | panic => rw [hl] at h; cases h
      | ok l =>
        rw [hl] at h
        simp only at h
        have := walkAll_rel (R := fun a b => ∀ u q, q ∈ b.at u → q ∈ a.at u ∨ Ent env r t p u q) (fun _ _ _ h => .inl h)
          (fun h1 h2 u q hq => by
            rcases h2 u q hq with h | h
            · exact h1 u q h
            · exact .inr h) (l := l) ?_ ?_ h
        · intro u q hq
          rcases this u q hq with h | h
          · exact h0 u q h
          · exact .inr h
        · intro e he a b hab u q hq
          rcases ih _ _ _ _ _ hab u q hq with h | h
          · exact .inl h
          · exact .inr (.child hn hl he h)
        · intro e he a b hab u q hq
          rcases walkNamed_inv hab with ⟨h, _⟩ | ⟨k, hk, ⟨_, h⟩ | ⟨d, hd, ⟨_, h⟩ | ⟨pk, hpk, h⟩⟩⟩
          · cases h; exact .inl hq
          · cases h
          · cases h
          · rcases ih _ _ _ _ _ h.symm u q hq with h | h
            · exact .inl h
            · exact .inr (.named hn hl he hk hd hpk h)

/-- … and every entry is there, by its text. -/
theorem walk_complete {env : Env} {r : Pointer} {t : GoType} {p : List GoType} {u : GoType} {q : Pointer} (h : Ent env r t p u q) :
    ∀ n m m', walk env n r t p m = .ok m' → ∃ q' ∈ m'.at u, q'.toStr = q.toStr := by
  induction h with
  | self => intro n m m' h; exact walk_self h
  | child hn hl he _ ih =>
    intro n m m' h
    cases n with
    | zero => cases h
    | succ n =>
      simp only [walk, if_neg hn, hl] at h
      obtain ⟨m1, m2, m3, h1, h2, h3, h4⟩ := walkAll_mem (fun r t' m m' h => walk_kept _ _ _ _ _ _ h)
        (fun t' m m' h => walkNamed_kept (fun r t'' m m' h => walk_kept _ _ _ _ _ _ h) t' m m' h) h _ he
      obtain ⟨q', hq', e⟩ := ih _ _ _ h1
      exact ⟨q', h3 _ _ hq', e⟩
  | named hn hl he hk hd hpk _ ih =>
    intro n m m' h
    cases n with
    | zero => cases h
    | succ n =>
      simp only [walk, if_neg hn, hl] at h
      obtain ⟨m1, m2, m3, h1, h2, h3, h4⟩ := walkAll_mem (fun r t' m m' h => walk_kept _ _ _ _ _ _ h)
        (fun t' m m' h => walkNamed_kept (fun r t'' m m' h => walk_kept _ _ _ _ _ _ h) t' m m' h) h _ he
      rcases walkNamed_inv h2 with ⟨_, h⟩ | ⟨k', hk', h⟩
      · exact absurd hk (h _)
      · rw [hk] at hk'; cases hk'
        rcases h with ⟨h, _⟩ | ⟨d', hd', ⟨h, _⟩ | ⟨pk', hpk', h⟩⟩
        · rw [hd] at h; cases h
        · rw [hd] at hd'; cases hd'; rw [hpk] at h; cases h
        · rw [hd] at hd'; cases hd'; rw [hpk] at hpk'; cases hpk'
          obtain ⟨q', hq', e⟩ := ih _ _ _ h.symm
          exact ⟨q', h4 _ _ hq', e⟩

/-- Entries are points of the scanner that are determined by their text. -/
theorem Ent.point {pr : Prog} (hp : ProgOK pr) {r : Pointer} {t : GoType} {p : List GoType} {u : GoType} {q : Pointer}
    (h : Ent pr.env r t p u q) : ∀ {pkg f}, GP pr pkg f r t → Built pkg f r →
    ∃ pkg' f' t', GP pr pkg' f' q t' ∧ Built pkg' f' q ∧ under pr.env t' = u := by
  induction h with
  | self => intro pkg f hg hb; exact ⟨pkg, f, _, hg, hb, rfl⟩
  | child hn hl he _ ih =>
    intro pkg f hg hb
    obtain ⟨tok, h1, h2⟩ := hg.next_tok hp hl _ he
    exact ih h2 (.tok hb h1)
  | named hn hl he hk hd hpk _ ih =>
    intro pkg f hg hb
    have := GP.named hp hd hpk
    rw [← hk] at this
    exact ih this .root

/-! ### Scans -/

/-- What the scan of the requested objects `R` registers. -/
def EntOf (pr : Prog) (R : Str → Str → GoType → Prop) (u : GoType) (q : Pointer) : Prop :=
  ∃ pkg name t, R pkg name t ∧ pr.scope pkg name = some t ∧ Ent pr.env (Pointer.newGoLoose pkg name) t [] u q

theorem EntOf.point {pr : Prog} (hp : ProgOK pr) {R : Str → Str → GoType → Prop} {u : GoType} {q : Pointer} (h : EntOf pr R u q) :
    ∃ pkg f t, GP pr pkg f q t ∧ Built pkg f q ∧ under pr.env t = u := by
  obtain ⟨pkg, name, t, _, hs, he⟩ := h
  exact he.point hp (root_GP hp hs) .root

/-- How the map changes: entries of requested objects are added, all of them. -/
structure Adds (pr : Prog) (R : Str → Str → GoType → Prop) (m m' : PMap) : Prop where
  kept : Kept m m'
  sound : ∀ u q, q ∈ m'.at u → q ∈ m.at u ∨ EntOf pr R u q
  complete : ∀ u q, EntOf pr R u q → ∃ q' ∈ m'.at u, q'.toStr = q.toStr

theorem Adds.refl (pr : Prog) (m : PMap) {R : Str → Str → GoType → Prop} (hR : ∀ pkg name t, ¬ R pkg name t) : Adds pr R m m :=
  ⟨Kept.refl m, fun _ _ h => .inl h, fun _ _ ⟨_, _, _, h, _⟩ => absurd h (hR _ _ _)⟩

theorem Adds.trans {pr : Prog} {R S T : Str → Str → GoType → Prop} {a b c : PMap} (h1 : Adds pr R a b) (h2 : Adds pr S b c)
    (hT : ∀ pkg name t, T pkg name t ↔ R pkg name t ∨ S pkg name t) : Adds pr T a c := by
  refine ⟨h1.kept.trans h2.kept, ?_, ?_⟩
  · intro u q hq
    rcases h2.sound u q hq with h | ⟨pkg, name, t, h, h'⟩
    · rcases h1.sound u q h with h | ⟨pkg, name, t, h, h'⟩
      · exact .inl h
      · exact .inr ⟨pkg, name, t, (hT _ _ _).2 (.inl h), h'⟩
    · exact .inr ⟨pkg, name, t, (hT _ _ _).2 (.inr h), h'⟩
  · rintro u q ⟨pkg, name, t, h, h'⟩
    rcases (hT _ _ _).1 h with h | h
    · obtain ⟨q', hq', e⟩ := h1.complete u q ⟨pkg, name, t, h, h'⟩
      exact ⟨q', h2.kept _ _ hq', e⟩
    · exact h2.complete u q ⟨pkg, name, t, h, h'⟩

theorem scanPkg_adds {pr : Prog} (hp : ProgOK pr) (pkg : Str) : ∀ (ptrs : List Pointer) (m m' : PMap), scanPkg pr pkg ptrs m = .ok m' →
    Adds pr (Requested pr [(pkg, ptrs)]) m m' := by
  intro ptrs
  induction ptrs with
  | nil =>
    intro m m' h
    cases h
    exact Adds.refl pr m (by rintro _ _ _ ⟨ps, h1, p, h2, _⟩; simp at h1; rw [h1.2] at h2; cases h2)
  | cons ptr ptrs ih =>
    intro m m' h
    simp only [scanPkg] at h
    cases hs : scanPtr pr pkg ptr m with
    | err e => rw [hs] at h; cases h
    | panic => rw [hs] at h; cases h
    | ok m1 =>
      rw [hs] at h
      have hsplit : ∀ pk name t, Requested pr [(pkg, ptr :: ptrs)] pk name t ↔
          Requested pr [(pkg, [ptr])] pk name t ∨ Requested pr [(pkg, ptrs)] pk name t := by
        intro pk name t
        simp only [Requested, List.mem_singleton, Prod.mk.injEq]
        constructor
        · rintro ⟨ps, ⟨rfl, rfl⟩, p, h1, h2⟩
          rcases List.mem_cons.1 h1 with rfl | h1
          · exact .inl ⟨_, ⟨rfl, rfl⟩, p, by simp, h2⟩
          · exact .inr ⟨_, ⟨rfl, rfl⟩, p, h1, h2⟩
        · rintro (⟨ps, ⟨rfl, rfl⟩, p, h1, h2⟩ | ⟨ps, ⟨rfl, rfl⟩, p, h1, h2⟩)
          · rw [List.mem_singleton] at h1; subst h1
            exact ⟨_, ⟨rfl, rfl⟩, p, by simp, h2⟩
          · exact ⟨_, ⟨rfl, rfl⟩, p, by simp [h1], h2⟩
      refine Adds.trans ?_ (ih m1 m' h) hsplit
      rcases scanPtr_cases pr pkg ptr m with ⟨name, t, h1, h2, h3, h4, h5⟩ | ⟨h5, hno⟩
      · rw [h5, collect_eq] at hs
        have hreq : ∀ pk nm t', Requested pr [(pkg, [ptr])] pk nm t' ↔ pk = pkg ∧ nm = name ∧ t' = t := by
          intro pk nm t'
          simp only [Requested, List.mem_singleton, Prod.mk.injEq]
          constructor
          · rintro ⟨ps, ⟨rfl, rfl⟩, p, a1, a2, a3, a4, a5⟩
            rw [List.mem_singleton] at a1; subst a1
            rw [h3] at a4; cases a4
            rw [h4] at a5; cases a5
            exact ⟨rfl, rfl, rfl⟩
          · rintro ⟨rfl, rfl, rfl⟩
            exact ⟨_, ⟨rfl, rfl⟩, ptr, by simp, h1, h2, h3, h4⟩
        refine ⟨walk_kept _ _ _ _ _ _ hs, ?_, ?_⟩
        · intro u q hq
          rcases walk_sound _ _ _ _ _ _ hs u q hq with h | h
          · exact .inl h
          · exact .inr ⟨pkg, name, t, (hreq _ _ _).2 ⟨rfl, rfl, rfl⟩, h4, h⟩
        · rintro u q ⟨pk, nm, t', h, _, he⟩
          obtain ⟨rfl, rfl, rfl⟩ := (hreq _ _ _).1 h
          exact walk_complete he _ _ _ hs
      · rw [h5] at hs; cases hs
        refine Adds.refl pr m ?_
        rintro pk nm t ⟨ps, a0, p, a1, a2, a3, a4, a5⟩
        rw [List.mem_singleton, Prod.mk.injEq] at a0
        obtain ⟨rfl, rfl⟩ := a0
        rw [List.mem_singleton] at a1; subst a1
        exact hno _ _ a2 a3 a4 a5

theorem scanPkgs_adds {pr : Prog} (hp : ProgOK pr) : ∀ (runs : List (Str × List Pointer)) (m m' : PMap), scanPkgs pr runs m = .ok m' →
    Adds pr (Requested pr runs) m m' := by
  intro runs
  induction runs with
  | nil => intro m m' h; cases h; exact Adds.refl pr m (by rintro _ _ _ ⟨ps, h1, _⟩; cases h1)
  | cons a runs ih =>
    intro m m' h
    obtain ⟨pkg, ptrs⟩ := a
    simp only [scanPkgs] at h
    cases hs : scanPkg pr pkg ptrs m with
    | err e => rw [hs] at h; cases h
    | panic => rw [hs] at h; cases h
    | ok m1 =>
      rw [hs] at h
      refine Adds.trans (scanPkg_adds hp pkg ptrs m m1 hs) (ih m1 m' h) ?_
      intro pk name t
      simp only [Requested, List.mem_cons, List.not_mem_nil, or_false]
      constructor
      · rintro ⟨ps, h1 | h1, h2⟩
        · exact .inl ⟨ps, h1, h2⟩
        · exact .inr ⟨ps, h1, h2⟩
      · rintro (⟨ps, h1, h2⟩ | ⟨ps, h1, h2⟩)
        · exact ⟨ps, .inl h1, h2⟩
        · exact ⟨ps, .inr h1, h2⟩

/-- Two maps with the same points for every type. -/
def SamePoints (m m' : PMap) : Prop := ∀ u q, q ∈ m.at u ↔ q ∈ m'.at u

/-- Scans that ask for the same objects register the same points; if one succeeds, so does the other. -/
theorem scan_same {pr : Prog} (hp : ProgOK pr) {runs runs' : List (Str × List Pointer)} {m : PMap}
    (hR : ∀ pkg name t, Requested pr runs pkg name t ↔ Requested pr runs' pkg name t) (h : scanPkgs pr runs [] = .ok m) :
    ∃ m', scanPkgs pr runs' [] = .ok m' ∧ SamePoints m m' := by
  have hm' : ∃ m', scanPkgs pr runs' [] = .ok m' := by
    rcases scanPkgs_res hp runs' [] with ⟨m', h', _⟩ | ⟨_, pk, nm, t, hq, he⟩
    · exact ⟨m', h'⟩
    · rcases scanPkgs_res hp runs [] with ⟨_, _, _, hno⟩ | ⟨h', _⟩
      · exact absurd he (hno _ _ _ ((hR _ _ _).2 hq))
      · rw [h] at h'; cases h'
  obtain ⟨m', h'⟩ := hm'
  refine ⟨m', h', ?_⟩
  have key : ∀ {runs runs' m m'}, (∀ pkg name t, Requested pr runs pkg name t → Requested pr runs' pkg name t) →
      scanPkgs pr runs [] = .ok m → scanPkgs pr runs' [] = .ok m' → ∀ u q, q ∈ m.at u → q ∈ m'.at u := by
    intro runs runs' m m' hR h h' u q hq
    have A := scanPkgs_adds hp _ _ _ h
    have A' := scanPkgs_adds hp _ _ _ h'
    rcases A.sound u q hq with hx | hx
    · cases hx
    · obtain ⟨pk, nm, t, hr, hs, he⟩ := hx
      obtain ⟨q', hq', e⟩ := A'.complete u q ⟨pk, nm, t, hR _ _ _ hr, hs, he⟩
      have hE' : EntOf pr (Requested pr runs') u q' := by
        rcases A'.sound u q' hq' with hx | hx
        · cases hx
        · exact hx
      obtain ⟨p1, f1, t1, g1, b1, _⟩ := he.point hp (root_GP hp hs) .root
      obtain ⟨p2, f2, t2, g2, b2, _⟩ := hE'.point hp
      rw [g1.text, g2.text] at e
      obtain ⟨rfl, rfl⟩ := goText_inj g2.pkgOK g1.pkgOK g2.toks g1.toks e
      rw [b1.unique b2]; exact hq'
  exact fun u q => ⟨key (fun _ _ _ => (hR _ _ _).1) h h' u q, key (fun _ _ _ => (hR _ _ _).2) h' h u q⟩

end Oapi.Types
