import Verif.Proofs.Types2

/-! The walk: what it registers. -/
namespace Oapi.Types
open Spec

theorem toStr_plain : ∀ {f : Fragment}, (∀ t ∈ f, TokOK t) → f.toStr = f.flatMap fun t => b!"/" ++ t := by
  intro f
  induction f with
  | nil => intro _; rfl
  | cons a f ih =>
    intro h
    simp only [Fragment.toStr, List.flatMap_cons, escapeToken_plain (h a (by simp)), ih fun t ht => h t (by simp [ht])]
    rfl

theorem _root_.Oapi.Spec.GoIdent.tok {n : Str} (h : GoIdent n) : TokOK n := ⟨h.2.1, h.2.2.1⟩

/-- A point of the scanner and the type it stands for. -/
structure GP (pr : Prog) (pkg : Str) (f : Fragment) (r : Pointer) (t : GoType) : Prop where
  pkgOK : GoPkg pkg
  point : GoPoint pkg f r
  denotes : denotesGo pr pkg f = some t
  toks : ∀ x ∈ f, TokOK x
  type : TypeOK pr.env t

theorem GP.text {pr pkg f r t} (h : GP pr pkg f r t) : r.toStr = goText pkg f := by
  rw [h.point.toStr, toStr_plain h.toks]
  unfold goText
  simp

theorem GP.ne {pr pkg f r t} (hp : ProgOK pr) (h : GP pr pkg f r t) : f ≠ [[]] := by
  rintro rfl
  have := h.denotes
  simp only [denotesGo] at this
  split at this
  · cases this
  · rename_i hs
    exact (hp.objects _ _ _ hs).2.1.1 rfl

theorem follow_append (env : Env) (t : GoType) (a b : List Str) :
    follow env t (a ++ b) = (follow env t a).bind fun c => follow env c b := by
  induction a generalizing t with
  | nil => rfl
  | cons x a ih =>
    simp only [List.cons_append, follow]
    split
    · rfl
    · exact ih _

theorem denotesGo_append {pr pkg f t} (h : denotesGo pr pkg f = some t) (b : List Str) :
    denotesGo pr pkg (f ++ b) = follow pr.env t b := by
  cases f with
  | nil => cases h
  | cons n f =>
    simp only [denotesGo, List.cons_append] at h ⊢
    split at h
    · cases h
    · rename_i s hs
      rw [follow_append, h]; rfl

theorem TypeOK.part {env : Env} {t c : GoType} (h : TypeOK env t) (hc : c ∈ parts t) : TypeOK env c :=
  ⟨fun fs hf => h.1 fs (parts_trans _ hc hf), fun n hn => h.2 n (parts_trans _ hc hn)⟩

theorem TypeOK.under {pr : Prog} (hp : ProgOK pr) {t : GoType} (h : TypeOK pr.env t) : TypeOK pr.env (under pr.env t) := by
  unfold Types.under
  split
  · split
    · rename_i d hd
      exact (hp.defs _ _ hd).1
    · exact ⟨fun fs hf => by simp [parts] at hf, fun n hn => by simp [parts] at hn⟩
  · exact h

theorem tok_ok {env : Env} {u c : GoType} {tok : Str} (h : TypeOK env u) (hs : stepInto u tok = some c) : TokOK tok := by
  unfold stepInto at hs
  split at hs
  · rename_i fs
    rw [Option.map_eq_some_iff] at hs
    obtain ⟨e, he, rfl⟩ := hs
    have h1 := List.mem_of_find?_eq_some he
    have h2 := List.find?_some he
    simp only [Bool.and_eq_true, decide_eq_true_eq] at h2
    rw [← h2.2]
    exact ((h.1 fs (self_mem_parts _)).1 e h1 h2.1).tok
  all_goals first
    | (split at hs
       · rename_i e; subst e; unfold TokOK; decide
       · cases hs)
    | cases hs

theorem GP.child {pr pkg f r t} (hp : ProgOK pr) (h : GP pr pkg f r t) {tok : Str} {c : GoType}
    (hs : stepInto (under pr.env t) tok = some c) : ∃ q, withToken r tok = .ok q ∧ GP pr pkg (f ++ [tok]) q c := by
  have hu := TypeOK.under hp h.type
  have ht := tok_ok hu hs
  obtain ⟨q, h1, h2⟩ := withToken_point h.pkgOK h.point (h.ne hp) ht
  refine ⟨q, h1, h.pkgOK, h2, ?_, ?_, TypeOK.part hu (stepInto_parts hs)⟩
  · rw [denotesGo_append h.denotes]
    simp only [follow, hs]
  · intro x hx
    rcases List.mem_append.1 hx with hx | hx
    · exact h.toks x hx
    · rw [List.mem_singleton] at hx; subst hx; exact ht

theorem GP.named {pr : Prog} (hp : ProgOK pr) {n : Nat} {d : NamedDef} {pkg : Str} (hd : pr.env[n]? = some d) (hk : d.pkg = some pkg) :
    GP pr pkg [d.name] (Pointer.newGoLoose pkg d.name) (.named n) := by
  have hs := (hp.defs n d hd).2.2 pkg hk
  obtain ⟨h1, h2, h3⟩ := hp.objects _ _ _ hs
  refine ⟨h1, newGoLoose_point h1 h2, ?_, ?_, h3⟩
  · simp only [denotesGo, hs, follow]
  · intro x hx; rw [List.mem_singleton] at hx; subst hx; exact h2.tok

theorem find_unique {fs : List (FieldInfo × GoType)} (h : StructOK fs) {f : FieldInfo} {t : GoType} (hm : (f, t) ∈ fs) (hx : f.exported = true) :
    fs.find? (fun e => e.1.exported && decide (e.1.name = f.name)) = some (f, t) := by
  have h2 := h.2
  clear h
  induction fs with
  | nil => cases hm
  | cons a fs ih =>
    rw [List.find?_cons]
    by_cases ha : a.1.exported = true
    · rw [List.filter_cons, if_pos ha, List.pairwise_cons] at h2
      rcases List.mem_cons.1 hm with e | hm
      · subst e; simp [hx]
      · have := h2.1 (f, t) (List.mem_filter.2 ⟨hm, hx⟩)
        simp only [ha, this, Bool.true_and, decide_false]
        exact ih hm h2.2
    · rw [List.filter_cons, if_neg ha] at h2
      have ha' : a.1.exported = false := by simpa using ha
      rcases List.mem_cons.1 hm with e | hm
      · subst e; exact absurd hx ha
      · simp only [ha', Bool.false_and]
        exact ih hm h2

theorem fieldNext_ok {r : Pointer} : ∀ {fs : List (FieldInfo × GoType)}, (∀ e ∈ fs, e.1.exported = true → ∃ q, withToken r e.1.name = .ok q) →
    ∃ l, fieldNext r fs = .ok l := by
  intro fs
  induction fs with
  | nil => intro _; exact ⟨[], rfl⟩
  | cons a fs ih =>
    intro h
    obtain ⟨l, hl⟩ := ih fun e he => h e (by simp [he])
    obtain ⟨f, t⟩ := a
    simp only [fieldNext]
    by_cases hx : f.exported = true
    · obtain ⟨q, hq⟩ := h (f, t) (by simp) hx
      rw [if_pos hx, hq]
      simp only [hl]
      exact ⟨_, rfl⟩
    · rw [if_neg hx]; exact ⟨l, hl⟩

/-- What `next` gives for a point of the scanner. -/
theorem GP.next {pr pkg f r t} (hp : ProgOK pr) (h : GP pr pkg f r t) : ∃ l, Types.next r (under pr.env t) = .ok l ∧
    (∀ e ∈ l, ∃ tok, stepInto (under pr.env t) tok = some e.2 ∧ GP pr pkg (f ++ [tok]) e.1 e.2) ∧
    ∀ tok c, stepInto (under pr.env t) tok = some c → ∃ q, (q, c) ∈ l ∧ GP pr pkg (f ++ [tok]) q c := by
  have hu := TypeOK.under hp h.type
  have hchild := fun tok c (hs : stepInto (under pr.env t) tok = some c) => h.child hp hs
  generalize under pr.env t = u at hu hchild ⊢
  have key : ∀ (e : GoType) (tok : Str), (∀ x c, stepInto u x = some c ↔ x = tok ∧ c = e) →
      (∀ q, withToken r tok = .ok q → Types.next r u = .ok [(q, e)]) → ∃ l, Types.next r u = .ok l ∧
      (∀ e ∈ l, ∃ tok, stepInto u tok = some e.2 ∧ GP pr pkg (f ++ [tok]) e.1 e.2) ∧
      ∀ tok c, stepInto u tok = some c → ∃ q, (q, c) ∈ l ∧ GP pr pkg (f ++ [tok]) q c := by
    intro e tok h1 h2
    obtain ⟨q, hq, hg⟩ := hchild tok e ((h1 _ _).2 ⟨rfl, rfl⟩)
    refine ⟨_, h2 q hq, ?_, ?_⟩
    · intro x hx
      rw [List.mem_singleton] at hx; subst hx
      exact ⟨tok, (h1 _ _).2 ⟨rfl, rfl⟩, hg⟩
    · intro x c hs
      obtain ⟨rfl, rfl⟩ := (h1 _ _).1 hs
      exact ⟨q, by simp, hg⟩
  have triv : (∀ x, stepInto u x = none) → Types.next r u = .ok [] → ∃ l, Types.next r u = .ok l ∧
      (∀ e ∈ l, ∃ tok, stepInto u tok = some e.2 ∧ GP pr pkg (f ++ [tok]) e.1 e.2) ∧
      ∀ tok c, stepInto u tok = some c → ∃ q, (q, c) ∈ l ∧ GP pr pkg (f ++ [tok]) q c := by
    intro h1 h2
    refine ⟨_, h2, (by intro x hx; cases hx), ?_⟩
    intro x c hs
    rw [h1] at hs; cases hs
  cases u with
  | basic k => exact triv (fun _ => rfl) rfl
  | named k => exact triv (fun _ => rfl) rfl
  | other k => exact triv (fun _ => rfl) rfl
  | pointer e =>
    refine key e b!"*" ?_ ?_
    · intro x c; simp only [stepInto]; split <;> simp_all [eq_comm]
    · intro q hq; simp only [Types.next, hq]
  | slice e =>
    refine key e b!"[]" ?_ ?_
    · intro x c; simp only [stepInto]; split <;> simp_all [eq_comm]
    · intro q hq; simp only [Types.next, hq]
  | array n e =>
    refine key e b!"[]" ?_ ?_
    · intro x c; simp only [stepInto]; split <;> simp_all [eq_comm]
    · intro q hq; simp only [Types.next, hq]
  | map k e =>
    refine key e b!"[]" ?_ ?_
    · intro x c; simp only [stepInto]; split <;> simp_all [eq_comm]
    · intro q hq; simp only [Types.next, hq]
  | chan k e =>
    refine key e b!"[]" ?_ ?_
    · intro x c; simp only [stepInto]; split <;> simp_all [eq_comm]
    · intro q hq; simp only [Types.next, hq]
  | struct fs =>
    have hok : StructOK fs := hu.1 fs (self_mem_parts _)
    have hstep : ∀ g s, (g, s) ∈ fs → g.exported = true → stepInto (.struct fs) g.name = some s := by
      intro g s hm hx
      simp only [stepInto, find_unique hok hm hx, Option.map_some]
    obtain ⟨l, hl⟩ := fieldNext_ok (r := r) (fs := fs) (by
      intro e he hx
      obtain ⟨q, hq, _⟩ := hchild e.1.name e.2 (hstep e.1 e.2 he hx)
      exact ⟨q, hq⟩)
    refine ⟨l, hl, ?_, ?_⟩
    · intro e he
      obtain ⟨g, h1, h2, h3⟩ := fieldNext_types hl e he
      have hs := hstep g e.2 h1 h2
      obtain ⟨q, hq, hg⟩ := hchild _ _ hs
      rw [h3] at hq
      injection hq with hq
      rw [← hq] at hg
      exact ⟨g.name, hs, hg⟩
    · intro tok c hs
      have hs' := hs
      simp only [stepInto, Option.map_eq_some_iff] at hs'
      obtain ⟨e, he, rfl⟩ := hs'
      have h1 := List.mem_of_find?_eq_some he
      have h2 := List.find?_some he
      simp only [Bool.and_eq_true, decide_eq_true_eq] at h2
      obtain ⟨p, hp1, hp2⟩ := fieldNext_mem hl e.1 e.2 h1 h2.1
      obtain ⟨q, hq, hg⟩ := hchild _ _ hs
      rw [h2.2, hq] at hp2
      injection hp2 with hp2
      rw [← hp2] at hp1
      exact ⟨q, hp1, hg⟩

/-! ### Errors and panics -/

theorem walkNamed_inv {env : Env} {call : Pointer → GoType → PMap → Res PMap} {t : GoType} {m : PMap} {x : Res PMap}
    (h : walkNamed env call t m = x) :
    (x = .ok m ∧ ∀ n, t ≠ .named n) ∨ ∃ n, t = .named n ∧ ((env[n]? = none ∧ x = .panic) ∨
      ∃ d, env[n]? = some d ∧ ((d.pkg = none ∧ x = .panic) ∨ ∃ pkg, d.pkg = some pkg ∧ x = call (Pointer.newGoLoose pkg d.name) t m)) := by
  subst h
  cases t with
  | named n =>
    refine .inr ⟨n, rfl, ?_⟩
    simp only [walkNamed]
    cases hd : env[n]? with
    | none => exact .inl ⟨rfl, rfl⟩
    | some d =>
      refine .inr ⟨d, rfl, ?_⟩
      cases hk : d.pkg with
      | none => exact .inl ⟨rfl, by simp [newPoint, hk]⟩
      | some pkg => exact .inr ⟨pkg, rfl, by simp [newPoint, hk]⟩
  | _ => exact .inl ⟨rfl, by intro n h; cases h⟩

theorem walkAll_err {env : Env} {call : Pointer → GoType → PMap → Res PMap} (hc : ∀ r t m e, call r t m = .err e → e = .fuel) :
    ∀ l m e, walkAll env call l m = .err e → e = .fuel := by
  intro l
  induction l with
  | nil => intro m e h; cases h
  | cons a l ih =>
    intro m e h
    obtain ⟨r, t⟩ := a
    simp only [walkAll] at h
    split at h
    · split at h
      · exact ih _ _ h
      · rename_i h2
        cases h
        rcases walkNamed_inv h2 with ⟨h, _⟩ | ⟨n, _, ⟨_, h⟩ | ⟨d, _, ⟨_, h⟩ | ⟨pkg, _, h⟩⟩⟩
        · cases h
        · cases h
        · cases h
        · exact hc _ _ _ _ h.symm
      · cases h
    · rename_i h2; cases h; exact hc _ _ _ _ h2
    · cases h

theorem walk_err {env : Env} : ∀ n r t p m e, walk env n r t p m = .err e → e = .fuel := by
  intro n
  induction n with
  | zero => intro r t p m e h; cases h; rfl
  | succ n ih =>
    intro r t p m e h
    simp only [walk] at h
    split at h
    · cases h
    · split at h
      · exact walkAll_err (fun r t m e h => ih r t _ m e h) _ _ _ h
      · rename_i h2; exact absurd h2 (next_ne_err _ _ _)
      · cases h

theorem TReach.trans' {env : Env} {a b c : GoType} (h1 : TReach env a b) (h2 : TReach env b c) : TReach env a c := by
  induction h2 with
  | refl => exact h1
  | step _ hc ih => exact .step ih hc

theorem MeetsError.up {env : Env} {u c : GoType} (hc : Child u c) (h : MeetsError env (under env c)) : MeetsError env u := by
  obtain ⟨v, n, d, h1, h2⟩ := h
  exact ⟨v, n, d, TReach.trans' (.step .refl hc) h1, h2⟩

theorem walkAll_panic {env : Env} {call : Pointer → GoType → PMap → Res PMap} : ∀ {l m}, walkAll env call l m = .panic →
    ∃ e ∈ l, ∃ m', call e.1 e.2 m' = .panic ∨ walkNamed env call e.2 m' = .panic := by
  intro l
  induction l with
  | nil => intro m h; cases h
  | cons a l ih =>
    intro m h
    obtain ⟨r, t⟩ := a
    simp only [walkAll] at h
    split at h
    · split at h
      · obtain ⟨e, he, x⟩ := ih h
        exact ⟨e, by simp [he], x⟩
      · cases h
      · rename_i h2; exact ⟨(r, t), List.mem_cons_self, _, .inr h2⟩
    · cases h
    · rename_i h2; exact ⟨(r, t), List.mem_cons_self, _, .inl h2⟩

theorem walk_panic {pr : Prog} (hp : ProgOK pr) : ∀ n {pkg f} r t p m, GP pr pkg f r t → walk pr.env n r t p m = .panic →
    MeetsError pr.env (under pr.env t) := by
  intro n
  induction n with
  | zero => intro pkg f r t p m _ h; cases h
  | succ n ih =>
    intro pkg f r t p m hg h
    simp only [walk] at h
    split at h
    · cases h
    · obtain ⟨l, hl, hl1, _⟩ := hg.next hp
      rw [hl] at h
      simp only at h
      obtain ⟨e, he, m', h1⟩ := walkAll_panic h
      obtain ⟨tok, hs, hge⟩ := hl1 e he
      have hc : Child (under pr.env t) e.2 := ⟨tok, hs⟩
      rcases h1 with h1 | h1
      · exact MeetsError.up hc (ih _ _ _ _ hge h1)
      · rcases walkNamed_inv h1 with ⟨h, _⟩ | ⟨k, hk, h⟩
        · cases h
        · have hlt := hge.type.2 k (by rw [hk]; simp [parts])
          rw [List.getElem?_eq_getElem hlt] at h
          rcases h with ⟨h, _⟩ | ⟨d, hd, ⟨hn, _⟩ | ⟨pkg', hk', h⟩⟩
          · cases h
          · rw [← List.getElem?_eq_getElem hlt] at hd
            exact ⟨_, k, d, .refl, hk ▸ hc, hd, hn⟩
          · rw [← List.getElem?_eq_getElem hlt] at hd
            have hg' := GP.named hp hd hk'
            rw [← hk] at hg'
            exact MeetsError.up hc (ih _ _ _ _ hg' h.symm)

/-! ### Registered points stay -/

/-- Every point of `m` is still there in `m'`. -/
def Kept (m m' : PMap) : Prop := ∀ u q, q ∈ m.at u → q ∈ m'.at u

theorem Kept.refl (m : PMap) : Kept m m := fun _ _ h => h
theorem Kept.trans {a b c : PMap} (h1 : Kept a b) (h2 : Kept b c) : Kept a c := fun u q h => h2 u q (h1 u q h)

/-- Induction over the loop: a reflexive and transitive relation that all calls respect holds for the loop. -/
theorem walkAll_rel {env : Env} {call : Pointer → GoType → PMap → Res PMap} {R : PMap → PMap → Prop}
    (hrefl : ∀ m, R m m) (htrans : ∀ {a b c}, R a b → R b c → R a c) : ∀ {l : List (Pointer × GoType)},
    (∀ e ∈ l, ∀ m m', call e.1 e.2 m = .ok m' → R m m') →
    (∀ e ∈ l, ∀ m m', walkNamed env call e.2 m = .ok m' → R m m') →
    ∀ {m m'}, walkAll env call l m = .ok m' → R m m' := by
  intro l
  induction l with
  | nil => intro _ _ m m' h; cases h; exact hrefl _
  | cons a l ih =>
    intro h1 h2 m m' h
    obtain ⟨r, t⟩ := a
    simp only [walkAll] at h
    split at h
    · rename_i ha
      split at h
      · rename_i hb
        exact htrans (h1 (r, t) List.mem_cons_self _ _ ha) (htrans (h2 (r, t) List.mem_cons_self _ _ hb)
          (ih (fun e he => h1 e (by simp [he])) (fun e he => h2 e (by simp [he])) h))
      · cases h
      · cases h
    · cases h
    · cases h

/-- One element of the loop. -/
theorem walkAll_mem {env : Env} {call : Pointer → GoType → PMap → Res PMap} (hk : ∀ r t m m', call r t m = .ok m' → Kept m m')
    (hn : ∀ t m m', walkNamed env call t m = .ok m' → Kept m m') :
    ∀ {l : List (Pointer × GoType)} {m m'}, walkAll env call l m = .ok m' → ∀ e ∈ l,
    ∃ m1 m2 m3, call e.1 e.2 m1 = .ok m2 ∧ walkNamed env call e.2 m2 = .ok m3 ∧ Kept m2 m' ∧ Kept m3 m' := by
  intro l
  induction l with
  | nil => intro m m' _ e he; cases he
  | cons a l ih =>
    intro m m' h e he
    obtain ⟨r, t⟩ := a
    simp only [walkAll] at h
    split at h
    · rename_i m2 ha
      split at h
      · rename_i m3 hb
        rcases List.mem_cons.1 he with rfl | he
        · have hrest : Kept m3 m' := walkAll_rel (R := Kept) Kept.refl Kept.trans (fun e _ m m' h => hk _ _ _ _ h) (fun e _ m m' h => hn _ _ _ h) h
          exact ⟨m, m2, m3, ha, hb, (hn _ _ _ hb).trans hrest, hrest⟩
        · exact ih h e he
      · cases h
      · cases h
    · cases h
    · cases h

theorem walkNamed_kept {env : Env} {call : Pointer → GoType → PMap → Res PMap} (hk : ∀ r t m m', call r t m = .ok m' → Kept m m')
    (t : GoType) (m m' : PMap) (h : walkNamed env call t m = .ok m') : Kept m m' := by
  rcases walkNamed_inv h with ⟨h, _⟩ | ⟨n, _, ⟨_, h⟩ | ⟨d, _, ⟨_, h⟩ | ⟨pkg, _, h⟩⟩⟩
  · cases h; exact Kept.refl _
  · cases h
  · cases h
  · exact hk _ _ _ _ h.symm

theorem walk_kept {env : Env} : ∀ n r t p m m', walk env n r t p m = .ok m' → Kept m m' := by
  intro n
  induction n with
  | zero => intro r t p m m' h; cases h
  | succ n ih =>
    intro r t p m m' h
    simp only [walk] at h
    have h0 : Kept m (m.append (under env t) r) := fun u q hq => append_mono hq
    split at h
    · cases h; exact h0
    · split at h
      · refine h0.trans (walkAll_rel (R := Kept) Kept.refl Kept.trans (fun e _ m m' h => ih _ _ _ _ _ h) (fun e _ m m' h => ?_) h)
        exact walkNamed_kept (fun r t m m' h => ih _ _ _ _ _ h) _ _ _ h
      · cases h
      · cases h

theorem walk_self {env : Env} {n r t p m m'} (h : walk env n r t p m = .ok m') : ∃ q ∈ m'.at (under env t), q.toStr = r.toStr := by
  cases n with
  | zero => cases h
  | succ n =>
    simp only [walk] at h
    obtain ⟨q, hq, e⟩ := append_self m (under env t) r
    refine ⟨q, ?_, e⟩
    split at h
    · cases h; exact hq
    · split at h
      · refine walkAll_rel (R := Kept) Kept.refl Kept.trans (fun e _ m m' h => walk_kept _ _ _ _ _ _ h) (fun e _ m m' h => ?_) h _ _ hq
        exact walkNamed_kept (fun r t m m' h => walk_kept _ _ _ _ _ _ h) _ _ _ h
      · cases h
      · cases h

/-! ### Coverage -/

theorem passes_cons {env : Env} {t c : GoType} {tok : Str} (toks : List Str) (h : stepInto (under env t) tok = some c) :
    passes env t (tok :: toks) = under env t :: passes env c toks := by
  simp only [passes, h]

/-- Following tokens without coming back to a type leads to a registered type; and the types it has for children are not the
predeclared `error` and are registered under their names. -/
theorem walk_cover {pr : Prog} (hp : ProgOK pr) : ∀ n {pkg f} r t p m m', GP pr pkg f r t → walk pr.env n r t p m = .ok m' →
    ∀ toks c, follow pr.env t toks = some c → (passes pr.env t toks).Nodup → (∀ x ∈ passes pr.env t toks, x ∉ p) →
    (∃ q ∈ m'.at (under pr.env c), q.toStr = goText pkg (f ++ toks)) ∧
    (under pr.env c ∉ p → under pr.env c ∉ passes pr.env t toks → ∀ tok k, stepInto (under pr.env c) tok = some (.named k) →
      ∃ d pk, pr.env[k]? = some d ∧ d.pkg = some pk ∧ ∃ q ∈ m'.at (under pr.env (.named k)), q.toStr = goText pk [d.name]) := by
  intro n
  induction n with
  | zero => intro pkg f r t p m m' _ h; cases h
  | succ n ih =>
    intro pkg f r t p m m' hg h toks c hf hnd hdis
    have hself := walk_self h
    simp only [walk] at h
    obtain ⟨l, hl, hl1, hl2⟩ := hg.next hp
    have hk : ∀ r t m m', walk pr.env n r t (p ++ [under pr.env t]) m = .ok m' → Kept m m' := fun r t m m' h => walk_kept _ _ _ _ _ _ h
    cases toks with
    | nil =>
      cases hf
      refine ⟨?_, ?_⟩
      · rw [List.append_nil, ← hg.text]; exact hself
      · intro hn _ tok k hs
        rw [if_neg hn, hl] at h
        simp only at h
        obtain ⟨q, hq, hgq⟩ := hl2 tok _ hs
        obtain ⟨m1, m2, m3, h1, h2, h3, h4⟩ := walkAll_mem (fun r t' m m' h => walk_kept _ _ _ _ _ _ h)
          (fun t' m m' h => walkNamed_kept (fun r t'' m m' h => walk_kept _ _ _ _ _ _ h) t' m m' h) h _ hq
        rcases walkNamed_inv h2 with ⟨_, h⟩ | ⟨k', hk', h⟩
        · exact absurd rfl (h k)
        · cases hk'
          rcases h with ⟨_, h⟩ | ⟨d, hd, ⟨_, h⟩ | ⟨pk, hpk, h⟩⟩
          · cases h
          · cases h
          · refine ⟨d, pk, hd, hpk, ?_⟩
            obtain ⟨q', hq', e⟩ := walk_self h.symm
            refine ⟨q', h4 _ _ hq', ?_⟩
            rw [e, (GP.named hp hd hpk).text]
    | cons tok toks =>
      simp only [follow] at hf
      split at hf
      · cases hf
      · rename_i s hs
        rw [passes_cons toks hs] at hnd hdis
        have hn : under pr.env t ∉ p := hdis _ (by simp)
        rw [if_neg hn, hl] at h
        simp only at h
        obtain ⟨q, hq, hgq⟩ := hl2 tok _ hs
        obtain ⟨m1, m2, m3, h1, h2, h3, h4⟩ := walkAll_mem (fun r t' m m' h => walk_kept _ _ _ _ _ _ h)
          (fun t' m m' h => walkNamed_kept (fun r t'' m m' h => walk_kept _ _ _ _ _ _ h) t' m m' h) h _ hq
        rw [List.nodup_cons] at hnd
        have := ih q s (p ++ [under pr.env t]) m1 m2 hgq h1 toks c hf hnd.2 (by
          intro x hx hm
          rcases List.mem_append.1 hm with hm | hm
          · exact hdis x (by simp [hx]) hm
          · rw [List.mem_singleton] at hm; subst hm; exact hnd.1 hx)
        obtain ⟨⟨q', hq', e⟩, hB⟩ := this
        refine ⟨⟨q', h3 _ _ hq', by rw [e]; simp⟩, ?_⟩
        intro hn1 hn2 tok' k hs'
        rw [passes_cons toks hs, List.mem_cons, not_or] at hn2
        obtain ⟨d, pk, h5, h6, q'', h7, h8⟩ := hB (by
          intro hm
          rcases List.mem_append.1 hm with hm | hm
          · exact hn1 hm
          · rw [List.mem_singleton] at hm; exact hn2.1 hm) hn2.2 tok' k hs'
        exact ⟨d, pk, h5, h6, q'', h3 _ _ h7, h8⟩

/-! ### Loop erasure -/

theorem passes_cut {env : Env} {w : GoType} : ∀ {toks : List Str} {t : GoType}, w ∈ passes env t toks → 
    ∃ toks' c', follow env t toks' = some c' ∧ under env c' = w ∧ ∃ z, passes env t toks = passes env t toks' ++ w :: z := by
  intro toks
  induction toks with
  | nil => intro t h; cases h
  | cons tok toks ih =>
    intro t h
    by_cases e : w = under env t
    · refine ⟨[], t, rfl, e.symm, ?_⟩
      subst e
      exact ⟨_, rfl⟩
    · cases hs : stepInto (under env t) tok with
      | none =>
        simp only [passes, hs, List.mem_singleton] at h
        exact absurd h e
      | some c =>
        rw [passes_cons toks hs] at h ⊢
        rcases List.mem_cons.1 h with h | h
        · exact absurd h e
        · obtain ⟨toks', c', h1, h2, z, h3⟩ := ih h
          refine ⟨tok :: toks', c', by simp only [follow, hs, h1], h2, z, ?_⟩
          rw [passes_cons toks' hs, h3]; rfl

theorem passes_snoc {env : Env} {toks : List Str} {t c : GoType} (h : follow env t toks = some c) (tok : Str) :
    ∀ s, stepInto (under env c) tok = some s → passes env t (toks ++ [tok]) = passes env t toks ++ [under env c] := by
  intro s hs
  induction toks generalizing t with
  | nil => cases h; rw [List.nil_append, passes_cons [] hs]; rfl
  | cons x toks ih =>
    simp only [follow] at h
    split at h
    · cases h
    · rename_i s' hs'
      rw [List.cons_append, passes_cons _ hs', passes_cons _ hs', ih h]; rfl

/-- Everything that is reached is reached without passing a type twice. -/
theorem simple_path {env : Env} {t v : GoType} (h : TReach env (under env t) v) :
    ∃ toks c, follow env t toks = some c ∧ under env c = v ∧ (passes env t toks ++ [v]).Nodup := by
  induction h with
  | refl => exact ⟨[], t, rfl, rfl, by simp [passes]⟩
  | step _ hc ih =>
    obtain ⟨toks, c, h1, h2, h3⟩ := ih
    obtain ⟨tok, hs⟩ := hc
    rename_i s _
    rw [← h2] at hs h3
    have hsn := passes_snoc h1 tok _ hs
    by_cases hin : under env s ∈ passes env t (toks ++ [tok])
    · obtain ⟨toks', c', g1, g2, z, g3⟩ := passes_cut hin
      refine ⟨toks', c', g1, g2, ?_⟩
      rw [hsn] at g3
      rw [g3] at h3
      have : passes env t toks' ++ under env s :: z = (passes env t toks' ++ [under env s]) ++ z := by simp
      rw [this] at h3
      exact (List.nodup_append.1 h3).1
    · refine ⟨toks ++ [tok], s, ?_, rfl, ?_⟩
      · rw [follow_append, h1]
        simp only [Option.bind, follow, hs]
      · exact nodup_snocT (hsn ▸ h3) hin

end Oapi.Types
