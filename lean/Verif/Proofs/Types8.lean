import Verif.Proofs.Types7

/-! Whole scans and conversions: what is registered, and independence of the recursion budget. -/
namespace Oapi.Types
open Spec

variable {F : Type}

/-! ### Only what is reached is registered -/

/-- What is registered in `m'` and was not in `m` is reached from a type in `R`. -/
def NewOnly (env : Env) (R : GoType → Prop) (m m' : PMap) : Prop := ∀ v q, q ∈ m'.at v → q ∈ m.at v ∨ ∃ u, R u ∧ TReach env u v

theorem NewOnly.refl (env : Env) (R : GoType → Prop) (m : PMap) : NewOnly env R m m := fun _ _ h => .inl h
theorem NewOnly.trans {env : Env} {R : GoType → Prop} {a b c : PMap} (h1 : NewOnly env R a b) (h2 : NewOnly env R b c) : NewOnly env R a c := by
  intro v q hq
  rcases h2 v q hq with h | h
  · exact h1 v q h
  · exact .inr h
theorem NewOnly.mono {env : Env} {R R' : GoType → Prop} {a b : PMap} (h : NewOnly env R a b) (hr : ∀ u, R u → R' u) : NewOnly env R' a b := by
  intro v q hq
  rcases h v q hq with h | ⟨u, h1, h2⟩
  · exact .inl h
  · exact .inr ⟨u, hr u h1, h2⟩

theorem walk_new {pr : Prog} (hp : ProgOK pr) : ∀ n {pkg f} r t p m m', GP pr pkg f r t → walk pr.env n r t p m = .ok m' →
    NewOnly pr.env (· = under pr.env t) m m' := by
  intro n
  induction n with
  | zero => intro pkg f r t p m m' _ h; cases h
  | succ n ih =>
    intro pkg f r t p m m' hg h
    simp only [walk] at h
    have h0 : NewOnly pr.env (· = under pr.env t) m (m.append (under pr.env t) r) := by
      intro v q hq
      rcases append_inv hq with hq | ⟨rfl, rfl⟩
      · exact .inl hq
      · exact .inr ⟨_, rfl, .refl⟩
    split at h
    · cases h; exact h0
    · obtain ⟨l, hl, hl1, _⟩ := hg.next hp
      rw [hl] at h
      simp only at h
      refine h0.trans (walkAll_rel (R := NewOnly pr.env (· = under pr.env t)) (NewOnly.refl _ _) NewOnly.trans ?_ ?_ h)
      · intro e he a b hab v q hq
        obtain ⟨tok, hs, hge⟩ := hl1 e he
        rcases ih _ _ _ _ _ hge hab v q hq with h | ⟨u, rfl, h⟩
        · exact .inl h
        · exact .inr ⟨_, rfl, TReach.trans' (.step .refl ⟨tok, hs⟩) h⟩
      · intro e he a b hab v q hq
        obtain ⟨tok, hs, _⟩ := hl1 e he
        rcases walkNamed_inv hab with ⟨h, _⟩ | ⟨k, hk, ⟨_, h⟩ | ⟨d, hd, ⟨_, h⟩ | ⟨pk, hpk, h⟩⟩⟩
        · cases h; exact .inl hq
        · cases h
        · cases h
        · have := GP.named hp hd hpk
          rw [← hk] at this
          rcases ih _ _ _ _ _ this h.symm v q hq with h | ⟨u, rfl, h⟩
          · exact .inl h
          · exact .inr ⟨_, rfl, TReach.trans' (.step .refl ⟨tok, hs⟩) h⟩

theorem scanPkg_new {pr : Prog} (hp : ProgOK pr) (pkg : Str) : ∀ (ptrs : List Pointer) (m m' : PMap), scanPkg pr pkg ptrs m = .ok m' →
    NewOnly pr.env (fun u => ∃ pk nm t, Requested pr [(pkg, ptrs)] pk nm t ∧ u = under pr.env t) m m' := by
  intro ptrs
  induction ptrs with
  | nil => intro m m' h; cases h; exact NewOnly.refl _ _ _
  | cons ptr ptrs ih =>
    intro m m' h
    simp only [scanPkg] at h
    have up : ∀ u, (∃ pk nm t, Requested pr [(pkg, ptrs)] pk nm t ∧ u = under pr.env t) →
        ∃ pk nm t, Requested pr [(pkg, ptr :: ptrs)] pk nm t ∧ u = under pr.env t := by
      rintro u ⟨pk, nm, t, ⟨ps, h1, p, h2, h3⟩, rfl⟩
      rw [List.mem_singleton] at h1; cases h1
      exact ⟨pkg, nm, t, ⟨ptr :: ptrs, by simp, p, by simp [h2], h3⟩, rfl⟩
    cases hs : scanPtr pr pkg ptr m with
    | err e => rw [hs] at h; cases h
    | panic => rw [hs] at h; cases h
    | ok m1 =>
      rw [hs] at h
      refine NewOnly.trans ?_ ((ih m1 m' h).mono up)
      rcases scanPtr_cases pr pkg ptr m with ⟨name, t, h1, h2, h3, h4, h5⟩ | ⟨h5, _⟩
      · rw [h5, collect_eq] at hs
        refine (walk_new hp _ _ _ _ _ _ (root_GP hp h4) hs).mono ?_
        rintro u rfl
        exact ⟨pkg, name, t, ⟨ptr :: ptrs, by simp, ptr, by simp, h1, h2, h3, h4⟩, rfl⟩
      · rw [h5] at hs; cases hs; exact NewOnly.refl _ _ _

theorem scanPkgs_new {pr : Prog} (hp : ProgOK pr) : ∀ (runs : List (Str × List Pointer)) (m m' : PMap), scanPkgs pr runs m = .ok m' →
    NewOnly pr.env (fun u => ∃ pk nm t, Requested pr runs pk nm t ∧ u = under pr.env t) m m' := by
  intro runs
  induction runs with
  | nil => intro m m' h; cases h; exact NewOnly.refl _ _ _
  | cons a runs ih =>
    intro m m' h
    obtain ⟨pkg, ptrs⟩ := a
    simp only [scanPkgs] at h
    cases hs : scanPkg pr pkg ptrs m with
    | err e => rw [hs] at h; cases h
    | panic => rw [hs] at h; cases h
    | ok m1 =>
      rw [hs] at h
      refine NewOnly.trans ((scanPkg_new hp pkg ptrs m m1 hs).mono ?_) ((ih m1 m' h).mono ?_)
      · rintro u ⟨pk, nm, t, ⟨ps, h1, h2⟩, rfl⟩
        rw [List.mem_singleton] at h1
        exact ⟨pk, nm, t, ⟨ps, by simp [h1], h2⟩, rfl⟩
      · rintro u ⟨pk, nm, t, ⟨ps, h1, h2⟩, rfl⟩
        exact ⟨pk, nm, t, ⟨ps, by simp [h1], h2⟩, rfl⟩

/-- After a scan everything reached from a registered type is registered. -/
theorem scan_closed {pr : Prog} (hp : ProgOK pr) {runs : List (Str × List Pointer)} {m : PMap} (h : scanPkgs pr runs [] = .ok m) {u v : GoType}
    (hu : m.at u ≠ []) (hv : TReach pr.env u v) : m.at v ≠ [] := by
  rcases scanPkgs_res hp runs [] with ⟨m', hm', hok, _⟩ | ⟨hm', _⟩
  · rw [h] at hm'; cases hm'
    cases hq : m.at u with
    | nil => exact absurd hq hu
    | cons q l =>
      rcases scanPkgs_new hp runs [] m h u q (by rw [hq]; simp) with h | ⟨w, ⟨pk, nm, t, hr, rfl⟩, h⟩
      · cases h
      · obtain ⟨q', hq'⟩ := (hok.got _ _ _ hr).all v (TReach.trans' h hv)
        intro hn; rw [hn] at hq'; cases hq'
  · rw [h] at hm'; cases hm'

theorem scan_inv {pr : Prog} (hp : ProgOK pr) {runs : List (Str × List Pointer)} {m : PMap} (h : scanPkgs pr runs [] = .ok m) : Inv pr m := by
  rcases scanPkgs_res hp runs [] with ⟨m', hm', hok, _⟩ | ⟨hm', _⟩
  · rw [h] at hm'; cases hm'; exact hok.inv (Inv.nil pr)
  · rw [h] at hm'; cases hm'

/-! ### More recursion budget changes nothing -/

theorem collectLoop_mono {env : Env} {tagOf : Str → Res (TagP.Tag F)} {c c' : List (FieldInfo × GoType) → Res (List (StructField F))}
    (hc : ∀ st, c st ≠ .err .fuel → c' st = c st) : ∀ l, collectLoop env tagOf c l ≠ .err .fuel → collectLoop env tagOf c' l = collectLoop env tagOf c l := by
  intro l
  induction l with
  | nil => intro _; rfl
  | cons a l ih =>
    intro h
    obtain ⟨f, t⟩ := a
    simp only [collectLoop] at h ⊢
    cases htag : tagOf f.tag with
    | err e => rfl
    | panic => rfl
    | ok tx =>
      rw [htag] at h
      simp only at h ⊢
      by_cases hsk : tx.ignore = true ∨ f.exported = false
      · rw [if_pos hsk] at h ⊢; rw [if_pos hsk]; exact ih h
      · rw [if_neg hsk] at h ⊢; rw [if_neg hsk]
        cases hcast : castInlineStruct env f t tx with
        | some st =>
          rw [hcast] at h
          simp only at h ⊢
          have hst : c st ≠ .err .fuel := by
            intro e; rw [e] at h; exact h rfl
          rw [hc st hst]
          cases hz : c st with
          | err e => rfl
          | panic => rfl
          | ok z =>
            rw [hz] at h
            simp only at h ⊢
            have hl : collectLoop env tagOf c l ≠ .err .fuel := by
              intro e; rw [e] at h; exact h rfl
            rw [ih hl]
        | none =>
          rw [hcast] at h
          simp only at h ⊢
          have hl : collectLoop env tagOf c l ≠ .err .fuel := by
            intro e; rw [e] at h; exact h rfl
          rw [ih hl]

theorem collectFields_mono {env : Env} {tagOf : Str → Res (TagP.Tag F)} : ∀ n fs p, collectFields env tagOf n fs p ≠ .err .fuel →
    collectFields env tagOf (n + 1) fs p = collectFields env tagOf n fs p := by
  intro n
  induction n with
  | zero => intro fs p h; exact absurd rfl h
  | succ n ih =>
    intro fs p h
    rw [collectFields] at h ⊢
    rw [collectFields]
    by_cases hin : GoType.struct fs ∈ p
    · rw [if_pos hin, if_pos hin]
    · rw [if_neg hin] at h ⊢; rw [if_neg hin]
      exact collectLoop_mono (fun st hs => ih st _ hs) fs h

theorem structLoop_mono {cx : Ctx F} {c c' : Nat → GoType → TagP.Tag F → Res (Schema F)} (hc : ∀ i t tg, c i t tg ≠ .err .fuel → c' i t tg = c i t tg) :
    ∀ xs i props req, structLoop cx c i xs props req ≠ .err .fuel → structLoop cx c' i xs props req = structLoop cx c i xs props req := by
  intro xs
  induction xs with
  | nil => intro i props req _; rfl
  | cons x xs ih =>
    intro i props req h
    simp only [structLoop] at h ⊢
    have hf : fieldSchema cx c i x ≠ .err .fuel := by
      intro e; rw [e] at h; exact h rfl
    have hfe : fieldSchema cx c' i x = fieldSchema cx c i x := by
      unfold fieldSchema at hf ⊢
      by_cases hty : x.tag.type ≠ []
      · rw [if_pos hty, if_pos hty]
      · rw [if_neg hty] at hf ⊢
        rw [if_neg hty]
        split at hf
        · rfl
        · exact hc _ _ _ hf
    rw [hfe]
    cases hs : fieldSchema cx c i x with
    | err e => rfl
    | panic => rfl
    | ok s =>
      rw [hs] at h
      simp only at h ⊢
      split
      · rename_i hr; rw [if_pos hr] at h; exact ih _ _ _ h
      · rename_i hr; rw [if_neg hr] at h; exact ih _ _ _ h

theorem element_mono {t e : GoType} {c c' : GoType → Res (Schema F)} {k : Schema F → Schema F} (hc : c e ≠ .err .fuel → c' e = c e)
    (h : element t e c k ≠ .err .fuel) : element t e c' k = element t e c k := by
  unfold element at h ⊢
  by_cases ht : t = e
  · rw [if_pos ht, if_pos ht]
  · rw [if_neg ht] at h ⊢
    rw [if_neg ht]
    rw [hc (by intro e'; rw [e'] at h; exact h rfl)]

theorem type2schema_mono {cx : Ctx F} : ∀ n i t tp tg, type2schema cx n i t tp tg ≠ .err .fuel →
    type2schema cx (n + 1) i t tp tg = type2schema cx n i t tp tg := by
  intro n
  induction n with
  | zero => intro i t tp tg h; exact absurd rfl h
  | succ n ih =>
    intro i t tp tg h
    rw [type2schema] at h ⊢
    rw [type2schema]
    simp only at h ⊢
    by_cases hin : under cx.env t ∈ tp
    · rw [if_pos hin, if_pos hin]
    · rw [if_neg hin] at h ⊢; rw [if_neg hin]
      cases hu : under cx.env t with
      | struct fs =>
        rw [hu] at h
        simp only at h ⊢
        by_cases hl : (tp ++ [GoType.struct fs]).length = 1
        · rw [if_pos hl] at h ⊢; rw [if_pos hl]
          unfold struct2schema at h ⊢
          cases hcf : collectFields cx.env cx.tagOf (depth cx.env (.struct fs)) fs [] with
          | err e => rfl
          | panic => rfl
          | ok fields =>
            rw [hcf] at h
            simp only at h ⊢
            rw [structLoop_mono (fun i t tg hx => ih i t _ tg hx) fields 0 [] []]
            intro e; rw [e] at h; exact h rfl
        · rw [if_neg hl, if_neg hl]
      | array len e => rw [hu] at h; simp only at h ⊢; exact element_mono (fun hx => ih _ _ _ _ hx) h
      | map k e => rw [hu] at h; simp only at h ⊢; exact element_mono (fun hx => ih _ _ _ _ hx) h
      | slice e => rw [hu] at h; simp only at h ⊢; exact element_mono (fun hx => ih _ _ _ _ hx) h
      | pointer e => rw [hu] at h; simp only at h ⊢; exact element_mono (fun hx => ih _ _ _ _ hx) h
      | basic k => rfl
      | named k => rfl
      | chan d e => rfl
      | other k => rfl

theorem type2schema_mono_le {cx : Ctx F} {n n' : Nat} (hn : n ≤ n') {i t tp tg} (h : type2schema cx n i t tp tg ≠ .err .fuel) :
    type2schema cx n' i t tp tg = type2schema cx n i t tp tg := by
  induction hn with
  | refl => rfl
  | step _ ih =>
    rw [type2schema_mono _ _ _ _ _ (by rw [ih]; exact h), ih]

theorem collectFields_mono_le {env : Env} {tagOf : Str → Res (TagP.Tag F)} {n n' : Nat} (hn : n ≤ n') {fs p} (h : collectFields env tagOf n fs p ≠ .err .fuel) :
    collectFields env tagOf n' fs p = collectFields env tagOf n fs p := by
  induction hn with
  | refl => rfl
  | step _ ih =>
    rw [collectFields_mono _ _ _ (by rw [ih]; exact h), ih]

end Oapi.Types
