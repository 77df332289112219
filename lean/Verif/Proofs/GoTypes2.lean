import Verif.Proofs.GoTypes1

/-! Collecting types in memory. -/
namespace Oapi.GoTypes
open Types

variable {F : Type}

/-- A call in memory and one on values end alike, and the call kept what the slice `p` looks at. -/
def TEnds (p : Slice) (a : Arrs GoType) (x : TSt × Res Unit) (v : Res PMap) : Prop :=
  x.1.OK ∧ AKeep p a x.1.paths ∧ x.2 = (match v with | .ok _ => .ok () | .err e => .err e | .panic => .panic) ∧ ∀ m, v = .ok m → x.1.content = m

theorem TEnds.before {p : Slice} {a b : Arrs GoType} {x : TSt × Res Unit} {v : Res PMap} (h : AKeep p a b) (e : TEnds p b x v) : TEnds p a x v :=
  ⟨e.1, h.trans e.2.1, e.2.2⟩

/-- Calls with slice `p`, which reads as `q`. -/
def Calls (p : Slice) (q : List GoType) (call : Pointer → GoType → TSt → TSt × Res Unit) (vcall : List GoType → Pointer → GoType → PMap → Res PMap) : Prop :=
  ∀ r t st, st.OK → Valid st.paths p → view st.paths p = q → TEnds p st.paths (call r t st) (vcall q r t st.content)

theorem walkNamed_sim {env : Env} {p : Slice} {q : List GoType} {call : Pointer → GoType → TSt → TSt × Res Unit} {vcall : List GoType → Pointer → GoType → PMap → Res PMap}
    (hc : Calls p q call vcall) (t : GoType) {st : TSt} (ok : st.OK) (hv : Valid st.paths p) (hq : view st.paths p = q) :
    TEnds p st.paths (walkNamed env call t st) (Types.walkNamed env (vcall q) t st.content) := by
  unfold walkNamed Types.walkNamed
  cases t with
  | named n =>
    simp only
    cases env[n]? with
    | none => exact ⟨ok, AKeep.refl _ _, rfl, (fun _ h => by cases h)⟩
    | some d =>
      simp only
      cases newPoint d.pkg d.name with
      | err e => exact ⟨ok, AKeep.refl _ _, rfl, (fun _ h => by cases h)⟩
      | panic => exact ⟨ok, AKeep.refl _ _, rfl, (fun _ h => by cases h)⟩
      | ok np => exact hc np _ st ok hv hq
  | _ => exact ⟨ok, AKeep.refl _ _, rfl, (fun _ h => by cases h; rfl)⟩

theorem walkAll_sim {env : Env} {p : Slice} {q : List GoType} {call : Pointer → GoType → TSt → TSt × Res Unit} {vcall : List GoType → Pointer → GoType → PMap → Res PMap}
    (hc : Calls p q call vcall) : ∀ (nx : List (Pointer × GoType)) {st : TSt}, st.OK → Valid st.paths p → view st.paths p = q →
    TEnds p st.paths (walkAll env call nx st) (Types.walkAll env (vcall q) nx st.content)
  | [], st, ok, _, _ => ⟨ok, AKeep.refl _ _, rfl, (fun _ h => by cases h; rfl)⟩
  | (r, t) :: rest, st, ok, hv, hq => by
    have h1 := hc r t st ok hv hq
    unfold walkAll Types.walkAll
    cases hx : call r t st with
    | mk st1 x1 =>
    rw [hx] at h1
    obtain ⟨ok1, k1, e1, c1⟩ := h1
    simp only at e1 c1 k1 ok1
    cases hy : vcall q r t st.content with
    | err e => rw [hy] at e1; simp only at e1; subst e1; exact ⟨ok1, k1, rfl, (fun _ h => by cases h)⟩
    | panic => rw [hy] at e1; simp only at e1; subst e1; exact ⟨ok1, k1, rfl, (fun _ h => by cases h)⟩
    | ok m1 =>
      rw [hy] at e1; simp only at e1; subst e1
      have c1 := c1 m1 hy
      obtain ⟨v1, w1⟩ := k1.view hv
      have h2 := walkNamed_sim (env := env) hc t ok1 w1 (v1.trans hq)
      rw [c1] at h2
      simp only
      cases hx2 : walkNamed env call t st1 with
      | mk st2 x2 =>
      rw [hx2] at h2
      obtain ⟨ok2, k2, e2, c2⟩ := h2
      simp only at e2 c2 k2 ok2
      cases hy2 : Types.walkNamed env (vcall q) t m1 with
      | err e => rw [hy2] at e2; simp only at e2; subst e2; exact ⟨ok2, k1.trans k2, rfl, (fun _ h => by cases h)⟩
      | panic => rw [hy2] at e2; simp only at e2; subst e2; exact ⟨ok2, k1.trans k2, rfl, (fun _ h => by cases h)⟩
      | ok m2 =>
        rw [hy2] at e2; simp only at e2; subst e2
        have c2 := c2 m2 hy2
        obtain ⟨v2, w2⟩ := k2.view w1
        have h3 := walkAll_sim (env := env) hc rest ok2 w2 ((v2.trans v1).trans hq)
        rw [c2] at h3
        exact h3.before (k1.trans k2)

theorem walk_sim (cf : Conf F) : ∀ n r t p st, st.OK → Valid st.paths p →
    TEnds p st.paths (walk cf n r t p st) (Types.walk cf.env n r t (view st.paths p) st.content)
  | 0, _, _, _, _, ok, _ => ⟨ok, AKeep.refl _ _, rfl, (fun _ h => by cases h)⟩
  | n + 1, r, t, p, st, ok, hv => by
    obtain ⟨a1, a2, a3⟩ := addPoint_spec cf.pointRoom (under cf.env t) r ok
    unfold walk Types.walk
    simp only [a3, ← a2]
    generalize addPoint cf.pointRoom (under cf.env t) r st = st1 at a1 a2 a3
    by_cases hm : under cf.env t ∈ view st.paths p
    · simp only [if_pos hm]
      exact ⟨a1, by rw [a3]; exact AKeep.refl _ _, rfl, (fun _ h => by cases h; rfl)⟩
    · simp only [if_neg hm]
      obtain ⟨k1, k2, _, _, k5, k6⟩ := append1_spec cf.pathRoom hv (under cf.env t)
      cases hn : next r (under cf.env t) with
      | err e => exact ⟨a1, k5, rfl, (fun _ h => by cases h)⟩
      | panic => exact ⟨a1, k5, rfl, (fun _ h => by cases h)⟩
      | ok nx =>
        have := walkAll_sim (env := cf.env) (p := (append1 cf.pathRoom st.paths p (under cf.env t)).2) (q := view st.paths p ++ [under cf.env t])
          (call := fun r' t' st' => walk cf n r' t' (append1 cf.pathRoom st.paths p (under cf.env t)).2 st') (vcall := fun q r t m => Types.walk cf.env n r t q m)
          (fun r' t' st' ok hv hq => by have := walk_sim cf n r' t' _ st' ok hv; rw [hq] at this; exact this)
          nx (st := { st1 with paths := (append1 cf.pathRoom st.paths p (under cf.env t)).1 }) a1 k1 k2
        simp only
        exact ⟨this.1, k6 _ this.2.1, this.2.2⟩

/-- Without a path to look after. -/
def Ends (x : TSt × Res Unit) (v : Res PMap) : Prop :=
  x.1.OK ∧ x.2 = (match v with | .ok _ => .ok () | .err e => .err e | .panic => .panic) ∧ ∀ m, v = .ok m → x.1.content = m

theorem ends_same {st : TSt} (ok : st.OK) : Ends (st, .ok ()) (.ok st.content) := ⟨ok, rfl, (fun _ h => by cases h; rfl)⟩

theorem collectTypes_sim (cf : Conf F) (pkg name : Str) (t : GoType) {st : TSt} (ok : st.OK) :
    Ends (collectTypes cf pkg name t st) (Types.collectTypes cf.env pkg name t st.content) := by
  unfold collectTypes Types.collectTypes
  cases newPoint (some pkg) name with
  | err e => exact ⟨ok, rfl, (fun _ h => by cases h)⟩
  | panic => exact ⟨ok, rfl, (fun _ h => by cases h)⟩
  | ok r =>
    obtain ⟨k1, k2, _⟩ := newSlice_spec st.paths ⟨0, 0⟩
    have := walk_sim cf (depth cf.env t) r t (newSlice st.paths).2 { st with paths := (newSlice st.paths).1 } ok k1
    rw [k2] at this
    exact ⟨this.1, this.2.2⟩

theorem scanPtr_sim (cf : Conf F) (pr : Prog) (he : pr.env = cf.env) (pkg : Str) (ptr : Pointer) {st : TSt} (ok : st.OK) :
    Ends (scanPtr cf pr.scope pkg ptr st) (Types.scanPtr pr pkg ptr st.content) := by
  unfold scanPtr Types.scanPtr
  by_cases h1 : ptr.url.scheme ≠ b!"go"
  · simp only [if_pos h1]; exact ends_same ok
  · simp only [if_neg h1]
    by_cases h2 : pkg ≠ ptr.pkgPath
    · simp only [if_pos h2]; exact ends_same ok
    · simp only [if_neg h2]
      cases ptr.fragment.head? with
      | none => exact ends_same ok
      | some h =>
        simp only
        cases pr.scope pkg h with
        | none => exact ends_same ok
        | some t => simp only [he]; exact collectTypes_sim cf pkg h t ok

theorem scanPkg_sim (cf : Conf F) (pr : Prog) (he : pr.env = cf.env) (pkg : Str) : ∀ (ptrs : List Pointer) {st : TSt}, st.OK →
    Ends (scanPkg cf pr.scope pkg ptrs st) (Types.scanPkg pr pkg ptrs st.content)
  | [], _, ok => ends_same ok
  | ptr :: t, st, ok => by
    have h := scanPtr_sim cf pr he pkg ptr ok
    unfold scanPkg Types.scanPkg
    cases hx : scanPtr cf pr.scope pkg ptr st with
    | mk st1 x1 =>
    rw [hx] at h
    obtain ⟨ok1, e1, c1⟩ := h
    simp only at e1 c1 ok1
    cases hy : Types.scanPtr pr pkg ptr st.content with
    | err e => rw [hy] at e1; simp only at e1; subst e1; exact ⟨ok1, rfl, (fun _ h => by cases h)⟩
    | panic => rw [hy] at e1; simp only at e1; subst e1; exact ⟨ok1, rfl, (fun _ h => by cases h)⟩
    | ok m =>
      rw [hy] at e1; simp only at e1; subst e1
      have := scanPkg_sim cf pr he pkg t ok1
      rw [c1 m hy] at this
      exact this

theorem scanPkgs_sim (cf : Conf F) (pr : Prog) (he : pr.env = cf.env) : ∀ (runs : List (Str × List Pointer)) {st : TSt}, st.OK →
    Ends (scanPkgs cf pr.scope runs st) (Types.scanPkgs pr runs st.content)
  | [], _, ok => ends_same ok
  | (pkg, ptrs) :: t, st, ok => by
    have h := scanPkg_sim cf pr he pkg ptrs ok
    unfold scanPkgs Types.scanPkgs
    cases hx : scanPkg cf pr.scope pkg ptrs st with
    | mk st1 x1 =>
    rw [hx] at h
    obtain ⟨ok1, e1, c1⟩ := h
    simp only at e1 c1 ok1
    cases hy : Types.scanPkg pr pkg ptrs st.content with
    | err e => rw [hy] at e1; simp only at e1; subst e1; exact ⟨ok1, rfl, (fun _ h => by cases h)⟩
    | panic => rw [hy] at e1; simp only at e1; subst e1; exact ⟨ok1, rfl, (fun _ h => by cases h)⟩
    | ok m =>
      rw [hy] at e1; simp only at e1; subst e1
      have := scanPkgs_sim cf pr he t ok1
      rw [c1 m hy] at this
      exact this

end Oapi.GoTypes
