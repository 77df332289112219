import Verif.Proofs.Gabs

namespace Oapi.Gabs
open Spec Str

/-! ### Reading back -/

theorem search_obj (s : Str) (p : List Str) (m : Obj) :
    search (s :: p) (.obj m) = match Obj.lookup s m with | some v => search p v | none => none := rfl

theorem search_arr (s : Str) (p : List Str) (xs : List Json) (h : s ≠ b!"*") :
    search (s :: p) (.arr xs) = match arrIndex s xs.length with
        | some i => match xs[i]? with
          | some v => search p v
          | none => none
        | none => none := by
  show (if s = b!"*" then _ else _) = _
  exact if_neg h

theorem setGo_search (v : Json) (root : Bool) (p : List Str) (j j' : Json)
    (hd : b!"-" ∉ p) (h : setGo v root p j = .ok j') : search p j' = some v := by
  induction p generalizing root j j' with
  | nil => simp [setGo] at h; subst h; rfl
  | cons s p ih =>
    have hs : s ≠ b!"-" := fun e => hd (by simp [e])
    have hp : b!"-" ∉ p := fun e => hd (by simp [e])
    have sub : ∀ f c0, goOn v f p c0 = .ok j' → ∃ c, j' = f c ∧ search p c = some v := by
      intro f c0 hg
      cases p with
      | nil => simp [goOn] at hg; exact ⟨v, hg.symm, rfl⟩
      | cons t p =>
        simp only [goOn] at hg
        cases hs : setGo v false (t :: p) c0 with
        | ok c =>
          rw [hs] at hg; simp at hg
          exact ⟨c, hg.symm, ih false c0 c hp hs⟩
        | err e => rw [hs] at hg; simp at hg
        | panic => rw [hs] at hg; simp at hg
    cases j with
    | obj m =>
      rw [setGo_obj] at h
      obtain ⟨c, rfl, hc⟩ := sub _ _ h
      rw [search_obj]; simp [hc]
    | arr xs =>
      cases hi : arrIndex s xs.length with
      | none => rw [setGo_arr_none v root s p xs hs hi] at h; cases h
      | some i =>
        have hlt := arrIndex_lt hi
        have hx : xs[i]? = some xs[i] := List.getElem?_eq_getElem hlt
        have hstar : s ≠ b!"*" := by rintro rfl; rw [arrIndex_star] at hi; cases hi
        have fin : ∀ c, search p c = some v → search (s :: p) (.arr (xs.set i c)) = some v := by
          intro c hc
          rw [search_arr _ _ _ hstar]
          simp [hi, hlt, hc]
        by_cases hn : xs[i] = .null
        · cases p with
          | nil =>
            rw [setGo_arr_last v root s xs i hs hi] at h; cases h
            exact fin v rfl
          | cons t p => rw [setGo_arr_null v root s t p xs i hs hi (hn ▸ hx)] at h; cases h
        · rw [setGo_arr_some v root s _ xs i _ hs hi hx hn] at h
          obtain ⟨c, rfl, hc⟩ := sub _ _ h
          exact fin c hc
    | null | bool _ | num _ | str _ => simp [setGo] at h

/-! ### When `Set` fails -/

theorem goOn_not_panic {v : Json} {f : Json → Json} {p : List Str} {c0 : Json}
    (h : setGo v false p c0 ≠ .panic) : goOn v f p c0 ≠ .panic := by
  cases p with
  | nil => simp [goOn]
  | cons t p => simp only [goOn]; cases hs : setGo v false (t :: p) c0 <;> simp_all

theorem setGo_no_panic (v : Json) (root : Bool) (p : List Str) (j : Json) : setGo v root p j ≠ .panic := by
  induction p generalizing root j with
  | nil => simp [setGo]
  | cons s p ih =>
    cases j with
    | obj m => rw [setGo_obj]; exact goOn_not_panic (ih _ _)
    | arr xs =>
      by_cases hs : s = b!"-"
      · subst hs
        cases root
        · rw [setGo_dash]; exact goOn_not_panic (ih _ _)
        · rw [setGo_dash_root]; simp
      · cases hi : arrIndex s xs.length with
        | none => rw [setGo_arr_none v root s p xs hs hi]; simp
        | some i =>
          have hlt := arrIndex_lt hi
          have hx : xs[i]? = some xs[i] := List.getElem?_eq_getElem hlt
          by_cases hn : xs[i] = .null
          · cases p with
            | nil => rw [setGo_arr_last v root s xs i hs hi]; simp
            | cons t p => rw [setGo_arr_null v root s t p xs i hs hi (hn ▸ hx)]; simp
          · rw [setGo_arr_some v root s _ xs i _ hs hi hx hn]; exact goOn_not_panic (ih _ _)
    | null | bool _ | num _ | str _ => simp [setGo]

theorem not_blocks_null {f l : Bool} {s : Str} : ¬ Blocks f l .null s := by intro h; cases h
theorem not_blocks_obj {f l : Bool} {s : Str} {m : Obj} : ¬ Blocks f l (.obj m) s := by intro h; cases h
theorem blocks_arr {f l : Bool} {s : Str} {xs : List Json} (h : Blocks f l (.arr xs) s) :
    (f = true ∧ s = b!"-") ∨ (s ≠ b!"-" ∧ ∀ n : Nat, Str.atoi s = some (n : Int) → xs.length ≤ n) ∨
    (l = false ∧ s ≠ b!"-" ∧ ∃ n : Nat, Str.atoi s = some (n : Int) ∧ xs[n]? = some .null) := by
  cases h with
  | append => simp
  | noElem h1 h2 => exact Or.inr (Or.inl ⟨h1, h2⟩)
  | nullElem h1 h2 h3 => exact Or.inr (Or.inr ⟨rfl, h1, _, h2, h3⟩)

/-- an obstruction on the way of a written path -/
def Obstr (root : Bool) (p : List Str) (j : Json) : Prop :=
  ∃ q s r x, p = q ++ s :: r ∧ along j q = some x ∧ Blocks (root && q.isEmpty) r.isEmpty x s

theorem goOn_err {v : Json} {f : Json → Json} {p : List Str} {c0 : Json} :
    (∃ e, goOn v f p c0 = .err e) ↔ p ≠ [] ∧ ∃ e, setGo v false p c0 = .err e := by
  cases p with
  | nil => simp [goOn]
  | cons t p => simp only [goOn]; cases hs : setGo v false (t :: p) c0 <;> simp

theorem along_arr_idx {s : Str} {xs : List Json} {i : Nat} (hi : arrIndex s xs.length = some i) (q : List Str) :
    along (.arr xs) (s :: q) = match xs[i]? with | some c => along c q | none => none := by
  have := arrIndex_atoi hi
  simp only [along, this]
  rfl

theorem along_nil_obj_none {q : List Str} {s : Str} {m : Obj} (h : Obj.lookup s m = none) :
    along (.obj m) (s :: q) = none := by simp [along, h]

theorem obstr_cons (root : Bool) (s : Str) (p : List Str) (j : Json) :
    Obstr root (s :: p) j ↔ Blocks root p.isEmpty j s ∨
      ∃ q t r x, p = q ++ t :: r ∧ along j (s :: q) = some x ∧ Blocks false r.isEmpty x t := by
  constructor
  · rintro ⟨q, t, r, x, hp, ha, hb⟩
    cases q with
    | nil => simp at hp; obtain ⟨rfl, rfl⟩ := hp; simp [along] at ha; subst ha; left; simpa using hb
    | cons a q =>
      simp at hp; obtain ⟨rfl, rfl⟩ := hp
      right; exact ⟨q, t, r, x, rfl, ha, by simpa using hb⟩
  · rintro (hb | ⟨q, t, r, x, hp, ha, hb⟩)
    · exact ⟨[], s, p, j, rfl, rfl, by simpa using hb⟩
    · exact ⟨s :: q, t, r, x, by simp [hp], ha, by simpa using hb⟩

theorem arrIndex_none_iff {s : Str} {xs : List Json} :
    arrIndex s xs.length = none ↔ ∀ n : Nat, atoi s = some (n : Int) → xs.length ≤ n := by
  unfold arrIndex
  split
  · rename_i i hi
    constructor
    · intro h n hn
      rw [hi] at hn
      have : i = n := by
        have : (Int.ofNat i) = (n : Int) := by simpa using hn
        exact Int.ofNat.inj this
      subst this
      split at h
      · simp at h
      · omega
    · intro h
      have := h i hi
      simp; omega
  · rename_i h
    simp
    intro n hn
    exact absurd hn (h n)

theorem setGo_err_iff (v : Json) (root : Bool) (p : List Str) (j : Json) (hj : j ≠ .null) :
    (∃ e, setGo v root p j = .err e) ↔ Obstr root p j := by
  induction p generalizing root j with
  | nil => simp [setGo, Obstr]
  | cons s p ih =>
    rw [obstr_cons]
    -- the recursive part through an existing non-null child
    have hrec : ∀ (f : Json → Json) (c : Json), c ≠ .null → (∀ q, along j (s :: q) = along c q) →
        ¬ Blocks root p.isEmpty j s →
        ((∃ e, goOn v f p c = .err e) ↔ (Blocks root p.isEmpty j s ∨
          ∃ q t r x, p = q ++ t :: r ∧ along j (s :: q) = some x ∧ Blocks false r.isEmpty x t)) := by
      intro f c hc hal hnb
      rw [goOn_err, ih false c hc]
      constructor
      · rintro ⟨_, q, t, r, x, hp, ha, hb⟩
        right; exact ⟨q, t, r, x, hp, by rw [hal]; exact ha, by simpa using hb⟩
      · rintro (hb | ⟨q, t, r, x, hp, ha, hb⟩)
        · exact absurd hb hnb
        · refine ⟨by rw [hp]; simp, q, t, r, x, hp, by rw [← hal]; exact ha, by simpa using hb⟩
    -- through a fresh empty object nothing can block
    have fresh : ∀ (f : Json → Json), (∀ q x, along j (s :: q) = some x → x = .null) →
        ¬ Blocks root p.isEmpty j s →
        ((∃ e, goOn v f p (.obj []) = .err e) ↔ (Blocks root p.isEmpty j s ∨
          ∃ q t r x, p = q ++ t :: r ∧ along j (s :: q) = some x ∧ Blocks false r.isEmpty x t)) := by
      intro f hal hnb
      rw [goOn_err, ih false (.obj []) (by simp)]
      constructor
      · rintro ⟨_, q, t, r, x, hp, ha, hb⟩
        cases q with
        | nil => simp [along] at ha; subst ha; exact absurd hb not_blocks_obj
        | cons a q => simp [along] at ha
      · rintro (hb | ⟨q, t, r, x, hp, ha, hb⟩)
        · exact absurd hb hnb
        · rw [hal q x ha] at hb; exact absurd hb not_blocks_null
    cases j with
    | null => exact absurd rfl hj
    | bool b => simp only [setGo]; simp; left; exact .bool
    | num n => simp only [setGo]; simp; left; exact .num
    | str t => simp only [setGo]; simp; left; exact .str
    | obj m =>
      have hnb : ¬ Blocks root p.isEmpty (.obj m) s := not_blocks_obj
      rw [setGo_obj]
      cases hl : Obj.lookup s m with
      | none => exact fresh _ (fun q x h => by rw [along_nil_obj_none hl] at h; cases h) hnb
      | some c =>
        have hal : ∀ q, along (.obj m) (s :: q) = along c q := fun q => by simp [along, hl]
        by_cases hc : c = .null
        · subst hc
          refine fresh _ (fun q x h => ?_) hnb
          rw [hal] at h
          cases q with
          | nil => simpa [along] using h.symm
          | cons a q => simp [along] at h
        · rw [fill_some hc]
          exact hrec _ c hc hal hnb
    | arr xs =>
      by_cases hs : s = b!"-"
      · subst hs
        have ha : atoi b!"-" = none := rfl
        cases root
        · rw [setGo_dash]
          refine fresh _ (fun q x h => ?_) ?_
          · simp [along, ha] at h
          · intro h
            rcases blocks_arr h with ⟨h, _⟩ | ⟨h, _⟩ | ⟨_, h, _⟩
            · cases h
            · exact h rfl
            · exact h rfl
        · rw [setGo_dash_root]; simp; left; exact .append
      · cases hi : arrIndex s xs.length with
        | none =>
          rw [setGo_arr_none v root s p xs hs hi]; simp; left
          exact .noElem hs (arrIndex_none_iff.1 hi)
        | some i =>
          have hlt := arrIndex_lt hi
          have hx : xs[i]? = some xs[i] := List.getElem?_eq_getElem hlt
          have hat := arrIndex_atoi hi
          have huniq : ∀ n : Nat, atoi s = some (n : Int) → n = i := by
            intro n hn; rw [hat] at hn; simp at hn; omega
          have hal : ∀ q, along (.arr xs) (s :: q) = along xs[i] q := fun q => by
            rw [along_arr_idx hi, hx]
          by_cases hn : xs[i] = .null
          · cases p with
            | nil =>
              rw [setGo_arr_last v root s xs i hs hi]
              simp
              intro h
              rcases blocks_arr h with ⟨_, h⟩ | ⟨_, h⟩ | ⟨h, _⟩
              · exact hs h
              · have := h i hat; omega
              · cases h
            | cons t p =>
              rw [setGo_arr_null v root s t p xs i hs hi (hn ▸ hx)]; simp; left
              exact .nullElem hs hat (hn ▸ hx)
          · rw [setGo_arr_some v root s _ xs i _ hs hi hx hn]
            refine hrec _ _ hn hal ?_
            intro h
            rcases blocks_arr h with ⟨_, h⟩ | ⟨_, h⟩ | ⟨_, _, n, h1, h2⟩
            · exact hs h
            · have := h i hat; omega
            · have e := huniq _ h1
              subst e
              rw [hx] at h2; exact hn (by simpa using h2)

end Oapi.Gabs
