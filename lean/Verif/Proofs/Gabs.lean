import Verif.Model.Container
import Verif.Spec.Doc
import Verif.Proofs.Json
import Verif.Proofs.Str

namespace Oapi

namespace Str

/-! ### Itoa / Atoi -/

theorem itoaGo_digits (f n : Nat) : ∀ c ∈ itoaGo f n, 48 ≤ c ∧ c ≤ 57 := by
  have dig : ∀ k, k < 10 → (48 : UInt8) ≤ UInt8.ofNat (48 + k) ∧ UInt8.ofNat (48 + k) ≤ 57 := by decide
  induction f generalizing n with
  | zero => intro c hc; simp only [itoaGo, List.mem_singleton] at hc; subst hc; exact dig _ (Nat.mod_lt _ (by decide))
  | succ f ih =>
    unfold itoaGo
    split
    · intro c hc; simp only [List.mem_singleton] at hc; subst hc; exact dig _ (by assumption)
    · intro c hc
      simp only [List.mem_append, List.mem_singleton] at hc
      rcases hc with hc | rfl
      · exact ih _ c hc
      · exact dig _ (Nat.mod_lt _ (by decide))

theorem itoa_digits (n : Nat) : ∀ c ∈ itoa n, 48 ≤ c ∧ c ≤ 57 := itoaGo_digits n n

theorem itoaGo_ne_nil (f n : Nat) : itoaGo f n ≠ [] := by
  cases f <;> simp [itoaGo]; split <;> simp

theorem digitVal_ofNat (k : Nat) (h : k < 10) : digitVal (UInt8.ofNat (48 + k)) = some k := by
  revert k; decide

theorem digitsVal_append (acc : Nat) (s t : Str) :
    digitsVal acc (s ++ t) = (digitsVal acc s).bind fun a => digitsVal a t := by
  induction s generalizing acc with
  | nil => rfl
  | cons c s ih =>
    simp only [List.cons_append, digitsVal]
    cases digitVal c with
    | none => rfl
    | some d => exact ih _

theorem digitsVal_itoaGo (f n : Nat) (h : n ≤ f) : digitsVal 0 (itoaGo f n) = some n := by
  induction f generalizing n with
  | zero =>
    have : n = 0 := by omega
    subst this; rfl
  | succ f ih =>
    unfold itoaGo
    split
    · rename_i h10; simp only [digitsVal, digitVal_ofNat n h10]; simp
    · rw [digitsVal_append, ih (n / 10) (by omega)]
      simp only [digitsVal, digitVal_ofNat (n % 10) (Nat.mod_lt _ (by decide)), Option.bind_some, Option.some.injEq]
      omega

theorem parseNat_itoa (n : Nat) : parseNat (itoa n) = some n := by
  have h := digitsVal_itoaGo n n (Nat.le_refl n)
  have hne := itoaGo_ne_nil n n
  unfold itoa
  cases hs : itoaGo n n with
  | nil => exact absurd hs hne
  | cons c t => rw [hs] at h; exact h

theorem atoi_itoa (n : Nat) : atoi (itoa n) = some (n : Int) := by
  have hp := parseNat_itoa n
  have hd := itoa_digits n
  cases hs : itoa n with
  | nil => exact absurd hs (itoaGo_ne_nil n n)
  | cons c t =>
    rw [hs] at hp hd
    have hc := hd c (by simp)
    have h1 : c ≠ 45 := by rintro rfl; revert hc; decide
    have h2 : c ≠ 43 := by rintro rfl; revert hc; decide
    simp [atoi, h1, h2, hp]

theorem itoa_inj {m n : Nat} (h : itoa m = itoa n) : m = n := by
  have := parseNat_itoa m
  rw [h, parseNat_itoa] at this
  simpa using this.symm

theorem itoa_ne_star (n : Nat) : itoa n ≠ b!"*" := by
  intro h; have := itoa_digits n; rw [h] at this; exact absurd (this 42 (by simp)) (by decide)

theorem itoa_ne_dash (n : Nat) : itoa n ≠ b!"-" := by
  intro h; have := itoa_digits n; rw [h] at this; exact absurd (this 45 (by simp)) (by decide)

end Str

namespace Gabs
open Spec Str

/-! ### Dot paths -/

/-- gabs unescaping of one segment -/
def dec (s : Str) : Str := Str.replacer [(b!"~1", b!"."), (b!"~0", b!"~")] s

theorem dotPathToSlice_eq (p : Str) : dotPathToSlice p = (split 46 p).map dec := rfl

@[simp] theorem dec_nil : dec [] = [] := rfl

theorem dec_cons_ne (c : UInt8) (t : Str) (h : c ≠ 126) : dec (c :: t) = c :: dec t := by
  simp [dec, replacer, replacerGo, firstRule, hasPrefix, Ne.symm h]

theorem dec_10 (t : Str) : dec (126 :: 49 :: t) = 46 :: dec t := by
  simp [dec, replacer, replacerGo, firstRule, hasPrefix]

theorem dec_00 (t : Str) : dec (126 :: 48 :: t) = 126 :: dec t := by
  simp [dec, replacer, replacerGo, firstRule, hasPrefix]

theorem dec_tilde_other (t : Str) (h0 : t.head? ≠ some 48) (h1 : t.head? ≠ some 49) :
    dec (126 :: t) = 126 :: dec t := by
  cases t with
  | nil => rfl
  | cons c t =>
    have h0 : c ≠ 48 := by simpa using h0
    have h1 : c ≠ 49 := by simpa using h1
    simp [dec, replacer, replacerGo, firstRule, hasPrefix, Ne.symm h0, Ne.symm h1]

theorem dec_of_safe (s : Str)
    (h : ∀ i : Nat, s[i]? = some 126 → s[i+1]? ≠ some 48 ∧ s[i+1]? ≠ some 49) : dec s = s := by
  induction s with
  | nil => rfl
  | cons c t ih =>
    have ih := ih (fun i hi => by simpa using h (i+1) (by simpa using hi))
    by_cases hc : c = 126
    · subst hc
      have := h 0 (by simp)
      simp only [List.getElem?_cons_succ] at this
      rw [dec_tilde_other t (by rw [List.head?_eq_getElem?]; exact this.1)
        (by rw [List.head?_eq_getElem?]; exact this.2), ih]
    · rw [dec_cons_ne c t hc, ih]

theorem dec_of_no_tilde (s : Str) (h : (126 : UInt8) ∉ s) : dec s = s :=
  dec_of_safe s fun _ hi => absurd (List.mem_of_getElem? hi) h

theorem dotPathToSlice_join (xs : List Str) (hne : xs ≠ []) (h : ∀ x ∈ xs, (46 : UInt8) ∉ x)
    (hd : ∀ x ∈ xs, dec x = x) : dotPathToSlice (join 46 xs) = xs := by
  rw [dotPathToSlice_eq, split_join 46 xs hne h]
  induction xs with
  | nil => rfl
  | cons x r ih =>
    simp only [List.map_cons, hd x (by simp), List.cons.injEq, true_and]
    cases r with
    | nil => rfl
    | cons y r => exact ih (by simp) (fun z hz => h z (by simp_all)) (fun z hz => hd z (by simp_all))

theorem arrIndex_itoa {n len : Nat} (h : n < len) : arrIndex (itoa n) len = some n := by
  unfold arrIndex; rw [atoi_itoa]
  show (if n < len then some n else none) = some n
  rw [if_pos h]

theorem arrIndex_lt {s : Str} {n i : Nat} (h : arrIndex s n = some i) : i < n := by
  unfold arrIndex at h
  split at h
  · split at h
    · simp at h; omega
    · simp at h
  · simp at h

theorem arrIndex_atoi {s : Str} {n i : Nat} (h : arrIndex s n = some i) : atoi s = some (i : Int) := by
  unfold arrIndex at h
  split at h
  · rename_i j hj
    split at h
    · simp at h; subst h; exact hj
    · simp at h
  · simp at h

theorem arrIndex_star (n : Nat) : arrIndex b!"*" n = none := by
  unfold arrIndex
  rw [show atoi b!"*" = none from rfl]

/-! ### Set -/

/-- The common shape of one step of `Set`. -/
def goOn (v : Json) (f : Json → Json) (p : List Str) (c0 : Json) : Res Json :=
  match p with
  | [] => .ok (f v)
  | _ :: _ => match setGo v false p c0 with
    | .ok c => .ok (f c)
    | .err e => .err e
    | .panic => .panic

theorem setGo_obj (v : Json) (root : Bool) (s : Str) (p : List Str) (m : Obj) :
    setGo v root (s :: p) (.obj m) = goOn v (fun c => .obj (Obj.insert s c m)) p (fill (Obj.lookup s m)) := by
  cases p <;> rfl

theorem setGo_dash (v : Json) (p : List Str) (xs : List Json) :
    setGo v false (b!"-" :: p) (.arr xs) = goOn v (fun c => .arr (xs ++ [c])) p (.obj []) := by
  cases p <;> rfl

theorem setGo_dash_root (v : Json) (p : List Str) (xs : List Json) :
    setGo v true (b!"-" :: p) (.arr xs) = .err .outOfBounds := rfl

theorem setGo_arr_none (v : Json) (root : Bool) (s : Str) (p : List Str) (xs : List Json)
    (hd : s ≠ b!"-") (hi : arrIndex s xs.length = none) :
    setGo v root (s :: p) (.arr xs) = .err .outOfBounds := by
  simp only [setGo, hd, if_false, hi]

theorem setGo_arr_last (v : Json) (root : Bool) (s : Str) (xs : List Json) (i : Nat)
    (hd : s ≠ b!"-") (hi : arrIndex s xs.length = some i) :
    setGo v root [s] (.arr xs) = .ok (.arr (xs.set i v)) := by
  simp only [setGo, hd, if_false, hi]

theorem setGo_arr_null (v : Json) (root : Bool) (s t : Str) (p : List Str) (xs : List Json) (i : Nat)
    (hd : s ≠ b!"-") (hi : arrIndex s xs.length = some i) (hx : xs[i]? = some .null) :
    setGo v root (s :: t :: p) (.arr xs) = .err .notFound := by
  rw [setGo]; simp only [hd, if_false, hi, hx]

theorem setGo_arr_some (v : Json) (root : Bool) (s : Str) (p : List Str) (xs : List Json) (i : Nat) (c : Json)
    (hd : s ≠ b!"-") (hi : arrIndex s xs.length = some i) (hx : xs[i]? = some c) (hc : c ≠ .null) :
    setGo v root (s :: p) (.arr xs) = goOn v (fun c => .arr (xs.set i c)) p c := by
  cases p with
  | nil => exact setGo_arr_last v root s xs i hd hi
  | cons t p =>
    rw [setGo]; simp only [hd, if_false, hi, hx, goOn]
    cases c <;> first | exact absurd rfl hc | rfl

theorem setGo_scalar (v : Json) (root : Bool) (s : Str) (p : List Str) (j : Json) (h : scalar j = true) :
    setGo v root (s :: p) j = .err .collision := by
  cases j <;> simp_all [scalar, setGo]

theorem fill_some {c : Json} (h : c ≠ .null) : fill (some c) = c := by
  cases c <;> first | exact absurd rfl h | rfl

/-- What `Set` writes: one location holding the value, everything apart from it unchanged. -/
theorem setGo_spec (v : Json) (root : Bool) (p : List Str) (j j' : Json) (hp : p ≠ [])
    (h : setGo v root p j = .ok j') :
    ∃ W : Loc, DenotesAll p W ∧ getAt j' W = some v ∧
      ∀ L, Apart L W → getAt j' L = getAt j L := by
  induction p generalizing root j j' with
  | nil => exact absurd rfl hp
  | cons s p ih =>
    have key : ∀ (f : Json → Json) (st : Step) (c0 : Json), Denotes s st →
        (∀ c, child (f c) st = some c) →
        (∀ c st', st' ≠ st → child (f c) st' = child j st') →
        (∀ L, L ≠ [] → getAt c0 L = getAt j (st :: L)) →
        goOn v f p c0 = Res.ok j' →
        ∃ W : Loc, DenotesAll (s :: p) W ∧ getAt j' W = some v ∧
          ∀ L, Apart L W → getAt j' L = getAt j L := by
      intro f st c0 hden hself hother hc0 heq
      -- outcome of the recursive part
      have sub : ∃ c W', j' = f c ∧ DenotesAll p W' ∧ getAt c W' = some v ∧
          ∀ L, Apart L W' → getAt c L = getAt j (st :: L) := by
        cases p with
        | nil =>
          simp [goOn] at heq
          refine ⟨v, [], heq.symm, trivial, rfl, ?_⟩
          intro L hL
          exact absurd (List.nil_prefix) hL.2
        | cons t p =>
          simp only [goOn] at heq
          cases hs : setGo v false (t :: p) c0 with
          | ok c =>
            rw [hs] at heq
            simp at heq
            obtain ⟨W', hW, hg, hfr⟩ := ih false c0 c (by simp) hs
            refine ⟨c, W', heq.symm, hW, hg, ?_⟩
            intro L hL
            have hne : L ≠ [] := by rintro rfl; exact hL.1 List.nil_prefix
            rw [hfr L hL, hc0 L hne]
          | err e => rw [hs] at heq; simp at heq
          | panic => rw [hs] at heq; simp at heq
      obtain ⟨c, W', rfl, hW, hg, hfr⟩ := sub
      refine ⟨st :: W', ⟨hden, hW⟩, by simp [getAt, hself, hg], ?_⟩
      intro L hL
      cases L with
      | nil => exact absurd List.nil_prefix hL.1
      | cons st' L =>
        by_cases e : st' = st
        · subst e
          have : Apart L W' := by
            constructor
            · intro h; exact hL.1 ((List.cons_prefix_cons).2 ⟨rfl, h⟩)
            · intro h; exact hL.2 ((List.cons_prefix_cons).2 ⟨rfl, h⟩)
          rw [← hfr L this]; simp only [getAt, hself]
        · simp only [getAt, hother c st' e]
    cases j with
    | obj m =>
      refine key (fun c => .obj (Obj.insert s c m)) (.key s) (fill (Obj.lookup s m)) rfl
        (by simp [child]) ?_ ?_ ?_
      · intro c st' hst
        cases st' with
        | key k => simp only [child]; exact Obj.lookup_insert_ne c m (fun e => hst (by rw [e]))
        | idx n => rfl
      · intro L hL
        have e0 : getAt (.obj []) L = none := by
          cases L with
          | nil => exact absurd rfl hL
          | cons st L => cases st <;> simp [getAt, child]
        have e1 : getAt .null L = none := by
          cases L with
          | nil => exact absurd rfl hL
          | cons st L => cases st <;> simp [getAt, child]
        simp only [getAt, child]
        cases hl : Obj.lookup s m with
        | none => exact e0
        | some c => cases c <;> simp [fill, e0, e1]
      · rw [← h, setGo_obj]
    | arr xs =>
      by_cases hd : s = b!"-"
      · refine key (fun c => .arr (xs ++ [c])) (.idx xs.length) (.obj []) (Or.inr hd) (by simp [child]) ?_ ?_ ?_
        · intro c st' hst
          cases st' with
          | key k => rfl
          | idx n =>
            have : n ≠ xs.length := fun e => hst (by rw [e])
            simp only [child]
            rcases Nat.lt_or_ge n xs.length with hlt | hge
            · rw [List.getElem?_append_left hlt]
            · rw [List.getElem?_eq_none (by simp; omega), List.getElem?_eq_none hge]
        · intro L hL
          have : child (.arr xs) (.idx xs.length) = none := by simp [child]
          rw [getAt, this]
          cases L with
          | nil => exact absurd rfl hL
          | cons st L => cases st <;> simp [getAt, child]
        · subst hd
          cases root
          · rw [setGo_dash] at h; exact h
          · rw [setGo_dash_root] at h; cases h
      · cases hi : arrIndex s xs.length with
        | none => rw [setGo_arr_none v root s p xs hd hi] at h; cases h
        | some i =>
          have hlt := arrIndex_lt hi
          have hx : xs[i]? = some xs[i] := List.getElem?_eq_getElem hlt
          refine key (fun c => .arr (xs.set i c)) (.idx i) xs[i] (Or.inl (arrIndex_atoi hi)) ?_ ?_ ?_ ?_
          · intro c; simp [child, hlt]
          · intro c st' hst
            cases st' with
            | key k => rfl
            | idx n =>
              have : i ≠ n := fun e => hst (by rw [e])
              simp [child, this]
          · intro L hL; simp [getAt, child, hx]
          · cases p with
            | nil => rw [setGo_arr_last v root s xs i hd hi] at h; exact h
            | cons t p =>
              by_cases hn : xs[i] = .null
              · rw [setGo_arr_null v root s t p xs i hd hi (hn ▸ hx)] at h; cases h
              · rw [setGo_arr_some v root s _ xs i _ hd hi hx hn] at h; exact h
    | null => simp [setGo] at h
    | bool b => simp [setGo] at h
    | num n => simp [setGo] at h
    | str t => simp [setGo] at h

end Gabs
end Oapi
