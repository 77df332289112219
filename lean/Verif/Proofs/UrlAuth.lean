import Verif.Proofs.HostName

/-! Authorities: escaping and reading back user information and hosts; URLs read back from their print. -/
namespace Oapi.Url
open Oapi Spec

/-! ### One escaped byte -/

/-- How one byte is written. -/
def enc (m : Mode) (c : UInt8) : Str := if shouldEscape m c then [37, hexDigit (c.toNat / 16), hexDigit (c.toNat % 16)] else [c]

theorem escape_cons (m : Mode) (c : UInt8) (t : Str) : escape m (c :: t) = enc m c ++ escape m t := rfl
theorem escape_append (m : Mode) (s t : Str) : escape m (s ++ t) = escape m s ++ escape m t := List.flatMap_append

set_option maxRecDepth 8000 in
theorem hex_facts (c : UInt8) : hexVal (hexDigit (c.toNat / 16)) = some (c.toNat / 16) ∧
    hexVal (hexDigit (c.toNat % 16)) = some (c.toNat % 16) ∧ UInt8.ofNat (c.toNat / 16 * 16 + c.toNat % 16) = c ∧
    ((c.toNat / 16 = 2 ∧ hexDigit (c.toNat % 16) = 53) ↔ c = 37) ∧ (c.toNat / 16 < 8 ↔ c < 128) := by
  refine all_bytes (P := fun c => hexVal (hexDigit (c.toNat / 16)) = some (c.toNat / 16) ∧
    hexVal (hexDigit (c.toNat % 16)) = some (c.toNat % 16) ∧ UInt8.ofNat (c.toNat / 16 * 16 + c.toNat % 16) = c ∧
    ((c.toNat / 16 = 2 ∧ hexDigit (c.toNat % 16) = 53) ↔ c = 37) ∧ (c.toNat / 16 < 8 ↔ c < 128)) ?_ c
  decide

theorem esc37 (m : Mode) : shouldEscape m 37 = true := by cases m <;> decide

set_option maxRecDepth 8000 in
/-- The bytes with which an escaped byte is written. -/
theorem enc_bytes (c : UInt8) : ∀ x ∈ [37, hexDigit (c.toNat / 16), hexDigit (c.toNat % 16)],
    x = 37 ∨ (48 ≤ x ∧ x ≤ 57) ∨ (65 ≤ x ∧ x ≤ 70) := by
  refine all_bytes (P := fun c => ∀ x ∈ [37, hexDigit (c.toNat / 16), hexDigit (c.toNat % 16)],
    x = 37 ∨ (48 ≤ x ∧ x ≤ 57) ∨ (65 ≤ x ∧ x ≤ 70)) ?_ c
  decide

theorem escape_bytes {m : Mode} {s : Str} {x : UInt8} (h : x ∈ escape m s) :
    (x ∈ s ∧ shouldEscape m x = false) ∨ x = 37 ∨ (48 ≤ x ∧ x ≤ 57) ∨ (65 ≤ x ∧ x ≤ 70) := by
  unfold escape at h
  obtain ⟨c, hc, hx⟩ := List.mem_flatMap.1 h
  split at hx
  · exact .inr (enc_bytes c x hx)
  · rename_i hs
    simp only [List.mem_singleton] at hx
    subst hx
    exact .inl ⟨hc, by simpa using hs⟩

/-- May a byte written in mode `m'` be read in mode `m`? -/
def Readable (m m' : Mode) (c : UInt8) : Prop :=
  (shouldEscape m' c = true → m = .host → c = 37 ∨ 128 ≤ c) ∧
  (shouldEscape m' c = true → m = .zone → c = 37 ∨ c = 32 ∨ shouldEscape .host c = false) ∧
  (shouldEscape m' c = false → m = .host ∨ m = .zone → c < 128 → shouldEscape m c = false)

theorem unescape_other {m : Mode} {c : UInt8} {t : Str} (hc : c ≠ 37)
    (h : ¬ ((m = .host ∨ m = .zone) ∧ c < 128 ∧ shouldEscape m c = true)) : unescape m (c :: t) = (unescape m t).map (c :: ·) := by
  generalize hu : (unescape m t).map (c :: ·) = r
  unfold unescape
  rw [if_neg hc, if_neg h, hu]

theorem unescape_enc {m m' : Mode} {c : UInt8} (hr : Readable m m' c) (t : Str) :
    unescape m (enc m' c ++ t) = (unescape m t).map (c :: ·) := by
  unfold enc
  by_cases hs : shouldEscape m' c = true
  · rw [if_pos hs]
    simp only [List.cons_append, List.nil_append]
    obtain ⟨e1, e2, e3, e4, e5⟩ := hex_facts c
    rw [unescape]
    simp only [if_true, e1, e2, e3, e4, e5]
    rw [if_neg, if_neg]
    · rintro ⟨h1, h2, h3, h4⟩
      rcases hr.2.1 hs h1 with h | h | h
      · exact h2 h
      · exact h3 h
      · rw [h] at h4; cases h4
    · rintro ⟨h1, h2, h3⟩
      rcases hr.1 hs h1 with h | h
      · exact h3 h
      · exact absurd h2 (UInt8.not_lt.2 h)
  · rw [if_neg hs]
    have hs' : shouldEscape m' c = false := by simpa using hs
    simp only [List.cons_append, List.nil_append]
    rw [unescape_other]
    · rintro rfl
      rw [esc37] at hs'; cases hs'
    · rintro ⟨h1, h2, h3⟩
      rw [hr.2.2 hs' h1 h2] at h3; cases h3

/-- What is escaped reads back. -/
theorem unescape_escape {m m' : Mode} {s : Str} (hr : ∀ c ∈ s, Readable m m' c) : unescape m (escape m' s) = some s := by
  induction s with
  | nil => rfl
  | cons c t ih =>
    rw [escape_cons, unescape_enc (hr c (by simp)), ih fun x hx => hr x (by simp [hx])]
    rfl

/-- One step of reading. -/
theorem unescape_cons_inv {m : Mode} {c : UInt8} {t h : Str} (e : unescape m (c :: t) = some h) :
    (∃ a b t' x y r, c = 37 ∧ t = a :: b :: t' ∧ hexVal a = some x ∧ hexVal b = some y ∧ unescape m t' = some r ∧
      h = UInt8.ofNat (x * 16 + y) :: r ∧ ¬ (m = .host ∧ x < 8 ∧ ¬ (x = 2 ∧ b = 53)) ∧
      ¬ (m = .zone ∧ ¬ (x = 2 ∧ b = 53) ∧ UInt8.ofNat (x * 16 + y) ≠ 32 ∧ shouldEscape .host (UInt8.ofNat (x * 16 + y)) = true)) ∨
    (∃ r, c ≠ 37 ∧ unescape m t = some r ∧ h = c :: r ∧ ¬ ((m = .host ∨ m = .zone) ∧ c < 128 ∧ shouldEscape m c = true)) := by
  unfold unescape at e
  split at e
  · rename_i hc
    split at e
    · rename_i a b t'
      split at e
      · rename_i x y hx hy
        split at e
        · cases e
        · rename_i h1
          split at e
          · cases e
          · rename_i h2
            cases hu : unescape m t' with
            | none => rw [hu] at e; cases e
            | some r =>
              rw [hu] at e
              injection e with e
              exact .inl ⟨a, b, t', x, y, r, hc, rfl, hx, hy, hu, e.symm, h1, h2⟩
      · cases e
    · cases e
  · rename_i hc
    split at e
    · cases e
    · rename_i h1
      cases hu : unescape m t with
      | none => rw [hu] at e; cases e
      | some r =>
        rw [hu] at e
        injection e with e
        exact .inr ⟨r, hc, rfl, e.symm, h1⟩

/-- Strong induction on what can be read. -/
theorem unescape_induct {m : Mode} {P : Str → Str → Prop} (h0 : P [] [])
    (h1 : ∀ a b t' x y r, hexVal a = some x → hexVal b = some y → unescape m t' = some r →
      ¬ (m = .host ∧ x < 8 ∧ ¬ (x = 2 ∧ b = 53)) →
      ¬ (m = .zone ∧ ¬ (x = 2 ∧ b = 53) ∧ UInt8.ofNat (x * 16 + y) ≠ 32 ∧ shouldEscape .host (UInt8.ofNat (x * 16 + y)) = true) →
      P t' r → P (37 :: a :: b :: t') (UInt8.ofNat (x * 16 + y) :: r))
    (h2 : ∀ c t r, c ≠ 37 → unescape m t = some r → ¬ ((m = .host ∨ m = .zone) ∧ c < 128 ∧ shouldEscape m c = true) →
      P t r → P (c :: t) (c :: r)) :
    ∀ (n : Nat) (s h : Str), s.length ≤ n → unescape m s = some h → P s h := by
  intro n
  induction n with
  | zero =>
    intro s h hl e
    cases s with
    | nil => cases e; exact h0
    | cons c t => simp at hl
  | succ n ih =>
    intro s h hl e
    cases s with
    | nil => cases e; exact h0
    | cons c t =>
      rcases unescape_cons_inv e with ⟨a, b, t', x, y, r, rfl, rfl, hx, hy, hu, rfl, k1, k2⟩ | ⟨r, hc, hu, rfl, k1⟩
      · exact h1 a b t' x y r hx hy hu k1 k2 (ih _ _ (by simp at hl; omega) hu)
      · exact h2 c t r hc hu k1 (ih _ _ (by simp at hl; omega) hu)

theorem unescape_ind {m : Mode} {P : Str → Str → Prop} {s h : Str} (e : unescape m s = some h) (h0 : P [] [])
    (h1 : ∀ a b t' x y r, hexVal a = some x → hexVal b = some y → unescape m t' = some r →
      ¬ (m = .host ∧ x < 8 ∧ ¬ (x = 2 ∧ b = 53)) →
      ¬ (m = .zone ∧ ¬ (x = 2 ∧ b = 53) ∧ UInt8.ofNat (x * 16 + y) ≠ 32 ∧ shouldEscape .host (UInt8.ofNat (x * 16 + y)) = true) →
      P t' r → P (37 :: a :: b :: t') (UInt8.ofNat (x * 16 + y) :: r))
    (h2 : ∀ c t r, c ≠ 37 → unescape m t = some r → ¬ ((m = .host ∨ m = .zone) ∧ c < 128 ∧ shouldEscape m c = true) →
      P t r → P (c :: t) (c :: r)) : P s h :=
  unescape_induct h0 h1 h2 s.length s h (Nat.le_refl _) e

/-- Reading goes on after what has been read. -/
theorem unescape_append {m : Mode} {s h : Str} (e : unescape m s = some h) (t : Str) :
    unescape m (s ++ t) = (unescape m t).map (h ++ ·) := by
  refine unescape_ind (P := fun s h => unescape m (s ++ t) = (unescape m t).map (h ++ ·)) e ?_ ?_ ?_
  · simp
  · intro a b t' x y r hx hy hu k1 k2 ih
    simp only [List.cons_append]
    rw [unescape]
    simp only [if_true, hx, hy]
    rw [if_neg k1, if_neg k2, ih]
    cases unescape m t <;> rfl
  · intro c t' r hc hu k1 ih
    simp only [List.cons_append]
    rw [unescape_other hc k1, ih]
    cases unescape m t <;> rfl

/-- A byte that is neither '%' nor a hexadecimal digit separates what is read. -/
theorem unescape_split {m : Mode} {d : UInt8} (hd : d ≠ 37) (hx : hexVal d = none) {y : Str} : ∀ (n : Nat) (x h : Str), x.length ≤ n →
    unescape m (x ++ d :: y) = some h → ∃ a b, unescape m x = some a ∧ unescape m (d :: y) = some b ∧ h = a ++ b := by
  intro n
  induction n with
  | zero =>
    intro x h hl e
    cases x with
    | nil => exact ⟨[], h, rfl, e, rfl⟩
    | cons c t => simp at hl
  | succ n ih =>
    intro x h hl e
    cases x with
    | nil => exact ⟨[], h, rfl, e, rfl⟩
    | cons c t =>
      rw [List.cons_append] at e
      rcases unescape_cons_inv e with ⟨a, b, t', x, y', r, rfl, et, hx1, hy1, hu, rfl, k1, k2⟩ | ⟨r, hc, hu, rfl, k1⟩
      · cases t with
        | nil =>
          simp only [List.nil_append, List.cons.injEq] at et
          rw [← et.1, hx] at hx1; cases hx1
        | cons a' t =>
          cases t with
          | nil =>
            simp only [List.cons_append, List.nil_append, List.cons.injEq] at et
            rw [← et.2.1, hx] at hy1; cases hy1
          | cons b' t =>
            simp only [List.cons_append, List.cons.injEq] at et
            obtain ⟨rfl, rfl, rfl⟩ := et
            obtain ⟨p, q, e1, e2, rfl⟩ := ih t r (by simp at hl; omega) hu
            refine ⟨UInt8.ofNat (x * 16 + y') :: p, q, ?_, e2, rfl⟩
            rw [unescape]
            simp only [if_true, hx1, hy1]
            rw [if_neg k1, if_neg k2, e1]; rfl
      · obtain ⟨p, q, e1, e2, rfl⟩ := ih t r (by simp at hl; omega) hu
        refine ⟨c :: p, q, ?_, e2, rfl⟩
        rw [unescape_other hc k1, e1]; rfl

theorem unescape_nil_iff {m : Mode} {s : Str} (h : unescape m s = some []) : s = [] := by
  cases s with
  | nil => rfl
  | cons c t =>
    rcases unescape_cons_inv h with ⟨a, b, t', x, y, r, _, _, _, _, _, e, _⟩ | ⟨r, _, _, e, _⟩ <;> cases e

/-! ### Cutting -/

theorem cutLast_none {c : UInt8} {s : Str} : cutLast c s = none ↔ c ∉ s := by
  induction s with
  | nil => simp [cutLast]
  | cons x t ih =>
    rw [cutLast]
    cases h : cutLast c t with
    | none =>
      have := ih.1 h
      by_cases hx : x = c
      · simp [hx]
      · simp only [hx, if_false, List.mem_cons, this, or_false, true_iff]
        exact fun e => hx e.symm
    | some r =>
      have : c ∈ t := by
        by_cases hm : c ∈ t
        · exact hm
        · rw [ih.2 hm] at h; cases h
      simp [this]

theorem cutLast_some {c : UInt8} (a : Str) {b : Str} (hb : c ∉ b) : cutLast c (a ++ c :: b) = some (a, b) := by
  induction a with
  | nil => rw [List.nil_append, cutLast, cutLast_none.2 hb]; simp
  | cons x t ih => rw [List.cons_append, cutLast, ih]

theorem cutLast_inv {c : UInt8} {s a b : Str} (h : cutLast c s = some (a, b)) : s = a ++ c :: b ∧ c ∉ b := by
  induction s generalizing a b with
  | nil => cases h
  | cons x t ih =>
    rw [cutLast] at h
    cases ht : cutLast c t with
    | none =>
      rw [ht] at h
      simp only at h
      split at h
      · rename_i hx
        simp only [Option.some.injEq, Prod.mk.injEq] at h
        obtain ⟨rfl, rfl⟩ := h
        exact ⟨by rw [hx]; rfl, cutLast_none.1 ht⟩
      · cases h
    | some r =>
      obtain ⟨a', b'⟩ := r
      rw [ht] at h
      simp only [Option.some.injEq, Prod.mk.injEq] at h
      obtain ⟨rfl, rfl⟩ := h
      obtain ⟨e, hb⟩ := ih ht
      exact ⟨by rw [e]; rfl, hb⟩

theorem zone_pre (x : UInt8) (t : Str) : Str.hasPrefix (x :: t) b!"%25" = true ↔ ∃ t', x = 37 ∧ t = 50 :: 53 :: t' := by
  unfold Str.hasPrefix
  rw [List.isPrefixOf_iff_prefix]
  constructor
  · rintro ⟨w, hw⟩
    simp only [List.cons_append, List.nil_append, List.cons.injEq] at hw
    exact ⟨w, hw.1.symm, hw.2.symm⟩
  · rintro ⟨t', rfl, rfl⟩
    exact ⟨t', rfl⟩

theorem cutZone_inv {s a z : Str} (h : cutZone s = some (a, z)) : s = a ++ z ∧ (∃ w, z = 37 :: 50 :: 53 :: w) ∧ cutZone a = none := by
  induction s generalizing a z with
  | nil => cases h
  | cons x t ih =>
    rw [cutZone] at h
    split at h
    · rename_i hp
      simp only [Option.some.injEq, Prod.mk.injEq] at h
      obtain ⟨rfl, rfl⟩ := h
      obtain ⟨t', rfl, rfl⟩ := (zone_pre x t).1 hp
      exact ⟨rfl, ⟨t', rfl⟩, rfl⟩
    · rename_i hp
      cases ht : cutZone t with
      | none => rw [ht] at h; cases h
      | some r =>
        obtain ⟨a', z'⟩ := r
        rw [ht] at h
        simp only [Option.some.injEq, Prod.mk.injEq] at h
        obtain ⟨rfl, rfl⟩ := h
        obtain ⟨e, hw, hn⟩ := ih ht
        refine ⟨by rw [e]; rfl, hw, ?_⟩
        rw [cutZone, if_neg, hn]
        intro hp'
        apply hp
        obtain ⟨t', hx, ha⟩ := (zone_pre x a').1 hp'
        exact (zone_pre x t).2 ⟨t' ++ z', hx, by rw [e, ha]; rfl⟩

theorem cutZone_cons_none {x : UInt8} {t : Str} (h : cutZone (x :: t) = none) :
    cutZone t = none ∧ ¬ ∃ t', x = 37 ∧ t = 50 :: 53 :: t' := by
  rw [cutZone] at h
  split at h
  · cases h
  · rename_i hp
    refine ⟨?_, fun e => hp ((zone_pre x t).2 e)⟩
    cases ht : cutZone t with
    | none => rfl
    | some r => rw [ht] at h; cases h

theorem cutZone_skip {x : UInt8} {t : Str} (h : ¬ ∃ t', x = 37 ∧ t = 50 :: 53 :: t') :
    cutZone (x :: t) = (cutZone t).map fun r => (x :: r.1, r.2) := by
  rw [cutZone, if_neg fun e => h ((zone_pre x t).1 e)]
  cases cutZone t <;> rfl

set_option maxRecDepth 8000 in
theorem hex_zone (c : UInt8) : c ≠ 37 → ¬ (hexDigit (c.toNat / 16) = 50 ∧ hexDigit (c.toNat % 16) = 53) ∧
    hexDigit (c.toNat / 16) ≠ 37 ∧ hexDigit (c.toNat % 16) ≠ 37 := by
  refine all_bytes (P := fun c => c ≠ 37 → ¬ (hexDigit (c.toNat / 16) = 50 ∧ hexDigit (c.toNat % 16) = 53) ∧
    hexDigit (c.toNat / 16) ≠ 37 ∧ hexDigit (c.toNat % 16) ≠ 37) ?_ c
  decide

/-- A host text without '%' is written without "%25". -/
theorem cutZone_escape {u : Str} (h : (37 : UInt8) ∉ u) (w : Str) :
    cutZone (escape .host u ++ w) = (cutZone w).map fun r => (escape .host u ++ r.1, r.2) := by
  induction u with
  | nil =>
    change cutZone w = _
    cases cutZone w <;> rfl
  | cons c t ih =>
    simp only [List.mem_cons, not_or] at h
    have hc : c ≠ 37 := fun e => h.1 e.symm
    rw [escape_cons, enc]
    split
    · obtain ⟨h1, h2, h3⟩ := hex_zone c hc
      simp only [List.cons_append, List.nil_append]
      rw [cutZone_skip, cutZone_skip (fun ⟨_, e, _⟩ => h2 e), cutZone_skip (fun ⟨_, e, _⟩ => h3 e), ih h.2]
      · cases cutZone w <;> rfl
      · rintro ⟨t', _, e⟩
        simp only [List.cons.injEq] at e
        exact h1 ⟨e.1, e.2.1⟩
    · simp only [List.cons_append, List.nil_append]
      rw [cutZone_skip (fun ⟨_, e, _⟩ => hc e), ih h.2]
      cases cutZone w <;> rfl

/-! ### Bytes read from hosts -/

set_option maxRecDepth 8000 in
theorem hexVal_facts (a : UInt8) : (hexVal a).all (fun x => decide (x < 16) && (decide (x ≠ 2) || a == 50)) = true := by
  refine all_bytes (P := fun a => (hexVal a).all (fun x => decide (x < 16) && (decide (x ≠ 2) || a == 50)) = true) ?_ a
  decide

theorem hexVal_lt {a : UInt8} {x : Nat} (h : hexVal a = some x) : x < 16 ∧ (x = 2 → a = 50) := by
  have := hexVal_facts a
  rw [h] at this
  simp only [Option.all_some, Bool.and_eq_true, Bool.or_eq_true, decide_eq_true_eq, beq_iff_eq] at this
  refine ⟨this.1, fun e => ?_⟩
  rcases this.2 with h | h
  · exact absurd e h
  · exact h

theorem hexVal_53 : hexVal 53 = some 5 := by decide

theorem high_byte {x y : Nat} (hx : x < 16) (hx8 : 8 ≤ x) (hy : y < 16) : (128 : UInt8) ≤ UInt8.ofNat (x * 16 + y) := by
  rw [UInt8.le_iff_toNat_le]
  rw [UInt8.toNat_ofNat_of_lt' (show x * 16 + y < 256 by omega)]
  change 128 ≤ _
  omega

theorem host_mem {s h : Str} (e : unescape .host s = some h) :
    ∀ c ∈ h, (c ∈ s ∧ c < 128 ∧ shouldEscape .host c = false) ∨ (c = 37 ∧ cutZone s ≠ none) ∨ 128 ≤ c := by
  refine unescape_ind (P := fun s h => ∀ c ∈ h, (c ∈ s ∧ c < 128 ∧ shouldEscape .host c = false) ∨ (c = 37 ∧ cutZone s ≠ none) ∨ 128 ≤ c) e ?_ ?_ ?_
  · simp
  · intro a b t' x y r hx hy _ k1 _ ih c hc
    rcases List.mem_cons.1 hc with rfl | hc
    · by_cases h8 : x < 8
      · have h2 : x = 2 ∧ b = 53 := Classical.byContradiction fun hn => k1 ⟨rfl, h8, hn⟩
        obtain ⟨rfl, rfl⟩ := h2
        rw [hexVal_53] at hy
        cases hy
        have ha := (hexVal_lt hx).2 rfl
        subst ha
        refine .inr (.inl ⟨by decide, ?_⟩)
        rw [cutZone, if_pos ((zone_pre _ _).2 ⟨t', rfl, rfl⟩)]
        simp
      · exact .inr (.inr (high_byte (hexVal_lt hx).1 (by omega) (hexVal_lt hy).1))
    · rcases ih c hc with ⟨h1, h2⟩ | ⟨h1, h2⟩ | h1
      · exact .inl ⟨by simp [h1], h2⟩
      · refine .inr (.inl ⟨h1, fun hn => h2 ?_⟩)
        exact (cutZone_cons_none (cutZone_cons_none (cutZone_cons_none hn).1).1).1
      · exact .inr (.inr h1)
  · intro c t r hc _ k1 ih d hd
    rcases List.mem_cons.1 hd with rfl | hd
    · by_cases h128 : d < 128
      · refine .inl ⟨by simp, h128, ?_⟩
        cases hs : shouldEscape .host d with
        | false => rfl
        | true => exact absurd ⟨.inl rfl, h128, hs⟩ k1
      · exact .inr (.inr (UInt8.not_lt.1 h128))
    · rcases ih d hd with ⟨h1, h2⟩ | ⟨h1, h2⟩ | h1
      · exact .inl ⟨by simp [h1], h2⟩
      · exact .inr (.inl ⟨h1, fun hn => h2 (cutZone_cons_none hn).1⟩)
      · exact .inr (.inr h1)

set_option maxRecDepth 8000 in
theorem zone_host (c : UInt8) : shouldEscape .zone c = shouldEscape .host c := by
  refine all_bytes (P := fun c => shouldEscape .zone c = shouldEscape .host c) ?_ c
  decide

theorem zone_mem {s h : Str} (hs : ∀ c ∈ s, c < 128) (e : unescape .zone s = some h) :
    ∀ c ∈ h, c = 37 ∨ c = 32 ∨ shouldEscape .host c = false := by
  refine unescape_ind (P := fun s h => (∀ c ∈ s, c < 128) → ∀ c ∈ h, c = 37 ∨ c = 32 ∨ shouldEscape .host c = false) e ?_ ?_ ?_ hs
  · simp
  · intro a b t' x y r hx hy _ _ k2 ih hs c hc
    rcases List.mem_cons.1 hc with rfl | hc
    · by_cases h1 : x = 2 ∧ b = 53
      · obtain ⟨rfl, rfl⟩ := h1
        rw [hexVal_53] at hy
        cases hy
        exact .inl (by decide)
      · by_cases h2 : UInt8.ofNat (x * 16 + y) = 32
        · exact .inr (.inl h2)
        · cases h3 : shouldEscape .host (UInt8.ofNat (x * 16 + y)) with
          | false => exact .inr (.inr rfl)
          | true => exact absurd ⟨rfl, h1, h2, h3⟩ k2
    · exact ih (fun c hc => hs c (by simp [hc])) c hc
  · intro c t r hc _ k1 ih hs d hd
    rcases List.mem_cons.1 hd with rfl | hd
    · refine .inr (.inr ?_)
      cases h3 : shouldEscape .host d with
      | false => rfl
      | true => exact absurd ⟨.inr rfl, hs d (by simp), by rw [zone_host]; exact h3⟩ k1
    · exact ih (fun c hc => hs c (by simp [hc])) d hd

/-! ### Hosts -/

theorem host_readable {s h : Str} (e : unescape .host s = some h) : ∀ c ∈ h, Readable .host .host c := by
  intro c hc
  refine ⟨fun hs _ => ?_, fun _ h => (by cases h), fun hs _ _ => hs⟩
  rcases host_mem e c hc with ⟨_, _, h⟩ | ⟨h, _⟩ | h
  · rw [h] at hs; cases hs
  · exact .inl h
  · exact .inr h

theorem zone_readable {s h : Str} (hs : ∀ c ∈ s, c < 128) (e : unescape .zone s = some h) : ∀ c ∈ h, Readable .zone .host c :=
  fun c hc => ⟨fun _ h => (by cases h), fun _ _ => zone_mem hs e c hc, fun hs _ _ => by rw [zone_host]; exact hs⟩

theorem port_bytes {p : Str} (h : validOptionalPort p = true) : ∀ c ∈ p, c = 58 ∨ 48 ≤ c ∧ c ≤ 57 := by
  intro c hc
  cases p with
  | nil => cases hc
  | cons x t =>
    simp only [validOptionalPort, Bool.and_eq_true, beq_iff_eq, List.all_eq_true] at h
    rcases List.mem_cons.1 hc with rfl | hc
    · exact .inl h.1
    · exact .inr (digit_iff.1 (h.2 c hc))

set_option maxRecDepth 8000 in
theorem port_facts (c : UInt8) : (c = 93 ∨ c = 58 ∨ 48 ≤ c ∧ c ≤ 57) → c ≠ 37 ∧ shouldEscape .host c = false := by
  refine all_bytes (P := fun c => (c = 93 ∨ c = 58 ∨ 48 ≤ c ∧ c ≤ 57) → c ≠ 37 ∧ shouldEscape .host c = false) ?_ c
  decide

/-- Ports, and the bracket before them, are written and read as they are. -/
theorem port_id {p : Str} (h : ∀ c ∈ p, c = 93 ∨ c = 58 ∨ 48 ≤ c ∧ c ≤ 57) : unescape .host p = some p ∧ escape .host p = p :=
  ⟨unescape_id (fun hm => (port_facts _ (h _ hm)).1 rfl) fun _ c hc => (port_facts c (h c hc)).2,
    escape_id fun c hc => (port_facts c (h c hc)).2⟩

set_option maxRecDepth 8000 in
/-- What can stand in a printed host. -/
theorem host_bytes (c : UInt8) : (shouldEscape .host c = false ∨ c = 37 ∨ (48 ≤ c ∧ c ≤ 57) ∨ (65 ≤ c ∧ c ≤ 70)) →
    c ≠ 35 ∧ c ≠ 47 ∧ c ≠ 63 ∧ c ≠ 64 ∧ ¬ c < 32 ∧ c ≠ 127 := by
  refine all_bytes (P := fun c => (shouldEscape .host c = false ∨ c = 37 ∨ (48 ≤ c ∧ c ≤ 57) ∨ (65 ≤ c ∧ c ≤ 70)) →
    c ≠ 35 ∧ c ≠ 47 ∧ c ≠ 63 ∧ c ≠ 64 ∧ ¬ c < 32 ∧ c ≠ 127) ?_ c
  decide

theorem escape_host_bytes {h : Str} : ∀ c ∈ escape .host h, c ≠ 35 ∧ c ≠ 47 ∧ c ≠ 63 ∧ c ≠ 64 ∧ ¬ c < 32 ∧ c ≠ 127 := by
  intro c hc
  apply host_bytes
  rcases escape_bytes hc with ⟨_, h⟩ | h
  · exact .inl h
  · exact .inr h

theorem unescape_head {m : Mode} {c : UInt8} {t h : Str} (hc : c ≠ 37) (e : unescape m (c :: t) = some h) : ∃ r, h = c :: r := by
  rcases unescape_cons_inv e with ⟨a, b, t', x, y, r, rfl, _⟩ | ⟨r, _, _, rfl, _⟩
  · exact absurd rfl hc
  · exact ⟨r, rfl⟩

theorem escape_host_bracket (t : Str) : (escape .host (91 :: t)).head? = some 91 := by
  rw [escape_cons, show enc .host 91 = [91] from by decide]; rfl

/-- A host text that does not begin with a bracket is written so. -/
theorem escape_no_bracket {a h : Str} (ha : a.head? ≠ some 91) (e : unescape .host a = some h) : (escape .host h).head? ≠ some 91 := by
  intro hb
  cases a with
  | nil => cases e; cases hb
  | cons c t =>
    rcases unescape_cons_inv e with ⟨p, q, t', x, y, r, rfl, rfl, hx, hy, _, rfl, k1, _⟩ | ⟨r, hc, _, rfl, _⟩
    · have hm : UInt8.ofNat (x * 16 + y) = 37 ∨ 128 ≤ UInt8.ofNat (x * 16 + y) := by
        by_cases h8 : x < 8
        · obtain ⟨rfl, rfl⟩ : x = 2 ∧ q = 53 := Classical.byContradiction fun hn => k1 ⟨rfl, h8, hn⟩
          rw [hexVal_53] at hy
          cases hy
          exact .inl (by decide)
        · exact .inr (high_byte (hexVal_lt hx).1 (by omega) (hexVal_lt hy).1)
      have hf : ∀ c : UInt8, (c = 37 ∨ 128 ≤ c) → (enc .host c).head? = some 37 := by
        intro c hc
        have : shouldEscape .host c = true := by
          revert c
          exact all_bytes (P := fun c => (c = 37 ∨ 128 ≤ c) → shouldEscape .host c = true) (by decide +kernel)
        rw [enc, if_pos this]; rfl
      have := hf _ hm
      rw [escape_cons] at hb
      cases he : enc .host (UInt8.ofNat (x * 16 + y)) with
      | nil => rw [he] at this; cases this
      | cons p q =>
        rw [he] at this hb
        cases this
        cases hb
    · rw [escape_cons, enc] at hb
      split at hb
      · cases hb
      · exact ha hb

/-- A host reads back from its print. -/
theorem parseHost_back {a h : Str} (ha : ∀ c ∈ a, c < 128) (e : parseHost a = some h) : parseHost (escape .host h) = some h := by
  unfold parseHost at e
  split at e
  · rename_i hb
    split at e
    · cases e
    · rename_i pre port hcut
      obtain ⟨rfl, h93⟩ := cutLast_inv hcut
      split at e
      · rename_i hport
        have hpb : ∀ c ∈ (93 :: port : Str), c = 93 ∨ c = 58 ∨ 48 ≤ c ∧ c ≤ 57 := by
          intro c hc
          rcases List.mem_cons.1 hc with rfl | hc
          · exact .inl rfl
          · exact .inr (port_bytes hport c hc)
        obtain ⟨pu, pe⟩ := port_id hpb
        obtain ⟨pre', rfl⟩ : ∃ pre', pre = 91 :: pre' := by
          cases pre with
          | nil => cases hb
          | cons c t => injection hb with hb; subst hb; exact ⟨t, rfl⟩
        cases hz : cutZone (91 :: pre') with
        | none =>
          rw [hz] at e
          simp only at e
          obtain ⟨x, y, e1, e2, rfl⟩ := unescape_split (by decide) (by decide) _ _ _ (Nat.le_refl _) e
          rw [pu] at e2
          cases e2
          obtain ⟨x', rfl⟩ := unescape_head (by decide) e1
          have h37 : (37 : UInt8) ∉ 91 :: x' := by
            intro hm
            rcases host_mem e1 37 hm with ⟨_, _, h⟩ | ⟨_, h⟩ | h
            · revert h; decide
            · exact h hz
            · revert h; decide
          have hE : escape .host (91 :: x' ++ 93 :: port) = escape .host (91 :: x') ++ 93 :: port := by
            rw [escape_append, pe]
          rw [hE]
          unfold parseHost
          rw [if_pos, cutLast_some _ h93]
          · simp only [hport, if_true]
            have := cutZone_escape h37 []
            rw [List.append_nil] at this
            rw [this]
            simp only [cutZone, Option.map_none]
            rw [unescape_append (unescape_escape (host_readable e1)), pu]
            rfl
          · rw [List.head?_append, escape_host_bracket]; rfl
        | some r =>
          obtain ⟨h1, z⟩ := r
          rw [hz] at e
          simp only at e
          obtain ⟨epre, ⟨w, rfl⟩, hn⟩ := cutZone_inv hz
          rw [pu] at e
          split at e
          · rename_i x y w' e1 e2 e3
            cases e
            cases e3
            obtain ⟨h1', rfl⟩ : ∃ t, h1 = 91 :: t := by
              cases h1 with
              | nil => cases epre
              | cons c t => injection epre with e4 _; subst e4; exact ⟨t, rfl⟩
            obtain ⟨x', rfl⟩ := unescape_head (by decide) e1
            have h37 : (37 : UInt8) ∉ 91 :: x' := by
              intro hm
              rcases host_mem e1 37 hm with ⟨_, _, h⟩ | ⟨_, h⟩ | h
              · revert h; decide
              · exact h hn
              · revert h; decide
            have hz128 : ∀ c ∈ (37 :: 50 :: 53 :: w : Str), c < 128 := fun c hc => ha c (by rw [epre]; simp only [List.mem_append]; exact .inl (.inr hc))
            obtain ⟨y', rfl⟩ : ∃ y', y = 37 :: y' := by
              rcases unescape_cons_inv e2 with ⟨a, b, t', x, y, r, _, et, hx, hy, _, rfl, _⟩ | ⟨r, hc, _⟩
              · simp only [List.cons.injEq] at et
                obtain ⟨rfl, rfl, rfl⟩ := et
                rw [hexVal_53] at hy
                cases hy
                rw [show hexVal 50 = some 2 from by decide] at hx
                cases hx
                exact ⟨r, rfl⟩
              · exact absurd rfl hc
            have hzone : unescape .zone (escape .host (37 :: y')) = some (37 :: y') := unescape_escape (zone_readable hz128 e2)
            have hze : escape .host (37 :: y') = 37 :: 50 :: 53 :: escape .host y' := by
              rw [escape_cons, show enc .host 37 = [37, 50, 53] from by decide]; rfl
            have hE : escape .host (91 :: x' ++ 37 :: y' ++ 93 :: port) = (escape .host (91 :: x') ++ escape .host (37 :: y')) ++ 93 :: port := by
              rw [escape_append, escape_append, pe]
            rw [hE]
            unfold parseHost
            rw [if_pos, cutLast_some _ h93]
            · simp only [hport, if_true]
              rw [cutZone_escape h37]
              have hcz : cutZone (escape .host (37 :: y')) = some ([], escape .host (37 :: y')) := by
                rw [hze, cutZone, if_pos ((zone_pre _ _).2 ⟨_, rfl, rfl⟩)]
              rw [hcz]
              simp only [Option.map_some, List.append_nil]
              rw [unescape_escape (host_readable e1), hzone, pu]
            · rw [List.append_assoc, List.head?_append, escape_host_bracket]; rfl
          · cases e
      · cases e
  · rename_i hb
    have key : ∀ {x : Str}, unescape .host a = some x → (∀ p, fromLastColon a = some p → validOptionalPort p = true) →
        parseHost (escape .host x) = some x := by
      intro x hx hp
      unfold parseHost
      rw [if_neg (escape_no_bracket hb hx), unescape_escape (host_readable hx)]
      cases hl : fromLastColon a with
      | none =>
        have h58 : (58 : UInt8) ∉ escape .host x := by
          intro hm
          rcases escape_bytes hm with ⟨hm, _⟩ | h | h | h
          · rcases host_mem hx 58 hm with ⟨h, _⟩ | ⟨h, _⟩ | h
            · exact lastColon_none.1 hl h
            · revert h; decide
            · revert h; decide
          · revert h; decide
          · revert h; decide
          · revert h; decide
        rw [lastColon_none.2 h58]
      | some p =>
        have hv := hp p hl
        obtain ⟨a1, b, hb58, rfl, rfl⟩ := lastColon_inv hl
        have hpb : ∀ c ∈ (58 :: b : Str), c = 93 ∨ c = 58 ∨ 48 ≤ c ∧ c ≤ 57 := fun c hc => .inr (port_bytes hv c hc)
        obtain ⟨pu, pe⟩ := port_id hpb
        obtain ⟨x1, y, e1, e2, rfl⟩ := unescape_split (by decide) (by decide) _ _ _ (Nat.le_refl _) hx
        rw [pu] at e2
        cases e2
        rw [escape_append, pe, lastColon_some _ _ hb58 rfl]
        simp only [hv, if_true]
    split at e
    · rename_i p hl
      split at e
      · rename_i hv
        exact key e fun p' hp' => by rw [hl] at hp'; cases hp'; exact hv
      · cases e
    · rename_i hl
      exact key e fun p' hp' => by rw [hl] at hp'; cases hp'

theorem parseHost_nil {a : Str} (e : parseHost a = some []) : a = [] := by
  unfold parseHost at e
  split at e
  · split at e
    · cases e
    · split at e
      · split at e
        · split at e
          · rename_i x y w _ _ h3
            simp only [Option.some.injEq, List.append_eq_nil_iff] at e
            rw [e.2] at h3
            cases unescape_nil_iff h3
          · cases e
        · exact unescape_nil_iff e
      · cases e
  · split at e
    · split at e
      · exact unescape_nil_iff e
      · cases e
    · exact unescape_nil_iff e

/-! ### Authorities -/

set_option maxRecDepth 8000 in
/-- What can stand in printed user information. -/
theorem user_bytes (c : UInt8) : (shouldEscape .user c = false ∨ c = 37 ∨ (48 ≤ c ∧ c ≤ 57) ∨ (65 ≤ c ∧ c ≤ 70)) →
    c ≠ 58 ∧ c ≠ 64 ∧ c ≠ 35 ∧ c ≠ 47 ∧ c ≠ 63 ∧ ¬ c < 32 ∧ c ≠ 127 ∧
    (isAlnum c || decide (c ∈ b!"-._:~!$&'()*+,;=%@")) = true := by
  refine all_bytes (P := fun c => (shouldEscape .user c = false ∨ c = 37 ∨ (48 ≤ c ∧ c ≤ 57) ∨ (65 ≤ c ∧ c ≤ 70)) →
    c ≠ 58 ∧ c ≠ 64 ∧ c ≠ 35 ∧ c ≠ 47 ∧ c ≠ 63 ∧ ¬ c < 32 ∧ c ≠ 127 ∧
    (isAlnum c || decide (c ∈ b!"-._:~!$&'()*+,;=%@")) = true) ?_ c
  decide

theorem escape_user_bytes {s : Str} : ∀ c ∈ escape .user s, c ≠ 58 ∧ c ≠ 64 ∧ c ≠ 35 ∧ c ≠ 47 ∧ c ≠ 63 ∧ ¬ c < 32 ∧ c ≠ 127 ∧
    (isAlnum c || decide (c ∈ b!"-._:~!$&'()*+,;=%@")) = true := by
  intro c hc
  apply user_bytes
  rcases escape_bytes hc with ⟨_, h⟩ | h
  · exact .inl h
  · exact .inr h

theorem unescape_escape_user (s : Str) : unescape .user (escape .user s) = some s :=
  unescape_escape fun _ _ => ⟨fun _ h => (by cases h), fun _ h => (by cases h), fun _ h => (by rcases h with h | h <;> cases h)⟩

theorem userStr_bytes (us : User) : ∀ c ∈ userStr us, c ≠ 64 ∧ c ≠ 35 ∧ c ≠ 47 ∧ c ≠ 63 ∧ ¬ c < 32 ∧ c ≠ 127 ∧
    (isAlnum c || decide (c ∈ b!"-._:~!$&'()*+,;=%@")) = true := by
  intro c hc
  rcases List.mem_append.1 hc with hc | hc
  · exact (escape_user_bytes c hc).2
  · split at hc
    · rcases List.mem_cons.1 hc with rfl | hc
      · decide
      · exact (escape_user_bytes c hc).2
    · cases hc

/-- User information reads back from its print. -/
theorem parseUser_back (us : User) : parseUser (userStr us) = some us := by
  obtain ⟨n, pw⟩ := us
  have h58 : (58 : UInt8) ∉ escape .user n := fun hm => (escape_user_bytes _ hm).1 rfl
  unfold parseUser userStr
  cases pw with
  | none =>
    simp only [List.append_nil]
    rw [cut_none h58]
    simp only [unescape_escape_user]
  | some pw =>
    simp only
    rw [cut_some h58]
    simp only [unescape_escape_user]

theorem parseAuthority_back {a h : Str} {us : Option User} (ha : ∀ c ∈ a, c < 128) (e : parseAuthority a = some (us, h)) :
    parseAuthority (userPart us ++ escape .host h) = some (us, h) ∧ (us = none → h = [] → a = []) ∧
    ∀ c ∈ userPart us ++ escape .host h, c ≠ 35 ∧ c ≠ 47 ∧ c ≠ 63 ∧ ¬ c < 32 ∧ c ≠ 127 := by
  have h64 : ∀ {h : Str}, (64 : UInt8) ∉ escape .host h := fun hm => (escape_host_bytes _ hm).2.2.2.1 rfl
  unfold parseAuthority at e
  split at e
  · split at e
    · rename_i hcut x hx
      simp only [Option.some.injEq, Prod.mk.injEq] at e
      obtain ⟨rfl, rfl⟩ := e
      refine ⟨?_, fun _ e => parseHost_nil (e ▸ hx), ?_⟩
      · unfold parseAuthority
        simp only [userPart, List.nil_append]
        rw [cutLast_none.2 h64]
        simp only [parseHost_back ha hx]
      · intro c hc
        have := escape_host_bytes c hc
        exact ⟨this.1, this.2.1, this.2.2.1, this.2.2.2.2.1, this.2.2.2.2.2⟩
    · cases e
  · rename_i ui ho hcut
    obtain ⟨rfl, hno⟩ := cutLast_inv hcut
    split at e
    · cases e
    · rename_i x hx
      split at e
      · split at e
        · rename_i u hu
          simp only [Option.some.injEq, Prod.mk.injEq] at e
          obtain ⟨rfl, rfl⟩ := e
          refine ⟨?_, fun h => by (cases h), ?_⟩
          · unfold parseAuthority
            simp only [userPart, List.append_assoc, List.singleton_append]
            rw [cutLast_some _ h64]
            have hv : validUserinfo (userStr u) = true := by
              unfold validUserinfo
              rw [List.all_eq_true]
              exact fun c hc => (userStr_bytes u c hc).2.2.2.2.2.2
            simp only [parseHost_back (fun c hc => ha c (by simp [hc])) hx, hv, if_true, parseUser_back]
          · intro c hc
            rcases List.mem_append.1 hc with hc | hc
            · rcases List.mem_append.1 hc with hc | hc
              · have := userStr_bytes u c hc
                exact ⟨this.2.1, this.2.2.1, this.2.2.2.1, this.2.2.2.2.1, this.2.2.2.2.2.1⟩
              · simp only [List.mem_singleton] at hc
                subst hc; decide
            · have := escape_host_bytes c hc
              exact ⟨this.1, this.2.1, this.2.2.1, this.2.2.2.2.1, this.2.2.2.2.2⟩
        · cases e
      · cases e

/-! ### Printing and reading back -/

/-- Nothing that would end a URL or make it unreadable. -/
def Clean (s : Str) : Prop := ∀ c ∈ s, c ≠ 35 ∧ ¬ c < 32 ∧ c ≠ 127

theorem clean_uri {s : Str} (h : ∀ c ∈ s, UriByte c) : Clean s := fun c hc =>
  have := uri_facts c (h c hc)
  ⟨this.2.1, this.2.2.1, this.2.2.2.1⟩

theorem clean_append {s t : Str} : Clean (s ++ t) ↔ Clean s ∧ Clean t := by
  unfold Clean
  constructor
  · intro h; exact ⟨fun c hc => h c (by simp [hc]), fun c hc => h c (by simp [hc])⟩
  · rintro ⟨h1, h2⟩ c hc
    rcases List.mem_append.1 hc with hc | hc
    · exact h1 c hc
    · exact h2 c hc

theorem parse_clean {raw sch rest : Str} (hu : Clean raw) (hne : raw ≠ b!"*") (hg : getscheme raw = some (sch, rest))
    {r : Str} {fq : Bool} {q : Str} (hs : splitQuery rest = (r, fq, q)) :
    parse raw = parseRest { scheme := Str.lower sch, forceQuery := fq, rawQuery := q } r :=
  parse_scheme' (fun c hc => (hu c hc).2) hne hg hs

theorem roundtrip {raw : Str} (hu : ∀ c ∈ raw, UriByte c) {u : URL} (h : parse raw = some u) :
    (∃ rp, parse (toStr u) = some { u with rawPath := rp }) ∧ Clean (toStr u) ∧ u.fragment = [] ∧ u.rawFragment = [] := by
  by_cases hstar : raw = b!"*"
  · subst hstar
    have : u = { path := b!"*" } := by
      have e : parse b!"*" = some { path := b!"*" } := by decide
      rw [e] at h; cases h; rfl
    subst this
    exact ⟨⟨[], by decide⟩, clean_uri (by decide), rfl, rfl⟩
  cases hg : getscheme raw with
  | none =>
    unfold parse at h
    rw [no_ctl hu, if_neg (by simp), if_neg hstar, hg] at h
    cases h
  | some sr =>
    obtain ⟨sch, rest⟩ := sr
    obtain ⟨r, fq, q, hs, er, hr63, hfq⟩ := splitQuery_spec rest
    have hparse := parse_scheme hu hstar hg hs
    rw [h] at hparse
    have hrest : ∀ c ∈ rest, UriByte c := by
      rcases getscheme_spec hg with ⟨_, e⟩ | ⟨e, _⟩
      · rw [e]; exact hu
      · intro c hc; exact hu c (by rw [e]; simp [hc])
    have hrU : ∀ c ∈ r, UriByte c ∧ c ≠ 63 := fun c hc =>
      ⟨hrest c (by rw [er]; simp [hc]), fun e => hr63 (e ▸ hc)⟩
    have hrC : Clean r := clean_uri fun c hc => (hrU c hc).1
    have hQ : Clean (queryStr fq q) := clean_uri fun c hc => hrest c (by rw [er]; simp only [List.mem_append]; exact Or.inr hc)
    have hgq : getscheme (queryStr fq q) = some ([], queryStr fq q) := by
      unfold queryStr; split <;> rfl
    have hsq := splitQuery_of (r := []) (by simp) hfq
    rw [List.nil_append] at hsq
    -- reading back a printed text with scheme
    have back_s : Str.lower sch ≠ [] → ∀ r', (63 : UInt8) ∉ r' → Clean r' →
        parse (Str.lower sch ++ 58 :: (r' ++ queryStr fq q)) =
          parseRest { scheme := Str.lower sch, forceQuery := fq, rawQuery := q } r' ∧
        Clean (Str.lower sch ++ 58 :: (r' ++ queryStr fq q)) := by
      intro hne r' h63 hr'
      rcases getscheme_spec hg with ⟨e, _⟩ | ⟨e, _, hll, hlu, hback⟩
      · rw [e] at hne; exact absurd rfl hne
      · have hall : Clean (Str.lower sch ++ 58 :: (r' ++ queryStr fq q)) := by
          intro c hc
          simp only [List.mem_append, List.mem_cons] at hc
          rcases hc with hc | rfl | hc | hc
          · exact clean_uri hlu c hc
          · decide
          · exact hr' c hc
          · exact hQ c hc
        refine ⟨?_, hall⟩
        rw [parse_clean hall (by intro e'; cases hl : Str.lower sch with
            | nil => exact hne hl
            | cons a b => rw [hl] at e'; simp at e') (hback _) (splitQuery_of h63 hfq), hll]
    unfold parseRest at hparse
    split at hparse
    · -- opaque
      rename_i hc
      cases hparse
      have hQ' : (if fq = true ∨ q ≠ [] then 63 :: q else []) = queryStr fq q := rfl
      have hsne : Str.lower sch ≠ [] := hc.1
      have hprint : toStr { scheme := Str.lower sch, forceQuery := fq, rawQuery := q, opaque_ := r } =
          Str.lower sch ++ 58 :: (r ++ queryStr fq q) := by
        unfold toStr
        simp only [hQ', if_pos hsne]
        by_cases hr : r = []
        · subst hr
          simp [authPath, escapedPath, escape, colonFirst, Str.cut, userPart]
        · simp [hr]
      obtain ⟨b1, b2⟩ := back_s hsne r hr63 hrC
      refine ⟨⟨[], ?_⟩, by rw [hprint]; exact b2, rfl, rfl⟩
      rw [hprint, b1]
      unfold parseRest
      rw [if_pos hc]
    · rename_i hnop
      split at hparse
      · cases hparse
      · rename_i hncol
        split at hparse
        · -- authority
          rename_i hauth
          obtain ⟨r2, hr2⟩ : ∃ r2, r = 47 :: 47 :: r2 := by
            have := hauth.2
            unfold Str.hasPrefix at this
            rw [List.isPrefixOf_iff_prefix] at this
            obtain ⟨t, ht⟩ := this
            exact ⟨t, by simpa using ht.symm⟩
          subst hr2
          simp only [List.drop_succ_cons, List.drop_zero] at hparse
          -- auth and path
          have hex : ∃ a p, r2 = a ++ p ∧ (47 : UInt8) ∉ a ∧ (p = [] ∨ ∃ t, p = 47 :: t) ∧
              Str.cut 47 r2 = (a, tailOf p) := by
            rcases cut_cases 47 r2 with ⟨hn, e⟩ | ⟨a, t, hn, e1, e⟩
            · exact ⟨r2, [], by simp, hn, Or.inl rfl, e⟩
            · exact ⟨a, 47 :: t, e1, hn, Or.inr ⟨t, rfl⟩, e⟩
          obtain ⟨a, p, ea, hna, hp, ecut⟩ := hex
          subst ea
          have haU : ∀ c ∈ a, UriByte c ∧ c ≠ 63 := fun c hc => hrU c (by simp [hc])
          have hpU : ∀ c ∈ p, UriByte c ∧ c ≠ 63 := fun c hc => hrU c (by simp [hc])
          rw [ecut] at hparse
          simp only at hparse
          cases hph : parseAuthority a with
          | none => rw [hph] at hparse; cases hparse
          | some uh =>
            obtain ⟨us, ho⟩ := uh
            obtain ⟨hback, hempt, hAb⟩ := parseAuthority_back (fun c hc => (uri_facts c (haU c hc).1).1) hph
            rw [hph] at hparse
            simp only at hparse
            have hpath : slashOpt (tailOf p) = p := by
              rcases hp with rfl | ⟨t, rfl⟩ <;> rfl
            rw [hpath] at hparse
            obtain ⟨pt, hup', hv, hep⟩ := escapedPath_setPath hpU hparse.symm
            have hep : escapedPath u = p := by
              rcases hep with h | ⟨h, _⟩
              · exact h
              · rcases hp with rfl | ⟨t, rfl⟩ <;> cases h
            generalize hA : userPart us ++ escape .host ho = A at hback hAb
            -- the printed text
            have hup : u.path = pt := by rw [hv]
            have hptp : pt = [] ↔ p = [] := by
              constructor
              · rintro rfl; exact unescape_nil_iff hup'
              · rintro rfl; cases hup'; rfl
            have huh : u.host = ho := by rw [hv]
            have huu : u.user = us := by rw [hv]
            have hus : u.scheme = Str.lower sch := by rw [hv]
            have huo : u.opaque_ = [] := by rw [hv]
            have huf : u.forceQuery = fq := by rw [hv]
            have huq : u.rawQuery = q := by rw [hv]
            have hu1 : u.fragment = [] := by rw [hv]
            have hu2 : u.rawFragment = [] := by rw [hv]
            have hslash : p ≠ [] → p.head? = some 47 := by
              intro h
              rcases hp with rfl | ⟨t, rfl⟩
              · exact absurd rfl h
              · rfl
            have hap : authPath u = if us = none ∧ ho = [] ∧ p = [] then [] else 47 :: 47 :: (A ++ p) := by
              unfold authPath
              simp only [hep, hup, huh, hus, huu, ← hA, ne_eq, hptp]
              by_cases hu0 : us = none
              · subst hu0
                by_cases h1 : ho = []
                · subst h1
                  by_cases h2 : p = []
                  · subst h2; simp [colonFirst, Str.cut, escape, userPart]
                  · have hsn : Str.lower sch ≠ [] := by
                      intro e
                      rcases hauth.1 with h' | h'
                      · exact h' e
                      · have := hempt rfl rfl
                        subst this
                        rcases hp with rfl | ⟨t, rfl⟩
                        · exact h2 rfl
                        · apply h'; simp [Str.hasPrefix, List.isPrefixOf]
                    simp [h2, hsn, userPart, escape]
                · have hs2 : ¬ (¬ p = [] ∧ ¬ p.head? = some 47 ∧ ¬ ho = []) := fun ⟨x, y, _⟩ => y (hslash x)
                  simp only [h1, not_false_eq_true, or_true, true_or, if_true, false_and, and_false, if_false, userPart, not_true]
                  rw [if_neg (by simpa [h1] using hs2)]
                  simp
              · have hs2 : ¬ (¬ p = [] ∧ ¬ p.head? = some 47 ∧ ¬ ho = []) := fun ⟨x, y, _⟩ => y (hslash x)
                rw [if_neg hs2]
                simp [hu0]
            have htoS : toStr u = (if Str.lower sch ≠ [] then Str.lower sch ++ b!":" else []) ++
                (if us = none ∧ ho = [] ∧ p = [] then [] else 47 :: 47 :: (A ++ p)) ++ queryStr fq q := by
              unfold toStr
              simp only [hus, huo, huf, huq, hu1, hap, ne_eq, not_true, if_false, List.append_nil]
              rfl
            have hA47 : (47 : UInt8) ∉ A := fun hm => (hAb _ hm).2.1 rfl
            have hcutA : Str.cut 47 (A ++ p) = (A, tailOf p) := by
              rcases hp with rfl | ⟨t, rfl⟩
              · rw [List.append_nil, cut_none hA47]; rfl
              · rw [cut_some hA47]; rfl
            have hA3 : Str.lower sch ≠ [] ∨ us ≠ none ∨ ho ≠ [] ∨ p = [] := by
              by_cases e : Str.lower sch = []
              · by_cases hu0 : us = none
                · by_cases h1 : ho = []
                  · have := hempt hu0 h1
                    subst this
                    rcases hp with rfl | ⟨t, rfl⟩
                    · exact .inr (.inr (.inr rfl))
                    · rcases hauth.1 with h' | h'
                      · exact absurd e h'
                      · exact absurd (by simp [Str.hasPrefix, List.isPrefixOf]) h'
                  · exact .inr (.inr (.inl h1))
                · exact .inr (.inl hu0)
              · exact .inl e
            have hAne : us ≠ none ∨ ho ≠ [] → A ≠ [] := by
              rintro h' rfl
              have e0 : parseAuthority [] = some (none, []) := by decide
              rw [e0] at hback
              simp only [Option.some.injEq, Prod.mk.injEq] at hback
              rcases h' with h' | h'
              · exact h' hback.1.symm
              · exact h' hback.2.symm
            have hfin : parseRest { scheme := Str.lower sch, forceQuery := fq, rawQuery := q } (47 :: 47 :: (A ++ p)) = some u := by
              unfold parseRest
              rw [if_neg (by rw [hasPrefix_slash]; simp), if_neg (by rw [hasPrefix_slash]; simp), if_pos]
              · simp only [List.drop_succ_cons, List.drop_zero, hcutA, hback]
                rw [hpath]
                exact hparse.symm
              · refine ⟨?_, by simp [Str.hasPrefix, List.isPrefixOf]⟩
                rcases hA3 with e | e | e | e
                · exact .inl e
                all_goals refine .inr ?_
                · obtain ⟨c, t, hct⟩ := List.exists_cons_of_ne_nil (hAne (.inl e))
                  rw [hct]
                  have : c ≠ 47 := fun e => hA47 (by rw [hct, e]; simp)
                  simpa [Str.hasPrefix, List.isPrefixOf] using fun e => this e.symm
                · obtain ⟨c, t, hct⟩ := List.exists_cons_of_ne_nil (hAne (.inr e))
                  rw [hct]
                  have : c ≠ 47 := fun e => hA47 (by rw [hct, e]; simp)
                  simpa [Str.hasPrefix, List.isPrefixOf] using fun e => this e.symm
                · rw [e, List.append_nil]
                  cases A with
                  | nil => simp [Str.hasPrefix, List.isPrefixOf]
                  | cons c t =>
                    have : c ≠ 47 := fun e => hA47 (by rw [e]; simp)
                    simpa [Str.hasPrefix, List.isPrefixOf] using fun e => this e.symm
            have hempty : us = none → ho = [] → p = [] → parseRest { scheme := Str.lower sch, forceQuery := fq, rawQuery := q } [] = some u := by
              rintro rfl rfl rfl
              have := hptp.2 rfl
              subst this
              unfold parseRest
              rw [hv]
              by_cases hsn : Str.lower sch = []
              · simp [hsn, Str.hasPrefix, List.isPrefixOf, colonFirst, Str.cut, setPath, unescape, escape]
              · simp [hsn, Str.hasPrefix, List.isPrefixOf, escape]
            have hAC : Clean A := fun c hc => have := hAb c hc; ⟨this.1, this.2.2.2⟩
            have hpC : Clean p := clean_uri fun c hc => (hpU c hc).1
            have hsl2 : Clean (47 :: 47 :: (A ++ p)) := by
              change Clean (b!"//" ++ (A ++ p))
              exact clean_append.2 ⟨by unfold Clean; decide, clean_append.2 ⟨hAC, hpC⟩⟩
            have hr'C : Clean (if us = none ∧ ho = [] ∧ p = [] then ([] : Str) else 47 :: 47 :: (A ++ p)) := by
              split
              · intro c hc; cases hc
              · exact hsl2
            have hr'63 : (63 : UInt8) ∉ (if us = none ∧ ho = [] ∧ p = [] then ([] : Str) else 47 :: 47 :: (A ++ p)) := by
              split
              · simp
              · simp only [List.mem_cons, List.mem_append, not_or]
                exact ⟨by decide, by decide, fun hm => (hAb _ hm).2.2.1 rfl, fun hm => (hpU _ hm).2 rfl⟩
            have hpr : parseRest { scheme := Str.lower sch, forceQuery := fq, rawQuery := q }
                (if us = none ∧ ho = [] ∧ p = [] then [] else 47 :: 47 :: (A ++ p)) = some u := by
              split
              · rename_i hh; exact hempty hh.1 hh.2.1 hh.2.2
              · exact hfin
            have hself : ({ u with rawPath := u.rawPath } : URL) = u := rfl
            by_cases hsn : Str.lower sch = []
            · rw [htoS, if_neg (by simpa using hsn), List.nil_append]
              by_cases hemp : us = none ∧ ho = [] ∧ p = []
              · rw [if_pos hemp] at hpr ⊢
                rw [List.nil_append]
                refine ⟨⟨u.rawPath, ?_⟩, hQ, hu1, hu2⟩
                rw [hself, parse_clean hQ (by unfold queryStr; split <;> simp) hgq hsq]
                rw [show Str.lower ([] : Str) = Str.lower sch from hsn.symm]
                exact hpr
              · rw [if_neg hemp]
                have hC : Clean (47 :: 47 :: (A ++ p) ++ queryStr fq q) := clean_append.2 ⟨hsl2, hQ⟩
                rw [if_neg hemp] at hr'63
                refine ⟨⟨u.rawPath, ?_⟩, hC, hu1, hu2⟩
                rw [hself, parse_clean (sch := []) hC (by simp) rfl (splitQuery_of hr'63 hfq)]
                rw [show Str.lower ([] : Str) = Str.lower sch from hsn.symm]
                exact hfin
            · obtain ⟨b1, b2⟩ := back_s hsn _ hr'63 hr'C
              have e : toStr u = Str.lower sch ++ 58 :: ((if us = none ∧ ho = [] ∧ p = [] then [] else 47 :: 47 :: (A ++ p)) ++ queryStr fq q) := by
                rw [htoS, if_pos hsn]; simp
              rw [e]
              exact ⟨⟨u.rawPath, b1.trans hpr⟩, b2, hu1, hu2⟩
        · -- path only
          rename_i hnauth
          obtain ⟨pt, hup', hv, hep⟩ := escapedPath_setPath hrU hparse.symm
          have hup : u.path = pt := by rw [hv]
          have huh : u.host = [] := by rw [hv]
          have huu : u.user = none := by rw [hv]
          have hus : u.scheme = Str.lower sch := by rw [hv]
          have huo : u.opaque_ = [] := by rw [hv]
          have huf : u.forceQuery = fq := by rw [hv]
          have huq : u.rawQuery = q := by rw [hv]
          have hu1 : u.fragment = [] := by rw [hv]
          have hu2 : u.rawFragment = [] := by rw [hv]
          have hself : ({ u with rawPath := u.rawPath } : URL) = u := rfl
          by_cases hsn : Str.lower sch = []
          · have hcf : colonFirst r = false := by
              rw [hasPrefix_slash] at hncol
              by_cases hh : r.head? = some 47
              · exact colonFirst_slash hh
              · cases hc : colonFirst r with
                | false => rfl
                | true => exact absurd ⟨by simp [hh], hc⟩ hncol
            have hprint : ∀ w, escapedPath u = w → colonFirst w = false → toStr u = w ++ queryStr fq q := by
              intro w hw hcw
              have hap : authPath u = w := by
                unfold authPath
                simp [hw, huh, huu, hus, hsn, hcw]
              unfold toStr
              simp only [hus, hsn, huo, huf, huq, hu1, hap, ne_eq, not_true, if_false, List.append_nil, List.nil_append]
              rfl
            rcases hep with hep | ⟨_, e1, hep⟩
            · rcases getscheme_spec hg with ⟨e1, e2⟩ | ⟨_, hne, _⟩
              · have : toStr u = raw := by
                  rw [hprint r hep hcf, ← e2, er]
                rw [this]
                exact ⟨⟨u.rawPath, h⟩, clean_uri hu, hu1, hu2⟩
              · exact absurd hsn hne
            · -- the path "*"
              rw [hprint _ hep (by decide)]
              have hC : Clean (b!"*" ++ queryStr fq q) := clean_append.2 ⟨by unfold Clean; decide, hQ⟩
              refine ⟨?_, hC, hu1, hu2⟩
              by_cases hq0 : queryStr fq q = []
              · have hfq0 : fq = false ∧ q = [] := by
                  unfold queryStr at hq0
                  split at hq0
                  · cases hq0
                  · rename_i hn
                    simpa using hn
                obtain ⟨rfl, rfl⟩ := hfq0
                refine ⟨[], ?_⟩
                rw [hq0, List.append_nil, hv, e1, hsn]
                rfl
              · have hg' : getscheme (b!"*" ++ queryStr fq q) = some ([], b!"*" ++ queryStr fq q) := rfl
                refine ⟨b!"*", ?_⟩
                rw [parse_clean hC (by
                  intro e
                  apply hq0
                  simpa using e) hg' (splitQuery_of (by decide) hfq), hv, e1, hsn]
                rfl
          · have hsl : r.head? = some 47 := by
              rw [hasPrefix_slash] at hnop
              by_cases hh : r.head? = some 47
              · exact hh
              · exact absurd ⟨hsn, by simp [hh]⟩ hnop
            have hep : escapedPath u = r := by
              rcases hep with h | ⟨h, _⟩
              · exact h
              · rw [h] at hsl; cases hsl
            have hrne : r ≠ [] := by rintro rfl; cases hsl
            have hptn : pt ≠ [] := by
              rintro rfl
              exact hrne (unescape_nil_iff hup')
            have hap : authPath u = 47 :: 47 :: r := by
              unfold authPath
              simp [hep, hup, huh, huu, hus, hsn, hptn, escape, userPart]
            have e : toStr u = Str.lower sch ++ 58 :: ((47 :: 47 :: r) ++ queryStr fq q) := by
              unfold toStr
              simp only [hus, huo, huf, huq, hu1, hap, ne_eq, not_true, if_false, List.append_nil, hsn, not_false_eq_true, if_true]
              simp [queryStr]
            obtain ⟨b1, b2⟩ := back_s hsn (47 :: 47 :: r) (by simpa using hr63)
              ((clean_append (s := b!"//")).2 ⟨by unfold Clean; decide, hrC⟩)
            rw [e]
            refine ⟨⟨u.rawPath, ?_⟩, b2, hu1, hu2⟩
            rw [hself]
            refine b1.trans ?_
            unfold parseRest
            rw [if_neg (by rw [hasPrefix_slash]; simp), if_neg (by rw [hasPrefix_slash]; simp),
              if_pos ⟨Or.inl hsn, by simp [Str.hasPrefix, List.isPrefixOf]⟩]
            cases r with
            | nil => exact absurd rfl hrne
            | cons c t =>
              simp at hsl; subst hsl
              simp only [List.drop_succ_cons, List.drop_zero]
              rw [show Str.cut 47 (47 :: t) = ([], some t) from by simp [Str.cut]]
              have e0 : parseAuthority [] = some (none, []) := by decide
              simp only [e0, slashOpt]
              exact hparse.symm

end Oapi.Url
