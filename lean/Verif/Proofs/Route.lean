import Verif.Model.Route
import Verif.Spec.Route

namespace Oapi.Route
open Oapi Spec

/-! UTF-8 -/

theorem utf8_length_pos (n : Nat) : 1 ≤ (utf8 n).length := by
  unfold utf8; split <;> (try split) <;> (try split) <;> simp

theorem decode1_utf8 {n : Nat} (h : Scalar n) (r : Str) : decode1 (utf8 n ++ r) = some (n, (utf8 n).length) := by
  unfold Scalar at h
  unfold utf8
  split
  · rename_i h1
    simp only [List.singleton_append, decode1, UInt8.toNat_ofNat', List.length_singleton]
    have : n % 2 ^ 8 = n := by omega
    rw [this, if_pos h1]
  · split
    · rename_i h1 h2
      simp only [List.cons_append, List.nil_append, decode1, UInt8.toNat_ofNat', cont]
      have e1 : (0xC0 + n / 64) % 2 ^ 8 = 0xC0 + n / 64 := by omega
      have e2 : (0x80 + n % 64) % 2 ^ 8 = 0x80 + n % 64 := by omega
      rw [e1, e2]
      have e3 : (192 + n / 64 - 192) * 64 + (128 + n % 64 - 128) = n := by omega
      rw [e3]
      rw [if_neg (by omega), if_pos (by omega)]
      simp; omega
    · split
      · rename_i h1 h2 h3
        simp only [List.cons_append, List.nil_append, decode1, UInt8.toNat_ofNat', cont]
        have e1 : (0xE0 + n / 4096) % 2 ^ 8 = 0xE0 + n / 4096 := by omega
        have e2 : (0x80 + n / 64 % 64) % 2 ^ 8 = 0x80 + n / 64 % 64 := by omega
        have e4 : (0x80 + n % 64) % 2 ^ 8 = 0x80 + n % 64 := by omega
        rw [e1, e2, e4]
        have e3 : (224 + n / 4096 - 224) * 4096 + (128 + n / 64 % 64 - 128) * 64 + (128 + n % 64 - 128) = n := by omega
        rw [e3]
        rw [if_neg (by omega), if_neg (by omega), if_pos (by omega)]
        simp; omega
      · rename_i h1 h2 h3
        simp only [List.cons_append, List.nil_append, decode1, UInt8.toNat_ofNat', cont]
        have e1 : (0xF0 + n / 262144) % 2 ^ 8 = 0xF0 + n / 262144 := by omega
        have e2 : (0x80 + n / 4096 % 64) % 2 ^ 8 = 0x80 + n / 4096 % 64 := by omega
        have e4 : (0x80 + n / 64 % 64) % 2 ^ 8 = 0x80 + n / 64 % 64 := by omega
        have e5 : (0x80 + n % 64) % 2 ^ 8 = 0x80 + n % 64 := by omega
        rw [e1, e2, e4, e5]
        have e3 : (240 + n / 262144 - 240) * 262144 + (128 + n / 4096 % 64 - 128) * 4096 + (128 + n / 64 % 64 - 128) * 64 +
          (128 + n % 64 - 128) = n := by omega
        rw [e3]
        rw [if_neg (by omega), if_neg (by omega), if_neg (by omega), if_pos (by omega)]
        simp; omega

theorem runesGo_skip (u r : Str) : runesGo u.length (u ++ r) = runesGo 0 r := by
  induction u with
  | nil => rfl
  | cons a t ih => simpa [runesGo] using ih

theorem runesGo_utf8 {n : Nat} (h : Scalar n) (r : Str) : runesGo 0 (utf8 n ++ r) = some n :: runesGo 0 r := by
  have hd := decode1_utf8 h r
  cases hu : utf8 n with
  | nil => have := utf8_length_pos n; rw [hu] at this; simp at this
  | cons a t =>
    rw [hu] at hd
    simp only [List.cons_append] at hd ⊢
    simp only [runesGo, hd, List.length_cons, Nat.add_sub_cancel]
    rw [runesGo_skip]

theorem runesGo_utf8s {t : List Nat} (h : ∀ n ∈ t, Scalar n) : runesGo 0 (utf8s t) = t.map some := by
  induction t with
  | nil => rfl
  | cons n t ih =>
    simp only [utf8s, List.flatMap_cons, List.map_cons]
    rw [runesGo_utf8 (h n (by simp))]
    rw [show List.flatMap utf8 t = utf8s t from rfl, ih (fun m hm => h m (by simp [hm]))]

theorem runes_utf8s {t : List Nat} (h : ∀ n ∈ t, Scalar n) : runes (utf8s t) = t := by
  unfold runes; rw [runesGo_utf8s h]; simp [List.map_map, Function.comp_def]

theorem validRunes_utf8s {t : List Nat} (h : ∀ n ∈ t, Scalar n) : validRunes (utf8s t) = some t := by
  unfold validRunes; rw [runes_utf8s h, runesGo_utf8s h]; simp

theorem utf8s_append (a b : List Nat) : utf8s (a ++ b) = utf8s a ++ utf8s b := by simp [utf8s]

theorem utf8s_ascii {t : List Nat} (h : ∀ n ∈ t, n < 128) : (utf8s t).length = t.length := by
  induction t with
  | nil => rfl
  | cons n t ih =>
    have : utf8 n = [UInt8.ofNat n] := by unfold utf8; rw [if_pos (h n (by simp))]
    simp only [utf8s, List.flatMap_cons, this, List.singleton_append, List.length_cons]
    rw [show List.flatMap utf8 t = utf8s t from rfl, ih (fun m hm => h m (by simp [hm]))]

/-! ### Matching -/

theorem segGo_iff (f : Runes → Bool) (s : Runes) :
    segGo f s = true ↔ ∃ u r, s = u ++ r ∧ u ≠ [] ∧ 47 ∉ u ∧ f r = true := by
  induction s with
  | nil => simp [segGo]
  | cons c t ih =>
    simp only [segGo, Bool.and_eq_true, Bool.or_eq_true, bne_iff_ne, ih]
    constructor
    · rintro ⟨hc, h | ⟨u, r, e, _, h2, h3⟩⟩
      · exact ⟨[c], t, rfl, by simp, by simpa using fun e => hc e.symm, h⟩
      · exact ⟨c :: u, r, by simp [e], by simp, by simp only [List.mem_cons, not_or]; exact ⟨fun e => hc e.symm, h2⟩, h3⟩
    · rintro ⟨u, r, e, h1, h2, h3⟩
      cases u with
      | nil => exact absurd rfl h1
      | cons a u =>
        simp only [List.cons_append, List.cons.injEq] at e
        simp only [List.mem_cons, not_or] at h2
        refine ⟨fun e' => h2.1 (by rw [← e', e.1]), ?_⟩
        cases u with
        | nil => left; simp at e; rw [e.2]; exact h3
        | cons b u => right; exact ⟨b :: u, r, e.2, by simp, h2.2, h3⟩

theorem starGo_iff (f : Runes → Bool) (s : Runes) :
    starGo f s = true ↔ ∃ u r, s = u ++ r ∧ 10 ∉ u ∧ f r = true := by
  induction s with
  | nil =>
    simp only [starGo]
    constructor
    · intro h; exact ⟨[], [], rfl, by simp, h⟩
    · rintro ⟨u, r, e, _, h⟩
      have := List.append_eq_nil_iff.1 e.symm; rw [this.2] at h; exact h
  | cons c t ih =>
    simp only [starGo, Bool.and_eq_true, Bool.or_eq_true, bne_iff_ne, ih]
    constructor
    · rintro (h | ⟨hc, u, r, e, h2, h3⟩)
      · exact ⟨[], c :: t, rfl, by simp, h⟩
      · exact ⟨c :: u, r, by simp [e], by simp only [List.mem_cons, not_or]; exact ⟨fun e => hc e.symm, h2⟩, h3⟩
    · rintro ⟨u, r, e, h2, h3⟩
      cases u with
      | nil => left; simp at e; rw [e]; exact h3
      | cons a u =>
        simp only [List.cons_append, List.cons.injEq] at e
        simp only [List.mem_cons, not_or] at h2
        exact Or.inr ⟨fun e' => h2.1 (by rw [← e', e.1]), u, r, e.2, h2.2, h3⟩

/-- The pieces a reading stands for. -/
def pieces : List Tok → List Piece
  | [] => []
  | .text s :: ts => s.map Piece.lit ++ pieces ts
  | .var _ :: ts => .seg :: pieces ts
  | .any :: ts => .star :: pieces ts

theorem matchRe_lits (s : List Nat) (ps : List Piece) (q : Runes) :
    matchRe (s.map Piece.lit ++ ps) q = true ↔ ∃ r, q = s ++ r ∧ matchRe ps r = true := by
  induction s generalizing q with
  | nil => simp
  | cons c s ih =>
    cases q with
    | nil => simp [matchRe]
    | cons d q =>
      simp only [List.map_cons, List.cons_append, matchRe, Bool.and_eq_true, beq_iff_eq, ih, List.cons.injEq]
      constructor
      · rintro ⟨e, r, e2, h⟩; exact ⟨r, ⟨e, e2⟩, h⟩
      · rintro ⟨r, ⟨e, e2⟩, h⟩; exact ⟨e, r, e2, h⟩

theorem matchRe_pieces (ts : List Tok) (q : Runes) : matchRe (pieces ts) q = true ↔ Describes ts q := by
  induction ts generalizing q with
  | nil =>
    simp only [pieces, matchRe, List.isEmpty_iff]
    constructor
    · rintro rfl; exact .nil
    · intro h; cases h; rfl
  | cons a ts ih =>
    cases a with
    | text s =>
      simp only [pieces]
      rw [matchRe_lits]
      constructor
      · rintro ⟨r, rfl, h⟩; exact .text ((ih r).1 h)
      · intro h; cases h with
        | text h => exact ⟨_, rfl, (ih _).2 h⟩
    | var n =>
      simp only [pieces, matchRe]
      rw [segGo_iff]
      constructor
      · rintro ⟨u, r, rfl, h1, h2, h⟩; exact .var h1 h2 ((ih r).1 h)
      · intro h; cases h with
        | var h1 h2 h => exact ⟨_, _, rfl, h1, h2, (ih _).2 h⟩
    | any =>
      simp only [pieces, matchRe]
      rw [starGo_iff]
      constructor
      · rintro ⟨u, r, rfl, h2, h⟩; exact .any h2 ((ih r).1 h)
      · intro h; cases h with
        | any h2 h => exact ⟨_, _, rfl, h2, (ih _).2 h⟩

/-! ### Parsing expressions -/

theorem special_iff (r : Nat) : special r = true ↔ Meta r := by
  simp only [special, Meta, Bool.or_eq_true, beq_iff_eq, List.mem_cons, List.not_mem_nil, or_false]
  simp only [or_assoc]

theorem parseRe_cons (c : Nat) (t : Runes) : parseRe 0 (c :: t) =
    if (ascii b!"([^/]+)").isPrefixOf (c :: t) then (parseRe 6 t).map (Piece.seg :: ·)
    else if (ascii b!"(.*)").isPrefixOf (c :: t) then (parseRe 3 t).map (Piece.star :: ·)
    else if c = 92 then
      match t with
      | d :: _ => if decide (d < 128) && !isAlnum d then (parseRe 1 t).map (Piece.lit d :: ·) else none
      | [] => none
    else if c = 46 then (parseRe 0 t).map (Piece.dot :: ·)
    else if special c then none
    else (parseRe 0 t).map (Piece.lit c :: ·) := by
  cases t <;> rfl

theorem parseRe_skip (u r : Runes) : parseRe u.length (u ++ r) = parseRe 0 r := by
  induction u with
  | nil => rfl
  | cons a t ih => simpa [parseRe] using ih

theorem parseRe_seg (r : Runes) : parseRe 0 (ascii b!"([^/]+)" ++ r) = (parseRe 0 r).map (Piece.seg :: ·) := by
  have h : (ascii b!"([^/]+)").isPrefixOf (ascii b!"([^/]+)" ++ r) = true := by
    rw [List.isPrefixOf_iff_prefix]; exact List.prefix_append _ _
  have e : ascii b!"([^/]+)" ++ r = 40 :: (ascii b!"[^/]+)" ++ r) := rfl
  rw [e] at h ⊢
  rw [parseRe_cons, if_pos h]
  rw [show (6 : Nat) = (ascii b!"[^/]+)").length from rfl, parseRe_skip]

theorem parseRe_star (r : Runes) : parseRe 0 (ascii b!"(.*)" ++ r) = (parseRe 0 r).map (Piece.star :: ·) := by
  have h : (ascii b!"(.*)").isPrefixOf (ascii b!"(.*)" ++ r) = true := by
    rw [List.isPrefixOf_iff_prefix]; exact List.prefix_append _ _
  have h0 : (ascii b!"([^/]+)").isPrefixOf (ascii b!"(.*)" ++ r) = false := rfl
  have e : ascii b!"(.*)" ++ r = 40 :: (ascii b!".*)" ++ r) := rfl
  rw [e] at h h0 ⊢
  rw [parseRe_cons, if_neg (by rw [h0]; simp), if_pos h]
  rw [show (3 : Nat) = (ascii b!".*)").length from rfl, parseRe_skip]

theorem not_prefix_of_ne {c : Nat} (h : c ≠ 40) (u t : Runes) : (40 :: u).isPrefixOf (c :: t) = false := by
  simp [List.isPrefixOf]; intro e; exact absurd e.symm h

theorem parseRe_lit {c : Nat} (h : special c = false) (r : Runes) :
    parseRe 0 (c :: r) = (parseRe 0 r).map (Piece.lit c :: ·) := by
  have h40 : c ≠ 40 := by rintro rfl; simp [special] at h
  have h92 : c ≠ 92 := by rintro rfl; simp [special] at h
  have h46 : c ≠ 46 := by rintro rfl; simp [special] at h
  rw [parseRe_cons, if_neg (by rw [show ascii b!"([^/]+)" = 40 :: ascii b!"[^/]+)" from rfl, not_prefix_of_ne h40]; simp),
    if_neg (by rw [show ascii b!"(.*)" = 40 :: ascii b!".*)" from rfl, not_prefix_of_ne h40]; simp), if_neg h92, if_neg h46, if_neg (by simp [h])]

theorem parseRe_esc {c : Nat} (h : special c = true) (r : Runes) :
    parseRe 0 (92 :: c :: r) = (parseRe 0 r).map (Piece.lit c :: ·) := by
  have hp : (decide (c < 128) && !isAlnum c) = true := by
    have := (special_iff c).1 h
    simp only [Meta, List.mem_cons, List.not_mem_nil, or_false] at this
    rcases this with h | h | h | h | h | h | h | h | h | h | h | h | h | h <;> subst h <;> decide
  rw [parseRe_cons, if_neg (by rw [show ascii b!"([^/]+)" = 40 :: ascii b!"[^/]+)" from rfl, not_prefix_of_ne (by decide)]; simp),
    if_neg (by rw [show ascii b!"(.*)" = 40 :: ascii b!".*)" from rfl, not_prefix_of_ne (by decide)]; simp), if_pos rfl]
  simp only [hp, if_true]
  rw [show (1 : Nat) = [c].length from rfl, show c :: r = [c] ++ r from rfl, parseRe_skip]

theorem parseRe_quote (s r : Runes) :
    parseRe 0 (quoteMeta s ++ r) = (parseRe 0 r).map (s.map Piece.lit ++ ·) := by
  induction s with
  | nil => simp [quoteMeta]
  | cons c s ih =>
    have e : quoteMeta (c :: s) ++ r = (if special c then [92, c] else [c]) ++ (quoteMeta s ++ r) := by
      simp [quoteMeta, List.append_assoc]
    rw [e]
    by_cases h : special c = true
    · rw [if_pos h]
      simp only [List.cons_append, List.nil_append]
      rw [parseRe_esc h, ih, Option.map_map]; rfl
    · rw [if_neg h]
      simp only [List.cons_append, List.nil_append]
      rw [parseRe_lit (by simpa using h), ih, Option.map_map]; rfl

theorem quoteMeta_plain {s : Runes} (h : ∀ r ∈ s, ¬ Meta r) : quoteMeta s = s := by
  induction s with
  | nil => rfl
  | cons c s ih =>
    have : special c = false := by
      cases hc : special c with
      | false => rfl
      | true => exact absurd ((special_iff c).1 hc) (h c (by simp))
    simp only [quoteMeta, List.flatMap_cons, this, Bool.false_eq_true, if_false, List.singleton_append]
    rw [show List.flatMap (fun r => if special r = true then [92, r] else [r]) s = quoteMeta s from rfl,
      ih (fun r hr => h r (by simp [hr]))]

theorem parseRe_dot (r : Runes) : parseRe 0 (46 :: r) = (parseRe 0 r).map (Piece.dot :: ·) := by
  rw [parseRe_cons, if_neg (by rw [show ascii b!"([^/]+)" = 40 :: ascii b!"[^/]+)" from rfl, not_prefix_of_ne (by decide)]; simp),
    if_neg (by rw [show ascii b!"(.*)" = 40 :: ascii b!".*)" from rfl, not_prefix_of_ne (by decide)]; simp), if_neg (by decide),
    if_pos rfl]

/-! ### Finding the variables -/

theorem isLower_iff (r : Nat) : isLower r = true ↔ LowerLetter r := by simp [isLower, LowerLetter]
theorem isAlnum_iff (r : Nat) : isAlnum r = true ↔ LetterOrDigit r := by
  simp [isAlnum, isLower, LetterOrDigit, or_assoc]

theorem takeWhile_all_append {p : Nat → Bool} {u : Runes} (h : ∀ x ∈ u, p x = true) {c : Nat} (hc : p c = false) (r : Runes) :
    (u ++ c :: r).takeWhile p = u := by
  induction u with
  | nil => simp [hc]
  | cons a u ih =>
    simp only [List.cons_append, List.takeWhile_cons, h a (by simp), if_true]
    rw [ih (fun x hx => h x (by simp [hx]))]

theorem varAt_var {n : Runes} (h : VarName n) (r : Runes) : varAt (123 :: n ++ [125] ++ r) = some (n.length + 2) := by
  match n, h with
  | c :: d :: t, ⟨h1, h2⟩ =>
    have hk : ((d :: t) ++ 125 :: r).takeWhile isAlnum = d :: t :=
      takeWhile_all_append (fun x hx => (isAlnum_iff x).2 (h2 x hx)) (by decide) r
    have e : 123 :: (c :: d :: t) ++ [125] ++ r = 123 :: c :: ((d :: t) ++ 125 :: r) := by simp
    rw [e, varAt]
    simp only [hk, (isLower_iff c).2 h1, List.length_cons]
    simp

theorem varAt_any (r : Runes) : varAt (42 :: r) = some 1 := rfl

/-- What `varAt` finds is a star or a variable. -/
theorem varAt_some {s : Runes} {k : Nat} (h : varAt s = some k) :
    (k = 1 ∧ ∃ r, s = 42 :: r) ∨ ∃ n r, VarName n ∧ s = (123 :: n ++ [125]) ++ r ∧ k = n.length + 2 := by
  unfold varAt at h
  split at h
  · cases h
  · cases h; exact Or.inl ⟨rfl, _, rfl⟩
  · rename_i c t
    simp only at h
    split at h
    · rename_i hc
      simp only [Bool.and_eq_true, decide_eq_true_eq, beq_iff_eq] at hc
      obtain ⟨⟨h1, h2⟩, h3⟩ := hc
      cases h
      right
      have ht : t = t.takeWhile isAlnum ++ t.dropWhile isAlnum := (List.takeWhile_append_dropWhile).symm
      have hdw : ∃ r, t.dropWhile isAlnum = 125 :: r := by
        rw [ht, List.getElem?_append_right (by rw [← ht]; exact Nat.le_refl _)] at h3
        rw [← ht] at h3
        simp only [Nat.sub_self] at h3
        cases hd : t.dropWhile isAlnum with
        | nil => rw [hd] at h3; simp at h3
        | cons a r => rw [hd] at h3; simp at h3; subst h3; exact ⟨r, rfl⟩
      obtain ⟨r, hr⟩ := hdw
      refine ⟨c :: t.takeWhile isAlnum, r, ?_, ?_, ?_⟩
      · cases htw : t.takeWhile isAlnum with
        | nil => rw [htw] at h2; simp at h2
        | cons d u =>
          refine ⟨(isLower_iff c).1 h1, ?_⟩
          intro x hx
          rw [← htw] at hx
          exact (isAlnum_iff x).1 (List.all_eq_true.1 (List.all_takeWhile) x hx)
      · conv => lhs; rw [ht, hr]
        simp
      · simp
    · cases h
  · cases h

/-- In a plain text followed by something that starts with '{' or '*' (or nothing), no variable starts inside the text. -/
theorem varAt_plain {a : Nat} {s r : Runes} (h : PlainText (a :: s)) (hr : r = [] ∨ (∃ t, r = 123 :: t) ∨ ∃ t, r = 42 :: t) :
    varAt (a :: s ++ r) = none := by
  cases hv : varAt (a :: s ++ r) with
  | none => rfl
  | some k =>
    exfalso
    rcases varAt_some hv with ⟨_, r', e⟩ | ⟨n, r', hn, e, _⟩
    · simp only [List.cons_append, List.cons.injEq] at e
      have := (h [] s [42] (by rw [e.1]; rfl)).1
      exact this rfl
    · -- n is inside s: otherwise it would contain '{' or '*'
      have hnc : ∀ x ∈ n, LetterOrDigit x := by
        match n, hn with
        | c :: d :: t, ⟨h1, h2⟩ =>
          intro x hx
          simp only [List.mem_cons] at hx
          rcases hx with rfl | hx
          · exact Or.inl h1
          · exact h2 x (by simpa using hx)
      have key : ∀ (n s : Runes) (r' : Runes), (∀ x ∈ n, LetterOrDigit x) → s ++ r = n ++ 125 :: r' → ∃ v, s = n ++ 125 :: v := by
        intro n
        induction n with
        | nil =>
          intro s r' _ e
          cases s with
          | nil =>
            simp only [List.nil_append] at e
            rcases hr with h | ⟨t, h⟩ | ⟨t, h⟩ <;> rw [h] at e <;> simp at e
          | cons x s => simp at e; exact ⟨s, by rw [e.1]; rfl⟩
        | cons x n ih =>
          intro s r' hx e
          cases s with
          | nil =>
            have hxx := hx x (by simp)
            simp only [List.nil_append, List.cons_append] at e
            rcases hr with h | ⟨t, h⟩ | ⟨t, h⟩ <;> rw [h] at e
            · simp at e
            · simp at e; rw [← e.1] at hxx; simp [LetterOrDigit] at hxx
            · simp at e; rw [← e.1] at hxx; simp [LetterOrDigit] at hxx
          | cons y s =>
            simp only [List.cons_append, List.cons.injEq] at e
            obtain ⟨v, hv⟩ := ih s r' (fun z hz => hx z (by simp [hz])) e.2
            exact ⟨v, by rw [e.1, hv]; rfl⟩
      simp only [List.cons_append, List.append_assoc, List.cons.injEq] at e
      obtain ⟨v, hv⟩ := key n s r' hnc (by simpa using e.2)
      exact (h [] v (123 :: n ++ [125]) (by rw [e.1, hv]; simp)).2 n hn rfl

theorem plainText_tail {a : Nat} {s : Runes} (h : PlainText (a :: s)) : PlainText s := by
  intro u v m e
  exact h (a :: u) v m (by rw [e]; rfl)

theorem findAll_plain {s : Runes} (h : PlainText s) {r : Runes} (hr : r = [] ∨ (∃ t, r = 123 :: t) ∨ ∃ t, r = 42 :: t) (pos : Nat) :
    findAll pos 0 (s ++ r) = findAll (pos + s.length) 0 r := by
  induction s generalizing pos with
  | nil => rfl
  | cons a s ih =>
    have hv := varAt_plain h hr
    simp only [List.cons_append] at hv ⊢
    simp only [findAll, hv]
    rw [ih (plainText_tail h)]
    congr 1
    simp only [List.length_cons]; omega

theorem findAll_skip (u r : Runes) (pos : Nat) : findAll pos u.length (u ++ r) = findAll (pos + u.length) 0 r := by
  induction u generalizing pos with
  | nil => rfl
  | cons a t ih =>
    simp only [List.length_cons, List.cons_append, findAll]
    rw [ih]; congr 1; omega

/-- The regular expression of a reading. -/
def rexp : List Tok → Runes
  | [] => []
  | [.text s] => s
  | .text s :: ts => quoteMeta s ++ rexp ts
  | .var _ :: ts => ascii b!"([^/]+)" ++ rexp ts
  | .any :: ts => ascii b!"(.*)" ++ rexp ts

theorem slice_mid (a b c : Runes) : slice (a ++ b ++ c) a.length (a.length + b.length) = b := by
  unfold slice
  rw [List.append_assoc, List.drop_left, show a.length + b.length - a.length = b.length by omega, List.take_left]

theorem build_reads {q : Runes} {ts : List Tok} (h : Reads q ts) :
    ∀ (pre : Runes), build (pre ++ q) pre.length (findAll pre.length 0 q) = rexp ts := by
  induction h with
  | @last s hs =>
    intro pre
    have := findAll_plain hs (r := []) (Or.inl rfl) pre.length
    rw [List.append_nil] at this
    rw [this]
    simp [findAll, build, rexp]
  | @var s n r ts hs hn hr ih =>
    intro pre
    have e1 : s ++ (123 :: n ++ [125]) ++ r = s ++ (123 :: (n ++ [125] ++ r)) := by simp
    rw [e1, findAll_plain hs (Or.inr (Or.inl ⟨_, rfl⟩))]
    have hv := varAt_var hn r
    simp only [List.cons_append] at hv
    simp only [findAll, hv]
    rw [show n.length + 2 - 1 = (n ++ [125]).length by simp, findAll_skip]
    simp only [build]
    have g1 : slice (pre ++ (s ++ 123 :: (n ++ [125] ++ r))) pre.length (pre.length + s.length) = s := by
      have := slice_mid pre s (123 :: (n ++ [125] ++ r))
      simpa using this
    have g2 : (pre ++ (s ++ 123 :: (n ++ [125] ++ r)))[pre.length + s.length]? = some 123 := by
      rw [← List.append_assoc, List.getElem?_append_right (by simp)]; simp
    have g3 : (pre ++ (s ++ 123 :: (n ++ [125] ++ r)))[pre.length + s.length + (n.length + 2) - 1]? = some 125 := by
      rw [show pre ++ (s ++ 123 :: (n ++ [125] ++ r)) = (pre ++ s ++ 123 :: n) ++ 125 :: r by simp,
        List.getElem?_append_right (by simp; omega)]
      have : pre.length + s.length + (n.length + 2) - 1 - (pre ++ s ++ 123 :: n).length = 0 := by simp; omega
      rw [this]; rfl
    rw [g1, if_pos ⟨g2, g3⟩]
    have := ih (pre ++ s ++ 123 :: n ++ [125])
    have e2 : (pre ++ s ++ 123 :: n ++ [125]).length = pre.length + s.length + (n.length + 2) := by simp; omega
    rw [e2] at this
    have e3 : pre.length + s.length + 1 + (n ++ [125]).length = pre.length + s.length + (n.length + 2) := by simp; omega
    rw [e3]
    have e4 : pre ++ (s ++ 123 :: (n ++ [125] ++ r)) = pre ++ s ++ 123 :: n ++ [125] ++ r := by simp
    rw [e4, this]
    cases ts <;> simp [rexp]
  | @any s r ts hs hr ih =>
    intro pre
    have e1 : s ++ [42] ++ r = s ++ (42 :: r) := by simp
    rw [e1, findAll_plain hs (Or.inr (Or.inr ⟨_, rfl⟩))]
    simp only [findAll, varAt_any, build, Nat.sub_self]
    have g1 : slice (pre ++ (s ++ 42 :: r)) pre.length (pre.length + s.length) = s := by
      have := slice_mid pre s (42 :: r)
      simpa using this
    have g2 : (pre ++ (s ++ 42 :: r))[pre.length + s.length]? = some 42 := by
      rw [← List.append_assoc, List.getElem?_append_right (by simp)]; simp
    rw [g1, if_neg (by rw [g2]; simp), if_pos g2]
    have := ih (pre ++ s ++ [42])
    have e2 : (pre ++ s ++ [42]).length = pre.length + s.length + 1 := by simp; omega
    rw [e2] at this
    have e4 : pre ++ (s ++ 42 :: r) = pre ++ s ++ [42] ++ r := by simp
    rw [e4, this]
    cases ts <;> simp [rexp]

theorem toRegexp_reads {p : Runes} {ts : List Tok} (h : Reads p ts) : toRegexp p = rexp ts := by
  have := build_reads h []
  simpa [toRegexp] using this

theorem reads_ne_nil {p : Runes} {ts : List Tok} (h : Reads p ts) : ts ≠ [] := by cases h <;> simp

theorem parse_rexp {p : Runes} {ts : List Tok} (h : Reads p ts) :
    ∀ {l : Runes}, LastText ts l → (∀ r ∈ l, ¬ Meta r) → parseRe 0 (rexp ts) = some (pieces ts) := by
  induction h with
  | @last s hs =>
    intro l hl hm
    simp only [LastText] at hl
    subst hl
    have := parseRe_quote l []
    rw [quoteMeta_plain hm] at this
    simpa [rexp, pieces, parseRe] using this
  | @var s n r ts hs hn hr ih =>
    intro l hl hm
    have hne := reads_ne_nil hr
    cases ts with
    | nil => exact absurd rfl hne
    | cons a ts =>
      have := ih (l := l) hl hm
      simp only [rexp, pieces]
      rw [parseRe_quote, parseRe_seg, this]; rfl
  | @any s r ts hs hr ih =>
    intro l hl hm
    have hne := reads_ne_nil hr
    cases ts with
    | nil => exact absurd rfl hne
    | cons a ts =>
      have := ih (l := l) hl hm
      simp only [rexp, pieces]
      rw [parseRe_quote, parseRe_star, this]; rfl

/-- Every text has a reading. -/
theorem reads_exists : ∀ (k : Nat) (p : Runes), p.length ≤ k → ∃ ts, Reads p ts := by
  intro k
  induction k with
  | zero =>
    intro p hp
    have : p = [] := List.length_eq_zero_iff.1 (by omega)
    subst this
    refine ⟨_, .last ?_⟩
    intro u v m e
    have := List.append_eq_nil_iff.1 e.symm
    have := List.append_eq_nil_iff.1 this.1
    rw [this.2]; simp
  | succ k ih =>
    intro p hp
    -- look for the leftmost variable
    have key : ∀ q : Runes, (PlainText q) ∨ (∃ s r, q = s ++ [42] ++ r ∧ PlainText s) ∨
        ∃ s n r, q = s ++ (123 :: n ++ [125]) ++ r ∧ PlainText s ∧ VarName n := by
      intro q
      induction q with
      | nil => left; intro u v m e
               have := List.append_eq_nil_iff.1 e.symm
               have := List.append_eq_nil_iff.1 this.1
               rw [this.2]; simp
      | cons a q ihq =>
        have hnil : PlainText [] := by
          intro u v m e
          have := List.append_eq_nil_iff.1 e.symm
          have := List.append_eq_nil_iff.1 this.1
          rw [this.2]; simp
        cases hv : varAt (a :: q) with
        | some k =>
          rcases varAt_some hv with ⟨_, r, e⟩ | ⟨n, r, hn, e, _⟩
          · exact Or.inr (Or.inl ⟨[], r, by simpa using e, hnil⟩)
          · exact Or.inr (Or.inr ⟨[], n, r, by simpa using e, hnil, hn⟩)
        | none =>
          -- no variable starts here: prepending `a` keeps a plain prefix plain
          have hp : ∀ s r, q = s ++ r → PlainText s → PlainText (a :: s) := by
            intro s r e hs u v m e'
            cases u with
            | cons b u =>
              simp only [List.cons_append, List.cons.injEq] at e'
              exact hs u v m e'.2
            | nil =>
              simp only [List.nil_append] at e'
              constructor
              · rintro rfl
                simp at e'; rw [e'.1] at hv; simp [varAt] at hv
              · rintro n hn rfl
                have : a :: q = (123 :: n ++ [125]) ++ (v ++ r) := by
                  rw [e, ← List.cons_append, e']; simp
                rw [this, varAt_var hn] at hv; cases hv
          rcases ihq with h | ⟨s, r, e, h⟩ | ⟨s, n, r, e, h, hn⟩
          · exact Or.inl (hp q [] (by simp) h)
          · exact Or.inr (Or.inl ⟨a :: s, r, by simp [e], hp s ([42] ++ r) (by rw [e]; simp) h⟩)
          · exact Or.inr (Or.inr ⟨a :: s, n, r, by simp [e], hp s ((123 :: n ++ [125]) ++ r) (by rw [e]; simp) h, hn⟩)
    rcases key p with h | ⟨s, r, e, h⟩ | ⟨s, n, r, e, h, hn⟩
    · exact ⟨_, .last h⟩
    · subst e
      obtain ⟨ts, hts⟩ := ih r (by simp at hp; omega)
      exact ⟨_, .any h hts⟩
    · subst e
      obtain ⟨ts, hts⟩ := ih r (by simp at hp; omega)
      exact ⟨_, .var h hn hts⟩

/-! ### Method prefixes -/

theorem lowerRune_eq (r : Nat) : lowerRune r = goLower r := by
  unfold lowerRune goLower lowerLetter
  split
  · rename_i h
    rw [if_neg (by omega), if_neg (by omega)]
  · rfl

theorem knownMethods_eq : knownMethods = methods.map Str.lower := by decide

theorem ascii_append (a b : Str) : ascii (a ++ b) = ascii a ++ ascii b := by simp [ascii]

theorem no_colon {k : Str} (h : k ∈ knownMethods) : 58 ∉ ascii k := by
  have : ∀ k ∈ knownMethods, 58 ∉ ascii k := by decide
  exact this k h

theorem prefix_iff {p : Runes} {k : Str} :
    (ascii (k ++ b!":")).isPrefixOf (p.map lowerRune) = true ↔
      ∃ m rest, p = m ++ 58 :: rest ∧ m.map goLower = k.map UInt8.toNat := by
  rw [List.isPrefixOf_iff_prefix, ascii_append]
  constructor
  · rintro ⟨t, ht⟩
    have e := ht.symm
    rw [List.map_eq_append_iff] at e
    obtain ⟨l1, l2, rfl, h1, h2⟩ := e
    rw [List.map_eq_append_iff] at h1
    obtain ⟨m, c, rfl, h3, h4⟩ := h1
    cases c with
    | nil => cases h4
    | cons c cs =>
      simp [ascii] at h4
      obtain ⟨hc, rfl⟩ := h4
      have : c = 58 := by
        unfold lowerRune at hc
        split at hc
        · omega
        · split at hc
          · cases hc
          · split at hc
            · cases hc
            · exact hc
      subst this
      refine ⟨m, l2, by simp, ?_⟩
      rw [show goLower = lowerRune from funext fun r => (lowerRune_eq r).symm, h3]; rfl
  · rintro ⟨m, rest, rfl, h⟩
    refine ⟨rest.map lowerRune, ?_⟩
    rw [show goLower = lowerRune from funext fun r => (lowerRune_eq r).symm] at h
    simp only [List.map_append, List.map_cons, h]
    simp only [ascii, List.append_assoc]
    rfl

theorem stripMethod_none {p : Runes} (hs : ∀ n ∈ p, Scalar n) (hu : Unprefixed p) :
    stripMethod methods (utf8s p) = ([], utf8s p) := by
  have : ∀ ms : List Str, (∀ m ∈ ms, Str.lower m ∈ knownMethods) → stripMethod ms (utf8s p) = ([], utf8s p) := by
    intro ms
    induction ms with
    | nil => intro _; rfl
    | cons m ms ih =>
      intro h
      simp only [stripMethod]
      rw [if_neg, ih (fun x hx => h x (by simp [hx]))]
      rw [runes_utf8s hs]
      intro hp
      obtain ⟨m', rest, e, h'⟩ := prefix_iff.1 hp
      exact hu ⟨m', rest, e, _, h m (by simp), h'⟩
  apply this
  intro m hm
  rw [knownMethods_eq]; exact List.mem_map_of_mem hm

theorem append_colon_inj {a b : Runes} {r s : Runes} (ha : 58 ∉ a) (hb : 58 ∉ b) (h : a ++ 58 :: r = b ++ 58 :: s) : a = b ∧ r = s := by
  induction a generalizing b with
  | nil => cases b with
    | nil => simpa using h
    | cons x b => simp at h; simp at hb; omega
  | cons x a ih => cases b with
    | nil => simp at h; simp at ha; omega
    | cons y b =>
      simp only [List.cons_append, List.cons.injEq] at h
      simp only [List.mem_cons, not_or] at ha hb
      obtain ⟨e1, e2⟩ := ih ha.2 hb.2 h.2
      exact ⟨by rw [h.1, e1], e2⟩

theorem goLower_colon {c : Nat} (h : goLower c = 58) : c = 58 := by
  rw [← lowerRune_eq] at h
  unfold lowerRune at h
  split at h
  · omega
  · split at h
    · cases h
    · split at h
      · cases h
      · exact h

theorem map_goLower_no_colon {m : Runes} {k : Str} (hk : k ∈ knownMethods) (h : m.map goLower = k.map UInt8.toNat) : 58 ∉ m := by
  intro hc
  have : 58 ∈ m.map goLower := List.mem_map.2 ⟨58, hc, by decide⟩
  rw [h] at this
  exact no_colon hk this

theorem goLower_of_lower {m : Runes} {k : Str} (hk : k ∈ knownMethods) (h : m.map lowerLetter = k.map UInt8.toNat) :
    m.map goLower = k.map UInt8.toNat ∧ ∀ n ∈ m, n < 128 := by
  have hlt : ∀ n ∈ m, n < 128 := by
    intro n hn
    have : lowerLetter n ∈ k.map UInt8.toNat := h ▸ List.mem_map_of_mem hn
    have hh : ∀ k ∈ knownMethods, ∀ x ∈ k.map UInt8.toNat, x < 128 := by decide
    have := hh k hk _ this
    unfold lowerLetter at this
    split at this <;> omega
  refine ⟨?_, hlt⟩
  rw [← h]
  apply List.map_congr_left
  intro n hn
  have := hlt n hn
  unfold goLower
  rw [if_neg (by omega), if_neg (by omega)]

theorem stripMethod_some {m rest : Runes} (hs : ∀ n ∈ rest, Scalar n) {k : Str} (hk : k ∈ knownMethods)
    (hm : m.map lowerLetter = k.map UInt8.toNat) :
    stripMethod methods (utf8s (m ++ 58 :: rest)) = (k, utf8s rest) := by
  obtain ⟨hg, hlt⟩ := goLower_of_lower hk hm
  have hsc : ∀ n ∈ m ++ 58 :: rest, Scalar n := by
    intro n hn
    simp only [List.mem_append, List.mem_cons] at hn
    rcases hn with hn | rfl | hn
    · have := hlt n hn; left; omega
    · left; omega
    · exact hs n hn
  have hdrop : ∀ l : Nat, l = m.length → (utf8s (m ++ 58 :: rest)).drop (l + 1) = utf8s rest := by
    rintro l rfl
    rw [show m ++ 58 :: rest = (m ++ [58]) ++ rest by simp, utf8s_append]
    have : (utf8s (m ++ [58])).length = m.length + 1 := by
      rw [utf8s_ascii]
      · simp
      · intro n hn
        simp only [List.mem_append, List.mem_singleton] at hn
        rcases hn with hn | rfl
        · exact hlt n hn
        · omega
    rw [← this, List.drop_left]
  have : ∀ ms : List Str, (∀ x ∈ ms, Str.lower x ∈ knownMethods) → (∃ x ∈ ms, Str.lower x = k) →
      stripMethod ms (utf8s (m ++ 58 :: rest)) = (k, utf8s rest) := by
    intro ms
    induction ms with
    | nil => rintro _ ⟨x, hx, _⟩; cases hx
    | cons x ms ih =>
      intro h hex
      simp only [stripMethod]
      rw [runes_utf8s hsc]
      by_cases hp : (ascii (Str.lower x ++ b!":")).isPrefixOf ((m ++ 58 :: rest).map lowerRune) = true
      · rw [if_pos hp]
        obtain ⟨m', rest', e, h'⟩ := prefix_iff.1 hp
        have hx := h x (by simp)
        obtain ⟨e1, e2⟩ := append_colon_inj (map_goLower_no_colon hk hg) (map_goLower_no_colon hx h') e
        subst e1 e2
        rw [hg] at h'
        have inj : ∀ {a b : Str}, a.map UInt8.toNat = b.map UInt8.toNat → a = b := by
          intro a b hab
          exact (List.map_inj_right (fun _ _ h => UInt8.toNat.inj h)).1 hab
        have ek := inj h'
        have hlen : x.length = m.length := by
          have h1 : (Str.lower x).length = x.length := by simp [Str.lower]
          rw [← h1, ← ek]
          have := congrArg List.length hm
          simpa using this.symm
        rw [hdrop _ hlen, ← ek]
      · rw [if_neg hp]
        apply ih (fun y hy => h y (by simp [hy]))
        obtain ⟨y, hy, e⟩ := hex
        simp only [List.mem_cons] at hy
        rcases hy with rfl | hy
        · exfalso; apply hp
          rw [prefix_iff, e]
          exact ⟨m, rest, rfl, hg⟩
        · exact ⟨y, hy, e⟩
  apply this
  · intro x hx; rw [knownMethods_eq]; exact List.mem_map_of_mem hx
  · rw [knownMethods_eq] at hk
    obtain ⟨x, hx, e⟩ := List.mem_map.1 hk
    exact ⟨x, hx, e⟩

theorem equalFold_ascii {a b : Runes} (hb : ∀ n ∈ b, n < 128) (ha : ∀ n ∈ a, lowerLetter n = n) :
    equalFold a b = true ↔ a.map lowerLetter = b.map lowerLetter := by
  induction a generalizing b with
  | nil => cases b <;> simp [equalFold]
  | cons x a ih =>
    cases b with
    | nil => simp [equalFold]
    | cons y b =>
      have hy := hb y (by simp)
      have hx := ha x (by simp)
      simp only [equalFold, Bool.and_eq_true, List.map_cons, List.cons.injEq]
      rw [ih (fun n hn => hb n (by simp [hn])) (fun n hn => ha n (by simp [hn]))]
      apply and_congr _ Iff.rfl
      have e : lowerRune y = lowerLetter y := by
        unfold lowerRune lowerLetter
        split
        · rfl
        · rw [if_neg (by omega), if_neg (by omega)]
      simp only [foldRune, e, Bool.or_eq_true, Bool.and_eq_true, beq_iff_eq, bne_iff_ne]
      rw [hx]
      constructor
      · rintro (⟨h, _⟩ | ⟨_, h⟩)
        · exact h.symm
        · omega
      · intro h; left; exact ⟨h.symm, by omega⟩

/-! ### The cache -/

/-- The invariant of the concurrent system. -/
structure CacheInv (other : Runes → Option Regexp) (s : Sys) : Prop where
  cache : ∀ re f, s.cache re = some f → compile other re = some f
  log : ∀ c a, (c, a) ∈ s.log → a = matchPure other c.pattern c.method c.path
  pc : ∀ t, match s.pc t with
    | .idle | .start _ => True
    | .want c re | .locked c re => prepare c.pattern c.method = .need re
    | .looked c re r => prepare c.pattern c.method = .need re ∧ ∀ f, r = some f → compile other re = some f
    | .compiled c re f => prepare c.pattern c.method = .need re ∧ compile other re = some f
    | .unlock c r | .back c r => ∃ re, prepare c.pattern c.method = .need re ∧ compile other re = r

theorem cacheInv_init (other : Runes → Option Regexp) : CacheInv other Sys.init :=
  ⟨(by intro _ _ h; cases h), (by intro _ _ h; cases h), (by intro t; trivial)⟩

theorem cacheInv_step {other : Runes → Option Regexp} {s s' : Sys} {t : Nat} (h : CacheInv other s) (hs : Step other s t s') :
    CacheInv other s' := by
  have hpc := h.pc t
  have frame : ∀ (p : PC), (match p with
    | .idle | .start _ => True
    | .want c re | .locked c re => prepare c.pattern c.method = .need re
    | .looked c re r => prepare c.pattern c.method = .need re ∧ ∀ f, r = some f → compile other re = some f
    | .compiled c re f => prepare c.pattern c.method = .need re ∧ compile other re = some f
    | .unlock c r | .back c r => ∃ re, prepare c.pattern c.method = .need re ∧ compile other re = r) →
    ∀ u, match (if u = t then p else s.pc u) with
    | .idle | .start _ => True
    | .want c re | .locked c re => prepare c.pattern c.method = .need re
    | .looked c re r => prepare c.pattern c.method = .need re ∧ ∀ f, r = some f → compile other re = some f
    | .compiled c re f => prepare c.pattern c.method = .need re ∧ compile other re = some f
    | .unlock c r | .back c r => ∃ re, prepare c.pattern c.method = .need re ∧ compile other re = r := by
    intro p hp u
    by_cases e : u = t
    · simp only [e, if_true]; exact hp
    · simp only [e, if_false]; exact h.pc u
  cases hs with
  | enter c hp => exact ⟨h.cache, h.log, frame _ trivial⟩
  | early hp hd =>
    refine ⟨h.cache, ?_, frame _ trivial⟩
    intro c a hm
    rcases List.mem_cons.1 hm with e | hm
    · cases e; simp [matchPure, hd]
    · exact h.log c a hm
  | prep hp hd => exact ⟨h.cache, h.log, frame _ hd⟩
  | acquire hp hl => rw [hp] at hpc; exact ⟨h.cache, h.log, frame (.locked _ _) hpc⟩
  | look hp => rw [hp] at hpc; exact ⟨h.cache, h.log, frame (.looked _ _ _) ⟨hpc, fun f hf => h.cache _ f hf⟩⟩
  | hit hp => rw [hp] at hpc; exact ⟨h.cache, h.log, frame (.unlock _ _) ⟨_, hpc.1, hpc.2 _ rfl⟩⟩
  | bad hp hc => rw [hp] at hpc; exact ⟨h.cache, h.log, frame (.unlock _ _) ⟨_, hpc.1, hc⟩⟩
  | comp hp hc => rw [hp] at hpc; exact ⟨h.cache, h.log, frame (.compiled _ _ _) ⟨hpc.1, hc⟩⟩
  | @store c re f hp =>
    rw [hp] at hpc
    refine ⟨?_, h.log, frame (.unlock _ _) ⟨_, hpc.1, hpc.2⟩⟩
    intro re' f' hc
    simp only at hc
    split at hc
    · rename_i e; cases hc; rw [e]; exact hpc.2
    · exact h.cache re' f' hc
  | release hp => rw [hp] at hpc; exact ⟨h.cache, h.log, frame (.back _ _) hpc⟩
  | fail hp =>
    rw [hp] at hpc
    refine ⟨h.cache, ?_, frame _ trivial⟩
    intro c a hm
    rcases List.mem_cons.1 hm with e | hm
    · cases e
      obtain ⟨re, h1, h2⟩ := hpc
      simp [matchPure, h1, h2]
    · exact h.log c a hm
  | answer hp =>
    rw [hp] at hpc
    refine ⟨h.cache, ?_, frame _ trivial⟩
    intro c a hm
    rcases List.mem_cons.1 hm with e | hm
    · cases e
      obtain ⟨re, h1, h2⟩ := hpc
      simp [matchPure, h1, h2]
    · exact h.log c a hm

theorem cacheInv_reach {other : Runes → Option Regexp} {s : Sys} (h : Reach other s) : CacheInv other s := by
  induction h with
  | init => exact cacheInv_init other
  | step _ hs ih => exact cacheInv_step ih hs

/-- Is the goroutine between Lock and Unlock? -/
def PC.holding : PC → Prop
  | .locked _ _ | .looked _ _ _ | .compiled _ _ _ | .unlock _ _ => True
  | _ => False

/-- The lock is held exactly by the goroutine in the critical section. -/
def LockInv (s : Sys) : Prop := ∀ t, (s.pc t).holding ↔ s.lock = some t

theorem lockInv_step {other : Runes → Option Regexp} {s s' : Sys} {t : Nat} (h : LockInv s) (hs : Step other s t s') :
    LockInv s' := by
  intro u
  have hu := h u
  have ht := h t
  cases hs <;> rename_i hp <;> (try rename_i hp2) <;> by_cases e : u = t <;>
    simp_all [Sys.set, PC.holding, eq_comm]
  
theorem lockInv_reach {other : Runes → Option Regexp} {s : Sys} (h : Reach other s) : LockInv s := by
  induction h with
  | init => intro t; simp [Sys.init, PC.holding]
  | step _ hs ih => exact lockInv_step ih hs

end Oapi.Route
