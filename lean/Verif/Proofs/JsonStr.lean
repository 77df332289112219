import Verif.Proofs.JsonCompact

/- Reading string literals. -/
namespace Oapi.JsonText
open Spec Spec.JsonText
open Spec.PtrJson (hexOf Hex4 Elem JsonString shorts)
open PtrJson (hexDigit hexDigits readHex runeBytes)

theorem strGo_drop (s : Str) : ∀ k, strGo k s = strGo 0 (s.drop k) := by
  induction s with
  | nil => intro k; cases k <;> rfl
  | cons c t ih =>
    intro k
    cases k with
    | zero => rfl
    | succ k => simp only [strGo, List.drop_succ_cons]; exact ih k

theorem strGo_esc_u {t : Str} {v : Nat} (h : hex4 t = some v) : strGo 0 (92 :: 117 :: t) =
    if isSurrogate v then match pairOf v (t.drop 4) with
      | some n => pre (runeBytes n) (strGo 0 (t.drop 10))
      | none => pre (runeBytes 0xFFFD) (strGo 0 (t.drop 4))
    else pre (runeBytes v) (strGo 0 (t.drop 4)) := by
  simp only [strGo]
  rw [if_neg (by decide), if_neg (by decide), if_pos trivial, if_pos trivial, h]
  simp only
  rw [strGo_drop _ 10, strGo_drop _ 4]
  cases isSurrogate v <;> cases pairOf v (List.drop 4 t) <;> rfl

theorem strGo_short {l m : UInt8} (hl : l ≠ 117) (h : shortOf l = some m) (t : Str) : strGo 0 (92 :: l :: t) = pre [m] (strGo 0 t) := by
  simp only [strGo]
  rw [if_neg (by decide), if_neg (by decide), if_pos trivial, if_neg hl, h]

theorem strGo_bad {c : UInt8} {t : Str} (hc : 128 ≤ c) (h : Route.decode1 (c :: t) = none) : strGo 0 (c :: t) = pre (runeBytes 0xFFFD) (strGo 0 t) := by
  have h' := UInt8.le_iff_toNat_le.1 hc
  have e : (128 : UInt8).toNat = 128 := rfl
  have h34 : c ≠ 34 := by rintro rfl; exact absurd hc (by decide)
  have h92 : c ≠ 92 := by rintro rfl; exact absurd hc (by decide)
  have h32 : ¬ c < 32 := fun hh => by
    have := UInt8.lt_iff_toNat_lt.1 hh
    have : (32 : UInt8).toNat = 32 := rfl
    omega
  simp only [strGo, if_neg h34, if_neg h32, if_neg h92, if_neg (UInt8.not_lt.2 hc), h]

theorem strGo_rune {c : UInt8} {t : Str} {n w : Nat} (hc : 128 ≤ c) (h : Route.decode1 (c :: t) = some (n, w)) (hw : 1 ≤ w) :
    strGo 0 (c :: t) = pre (runeBytes n) (strGo 0 ((c :: t).drop w)) := by
  have h' := UInt8.le_iff_toNat_le.1 hc
  have e : (128 : UInt8).toNat = 128 := rfl
  have h34 : c ≠ 34 := by rintro rfl; exact absurd hc (by decide)
  have h92 : c ≠ 92 := by rintro rfl; exact absurd hc (by decide)
  have h32 : ¬ c < 32 := fun hh => by
    have := UInt8.lt_iff_toNat_lt.1 hh
    have : (32 : UInt8).toNat = 32 := rfl
    omega
  simp only [strGo, if_neg h34, if_neg h32, if_neg h92, if_neg (UInt8.not_lt.2 hc), h]
  rw [strGo_drop]
  obtain ⟨w, rfl⟩ : ∃ k, w = k + 1 := ⟨w - 1, by omega⟩
  rfl

theorem strGo_plain {n : Nat} (h : Scalar n) (h1 : 32 ≤ n) (h2 : n ≠ 34) (h3 : n ≠ 92) (t : Str) : strGo 0 (utf8 n ++ t) = pre (utf8 n) (strGo 0 t) := by
  by_cases hlt : n < 128
  · have e : utf8 n = [UInt8.ofNat n] := by unfold utf8; rw [if_pos hlt]
    rw [e, List.singleton_append]
    have g : (UInt8.ofNat n).toNat = n := by rw [UInt8.toNat_ofNat']; omega
    have e32 : (32 : UInt8).toNat = 32 := rfl
    have e128 : (128 : UInt8).toNat = 128 := rfl
    have c32 : ¬ UInt8.ofNat n < 32 := fun hh => by have := UInt8.lt_iff_toNat_lt.1 hh; omega
    have c128 : UInt8.ofNat n < 128 := UInt8.lt_iff_toNat_lt.2 (by omega)
    have c34 : UInt8.ofNat n ≠ 34 := PtrJson.ofNat_ne (k := 34) (by omega) (by decide) h2
    have c92 : UInt8.ofNat n ≠ 92 := PtrJson.ofNat_ne (k := 92) (by omega) (by decide) h3
    simp only [strGo, if_neg c34, if_neg c32, if_neg c92, if_pos c128]
  · obtain ⟨a, x, hu, ha, hx⟩ := PtrJson.head_high h (by omega)
    have hd := Route.decode1_utf8 h t
    have hl : (utf8 n ++ t).drop (utf8 n).length = t := by simp
    rw [hu] at hd hl ⊢
    rw [List.cons_append] at hd hl ⊢
    rw [strGo_rune (UInt8.le_iff_toNat_le.2 ha) hd (by simp), hl, PtrJson.runeBytes_utf8, hu]

theorem hex4_text (h : Hex4) (t : Str) : hex4 (h.a :: h.b :: h.c :: h.d :: t) = some h.value := by
  have := PtrJson.readHex_hex4 h t
  simp only [List.cons_append, List.nil_append] at this
  simp only [hex4, this, Option.map_some]

theorem getu4_text (h : Hex4) (t : Str) : getu4 (h.text ++ t) = some h.value := by
  simp only [Hex4.text, List.cons_append, List.nil_append, getu4]
  rw [if_pos ⟨trivial, trivial⟩]
  exact hex4_text h t

/-- Four digits in front. -/
theorem hex4_inv {t : Str} {v : Nat} (h : hex4 t = some v) : ∃ (x : Hex4) (r : Str), x.value = v ∧ t = x.a :: x.b :: x.c :: x.d :: r := by
  unfold hex4 at h
  match t, h with
  | a :: b :: c :: d :: r, h =>
    simp only [readHex] at h
    cases e1 : Url.hexVal a with
    | none => simp [e1] at h
    | some w1 => cases e2 : Url.hexVal b with
      | none => simp [e1, e2] at h
      | some w2 => cases e3 : Url.hexVal c with
        | none => simp [e1, e2, e3] at h
        | some w3 => cases e4 : Url.hexVal d with
          | none => simp [e1, e2, e3, e4] at h
          | some w4 =>
            simp only [e1, e2, e3, e4, Option.map_some, Option.some.injEq] at h
            rw [PtrJson.hexVal_hexOf] at e1 e2 e3 e4
            exact ⟨⟨a, b, c, d, v, _, _, _, _, e1, e2, e3, e4, by omega⟩, r, rfl, rfl⟩
  | [], h => simp [readHex] at h
  | [a], h =>
    simp only [readHex] at h
    cases e1 : Url.hexVal a <;> simp [e1] at h
  | [a, b], h =>
    simp only [readHex] at h
    cases e1 : Url.hexVal a <;> cases e2 : Url.hexVal b <;> simp [e1, e2] at h
  | [a, b, c], h =>
    simp only [readHex] at h
    cases e1 : Url.hexVal a <;> cases e2 : Url.hexVal b <;> cases e3 : Url.hexVal c <;> simp [e1, e2, e3] at h

theorem getu4_inv {t : Str} {v : Nat} (h : getu4 t = some v) : ∃ (x : Hex4) (r : Str), x.value = v ∧ t = x.text ++ r := by
  match t, h with
  | [], h => simp [getu4] at h
  | [a], h => simp [getu4] at h
  | a :: b :: t, h =>
    simp only [getu4] at h
    split at h
    · rename_i hab
      obtain ⟨x, r, h1, h2⟩ := hex4_inv h
      refine ⟨x, r, h1, ?_⟩
      rw [hab.1, hab.2, h2]
      rfl
    · simp at h

theorem surrogate_iff (v : Nat) : isSurrogate v = true ↔ 0xD800 ≤ v ∧ v < 0xE000 := by simp [isSurrogate]

theorem pair_ok {h lo : Hex4} (hok : (Elem.pair h lo).ok) (t : Str) :
    pairOf h.value (lo.text ++ t) = some (0x10000 + (h.value - 0xD800) * 1024 + (lo.value - 0xDC00)) := by
  obtain ⟨_, h2, h3, h4⟩ := hok
  simp only [pairOf, getu4_text]
  rw [if_pos ⟨h2, h3, h4⟩]

theorem pairOf_inv {h : Hex4} (hs : 0xD800 ≤ h.value) {t : Str} {n : Nat} (hp : pairOf h.value t = some n) : ∃ (lo : Hex4) (r : Str), (Elem.pair h lo).ok ∧ t = lo.text ++ r ∧
    n = 0x10000 + (h.value - 0xD800) * 1024 + (lo.value - 0xDC00) := by
  unfold pairOf at hp
  cases hg : getu4 t with
  | none => rw [hg] at hp; simp at hp
  | some w =>
    rw [hg] at hp
    simp only at hp
    split at hp
    · rename_i hc
      obtain ⟨lo, r, h1, h2⟩ := getu4_inv hg
      refine ⟨lo, r, ⟨hs, hc.1, ?_, ?_⟩, h2, ?_⟩
      · omega
      · omega
      · rw [h1]; exact (Option.some.inj hp).symm
    · simp at hp

theorem pairOf_none {h : Hex4} {t : Str} (hp : ∀ lo x, t = Hex4.text lo ++ x → ¬ (Elem.pair h lo).ok) (hs : 0xD800 ≤ h.value) : pairOf h.value t = none := by
  cases hn : pairOf h.value t with
  | none => rfl
  | some n =>
    obtain ⟨lo, r, h1, h2, _⟩ := pairOf_inv hs hn
    exact absurd h1 (hp lo r h2)

theorem pre_pre (a b : Str) (r : Option (Str × Str)) : pre a (pre b r) = pre (a ++ b) r := by cases r <;> simp [pre]

theorem strGo_elem {e : Elem} (he : e.ok) (t : Str) : strGo 0 (e.text ++ t) = pre e.meaning (strGo 0 t) := by
  cases e with
  | plain n => exact strGo_plain he.1 he.2.1 he.2.2.1 he.2.2.2 t
  | short l m =>
    simp only [Elem.ok, shorts, List.mem_cons, List.not_mem_nil, or_false, Prod.mk.injEq] at he
    have : l ≠ 117 ∧ shortOf l = some m := by
      rcases he with ⟨rfl, rfl⟩ | ⟨rfl, rfl⟩ | ⟨rfl, rfl⟩ | ⟨rfl, rfl⟩ | ⟨rfl, rfl⟩ | ⟨rfl, rfl⟩ | ⟨rfl, rfl⟩ <;> decide
    exact strGo_short this.1 this.2 t
  | slash => exact strGo_short (l := 47) (m := 47) (by decide) (by decide) t
  | uni h =>
    have hs : isSurrogate h.value = false := by
      cases hh : isSurrogate h.value with
      | false => rfl
      | true =>
        have := (surrogate_iff _).1 hh
        have hk : Scalar h.value := he
        rcases hk with h | h <;> omega
    simp only [Elem.text, Hex4.text, List.cons_append, List.nil_append]
    rw [strGo_esc_u (hex4_text h t), hs]
    rfl
  | pair a b =>
    have hs : isSurrogate a.value = true := (surrogate_iff _).2 ⟨he.1, by have := he.2.1; omega⟩
    have hp := pair_ok he t
    simp only [Elem.text, Hex4.text, List.cons_append, List.nil_append] at hp ⊢
    rw [strGo_esc_u (hex4_text a _), hs]
    simp only [if_true, List.drop_succ_cons, List.drop_zero, hp]
    rfl

theorem decode1_none {s : Str} (h : ∀ n x, Scalar n → s ≠ utf8 n ++ x) : Route.decode1 s = none := by
  cases hd : Route.decode1 s with
  | none => rfl
  | some p =>
    obtain ⟨n, w⟩ := p
    obtain ⟨h1, _, h2, _⟩ := PtrJson.decode1_inv hd
    exact absurd h2 (h n _ h1)

/-- A UTF-8 sequence does not reach over the closing quote. -/
theorem utf8_local {c : UInt8} {t r x : Str} {n : Nat} (hc : 128 ≤ c) (hn : Scalar n) (h : c :: (t ++ 34 :: r) = utf8 n ++ x) : ∃ y, c :: t = utf8 n ++ y := by
  have hge : 128 ≤ n := by
    refine Nat.le_of_not_lt fun hlt => ?_
    have e : utf8 n = [UInt8.ofNat n] := by unfold utf8; rw [if_pos hlt]
    rw [e] at h
    have := (List.cons.inj h).1
    rw [this] at hc
    have := UInt8.le_iff_toNat_le.1 hc
    rw [UInt8.toNat_ofNat'] at this
    have : (128 : UInt8).toNat = 128 := rfl
    omega
  obtain ⟨a, z, hu, _, hz⟩ := PtrJson.head_high hn hge
  rw [hu] at h ⊢
  simp only [List.cons_append] at h ⊢
  obtain ⟨rfl, h'⟩ := List.cons.inj h
  rcases List.append_eq_append_iff.1 h' with ⟨as, h1, h2⟩ | ⟨bs, h1, _⟩
  · -- z = t ++ as
    cases as with
    | nil => exact ⟨[], by rw [h1]; simp⟩
    | cons b as =>
      have : b = 34 := (List.cons.inj h2).1.symm
      subst this
      exact absurd (hz 34 (by rw [h1]; simp)) (by decide)
  · exact ⟨bs, by rw [h1]⟩

theorem pair_local {lo : Hex4} {t r x : Str} {s : Str} (hb : GoBody t s) (h : t ++ 34 :: r = Hex4.text lo ++ x) : ∃ y, t = lo.text ++ y := by
  rcases List.append_eq_append_iff.1 h with ⟨as, h1, h2⟩ | ⟨bs, h1, _⟩
  · cases as with
    | nil => exact ⟨[], by rw [h1]; simp⟩
    | cons b as =>
      have : b = 34 := (List.cons.inj h2).1.symm
      subst this
      exfalso
      have hm : (34 : UInt8) ∈ lo.text := by rw [h1]; simp
      obtain ⟨w, x, y, z, g1, g2, g3, g4, _⟩ := lo.ok
      simp only [Hex4.text, List.mem_cons, List.not_mem_nil, or_false] at hm
      rcases hm with hm | hm | hm | hm | hm | hm
      · exact absurd hm (by decide)
      · exact absurd hm (by decide)
      · rw [← hm] at g1; exact absurd g1 (by simp [hexOf, List.lookup])
      · rw [← hm] at g2; exact absurd g2 (by simp [hexOf, List.lookup])
      · rw [← hm] at g3; exact absurd g3 (by simp [hexOf, List.lookup])
      · rw [← hm] at g4; exact absurd g4 (by simp [hexOf, List.lookup])
  · exact ⟨bs, h1⟩

/-- Reading a literal gives what it means. -/
theorem strGo_body {b s : Str} (h : GoBody b s) (r : Str) : strGo 0 (b ++ 34 :: r) = some (s, r) := by
  induction h with
  | nil => rfl
  | elem he _ ih => rw [List.append_assoc, strGo_elem he, ih]; rfl
  | bad hc hno _ ih =>
    rw [List.cons_append, strGo_bad hc, ih]
    · rfl
    · refine decode1_none fun n x hn e => ?_
      obtain ⟨y, hy⟩ := utf8_local hc hn e
      exact hno n y hn hy
  | lone h1 h2 h3 hb ih =>
    rename_i h t s
    have hp : pairOf h.value (t ++ 34 :: r) = none := by
      refine pairOf_none (fun lo x e => ?_) h1
      obtain ⟨y, hy⟩ := pair_local hb e
      exact h3 lo y hy
    have hs : isSurrogate h.value = true := (surrogate_iff _).2 ⟨h1, h2⟩
    simp only [Hex4.text, List.cons_append, List.nil_append]
    rw [strGo_esc_u (hex4_text h _), hs]
    simp only [if_true, List.drop_succ_cons, List.drop_zero, hp, ih]
    rfl

theorem pre_some {b : Str} {r : Option (Str × Str)} {v t : Str} (h : pre b r = some (v, t)) : ∃ v', r = some (v', t) ∧ v = b ++ v' := by
  cases r with
  | none => simp [pre] at h
  | some x =>
    simp only [pre, Option.map_some, Option.some.injEq, Prod.mk.injEq] at h
    exact ⟨x.1, by rw [← h.2], h.1.symm⟩

theorem shortOf_inv {e m : UInt8} (h : shortOf e = some m) : e = 47 ∧ m = 47 ∨ (e, m) ∈ shorts := by
  unfold shortOf at h
  repeat' split at h
  · rename_i h'
    cases h
    rcases h' with rfl | rfl | rfl <;> simp [shorts]
  all_goals first
    | cases h; subst_vars; simp [shorts]
    | cases h

/-- Only literals are read. -/
theorem strGo_sound (n : Nat) : ∀ (s v r : Str), s.length ≤ n → strGo 0 s = some (v, r) → ∃ b, s = b ++ 34 :: r ∧ GoBody b v := by
  induction n with
  | zero =>
    intro s v r hl h
    cases s with
    | nil => simp [strGo] at h
    | cons c t => simp at hl
  | succ n ih =>
    intro s v r hl h
    cases s with
    | nil => simp [strGo] at h
    | cons c t =>
      simp only [List.length_cons] at hl
      by_cases h34 : c = 34
      · subst h34
        simp only [strGo, if_true, Option.some.injEq, Prod.mk.injEq] at h
        exact ⟨[], by rw [h.2]; rfl, by rw [← h.1]; exact .nil⟩
      by_cases h32 : c < 32
      · simp [strGo, if_neg h34, h32] at h
      have h32' : 32 ≤ c.toNat := UInt8.le_iff_toNat_le.1 (UInt8.not_lt.1 h32)
      by_cases h92 : c = 92
      · subst h92
        cases t with
        | nil => simp [strGo] at h
        | cons e t =>
          simp only [List.length_cons] at hl
          by_cases hu : e = 117
          · subst hu
            cases h4 : hex4 t with
            | none => simp [strGo, h4] at h
            | some v4 =>
              obtain ⟨x, t', hx, rfl⟩ := hex4_inv h4
              subst hx
              rw [strGo_esc_u h4] at h
              simp only [List.drop_succ_cons, List.drop_zero] at h
              simp only [List.length_cons] at hl
              by_cases hs : isSurrogate x.value = true
              · rw [if_pos hs] at h
                have hs' := (surrogate_iff _).1 hs
                cases hp : pairOf x.value t' with
                | none =>
                  rw [hp] at h
                  obtain ⟨v', h1, rfl⟩ := pre_some h
                  obtain ⟨b, rfl, hb⟩ := ih _ _ _ (by omega) h1
                  refine ⟨x.text ++ b, rfl, GoBody.lone hs'.1 hs'.2 ?_ hb⟩
                  rintro lo y rfl hok
                  have := pair_ok hok (y ++ 34 :: r)
                  rw [List.append_assoc, this] at hp
                  cases hp
                | some m =>
                  rw [hp] at h
                  obtain ⟨lo, t'', hok, rfl, hm⟩ := pairOf_inv hs'.1 hp
                  obtain ⟨v', h1, rfl⟩ := pre_some h
                  simp only [Hex4.text, List.cons_append, List.nil_append, List.drop_succ_cons, List.drop_zero, List.length_cons] at h1 hl
                  obtain ⟨b, rfl, hb⟩ := ih _ _ _ (by omega) h1
                  refine ⟨(Elem.pair x lo).text ++ b, rfl, ?_⟩
                  have := GoBody.elem hok hb
                  rw [Elem.meaning, ← hm] at this
                  exact this
              · rw [if_neg hs] at h
                obtain ⟨v', h1, rfl⟩ := pre_some h
                obtain ⟨b, rfl, hb⟩ := ih _ _ _ (by omega) h1
                refine ⟨(Elem.uni x).text ++ b, rfl, GoBody.elem ?_ hb⟩
                have hlt : x.value < 65536 := by
                  obtain ⟨w, a, y, z, g1, g2, g3, g4, g5⟩ := x.ok
                  rw [← PtrJson.hexVal_hexOf] at g1 g2 g3 g4
                  have := PtrJson.hexVal_lt g1
                  have := PtrJson.hexVal_lt g2
                  have := PtrJson.hexVal_lt g3
                  have := PtrJson.hexVal_lt g4
                  omega
                rw [surrogate_iff] at hs
                change Scalar x.value
                unfold Scalar
                omega
          · cases hsh : shortOf e with
            | none => simp [strGo, hu, hsh] at h
            | some m =>
              rw [strGo_short hu hsh] at h
              obtain ⟨v', h1, rfl⟩ := pre_some h
              obtain ⟨b, rfl, hb⟩ := ih _ _ _ (by omega) h1
              have : e = 47 ∧ m = 47 ∨ (e, m) ∈ shorts := by
                exact shortOf_inv hsh
              rcases this with ⟨rfl, rfl⟩ | hm
              · exact ⟨Elem.slash.text ++ b, rfl, GoBody.elem trivial hb⟩
              · exact ⟨(Elem.short e m).text ++ b, rfl, GoBody.elem hm hb⟩
      by_cases h128 : c < 128
      · have hp : utf8 c.toNat = [c] := by
          have := UInt8.lt_iff_toNat_lt.1 h128
          have e : (128 : UInt8).toNat = 128 := rfl
          unfold utf8; rw [if_pos (by omega)]; simp
        have hsc : Scalar c.toNat := .inl (by have := c.toNat_lt; omega)
        have n34 : c.toNat ≠ 34 := fun e => h34 (UInt8.toNat_inj.1 e)
        have n92 : c.toNat ≠ 92 := fun e => h92 (UInt8.toNat_inj.1 e)
        have hstep := strGo_plain hsc h32' n34 n92 t
        rw [hp, List.singleton_append] at hstep
        rw [hstep] at h
        obtain ⟨v', h1, rfl⟩ := pre_some h
        obtain ⟨b, rfl, hb⟩ := ih _ _ _ (by omega) h1
        refine ⟨c :: b, rfl, ?_⟩
        have := GoBody.elem (e := .plain c.toNat) ⟨hsc, h32', n34, n92⟩ hb
        simp only [Elem.text, Elem.meaning, hp] at this
        exact this
      · have hc : 128 ≤ c := UInt8.not_lt.1 h128
        cases hd : Route.decode1 (c :: t) with
        | none =>
          rw [strGo_bad hc hd] at h
          obtain ⟨v', h1, rfl⟩ := pre_some h
          obtain ⟨b, rfl, hb⟩ := ih _ _ _ (by omega) h1
          refine ⟨c :: b, rfl, GoBody.bad hc ?_ hb⟩
          intro m x hm e
          have := Route.decode1_utf8 hm (x ++ 34 :: r)
          rw [← List.append_assoc, ← e, List.cons_append, hd] at this
          cases this
        | some p =>
          obtain ⟨m, w⟩ := p
          obtain ⟨g1, g2, g3, g4⟩ := PtrJson.decode1_inv hd
          rw [strGo_rune hc hd g2] at h
          obtain ⟨v', h1, rfl⟩ := pre_some h
          obtain ⟨b, e, hb⟩ := ih _ _ _ (by
            have : ((c :: t).drop w).length = t.length + 1 - w := by rw [List.length_drop, List.length_cons]
            omega) h1
          have hm : 128 ≤ m := by
            refine Nat.le_of_not_lt fun hlt => ?_
            have e : utf8 m = [UInt8.ofNat m] := by unfold utf8; rw [if_pos hlt]
            rw [e] at g3
            have := (List.cons.inj g3).1
            rw [this] at hc
            have := UInt8.le_iff_toNat_le.1 hc
            rw [UInt8.toNat_ofNat'] at this
            have : (128 : UInt8).toNat = 128 := rfl
            omega
          refine ⟨utf8 m ++ b, ?_, GoBody.elem (e := .plain m) ⟨g1, by omega, by omega, by omega⟩ hb⟩
          rw [List.append_assoc, ← e]
          exact g3

theorem strGo_iff (s v r : Str) : strGo 0 s = some (v, r) ↔ ∃ b, s = b ++ 34 :: r ∧ GoBody b v := by
  constructor
  · exact strGo_sound s.length s v r (Nat.le_refl _)
  · rintro ⟨b, rfl, hb⟩; exact strGo_body hb r

theorem body_run {b s : Str} (h : GoBody b s) (st : List Ctx) : Run ⟨.inString, st⟩ b ⟨.inString, st⟩ := by
  induction h with
  | nil => exact .nil
  | elem he _ ih => exact Run.append (run_elem he st) ih
  | bad hc _ _ ih =>
    refine Run.append (a := [_]) (run_high (fun b hb => ?_) st) ih
    rw [List.mem_singleton.1 hb]
    exact UInt8.le_iff_toNat_le.1 hc
  | lone _ _ _ _ ih => exact Run.append (run_hex4 _ st) ih

theorem key_go {k s : Str} (h : GoString k s) : IsKey k := by
  obtain ⟨b, hb, rfl⟩ := h
  exact ⟨_, rfl, fun st => Run.append (body_run hb st) (.cons rfl .nil)⟩

/-- JSON strings are read as what they mean. -/
theorem go_json {k s : Str} (h : JsonString k s) : GoString k s := by
  obtain ⟨es, ho, rfl, rfl⟩ := h
  refine ⟨es.flatMap Elem.text, ?_, rfl⟩
  unfold Spec.PtrJson.meaning
  induction es with
  | nil => exact .nil
  | cons e es ih =>
    simp only [List.flatMap_cons]
    exact .elem (ho e (by simp)) (ih fun e h => ho e (by simp [h]))

theorem lax_high {x y : Str} (hx : ∀ b ∈ x, 128 ≤ b.toNat) (h : LaxBody (x ++ y)) : LaxBody y := by
  induction x with
  | nil => exact h
  | cons c t ih =>
    have hc := hx c (by simp)
    rw [List.cons_append] at h
    refine ih (fun b hb => hx b (by simp [hb])) ?_
    generalize hz : t ++ y = z at h
    cases h with
    | byte _ _ _ h => exact h
    | short _ _ => exact absurd hc (by decide)
    | uni _ _ _ _ _ => exact absurd hc (by decide)

theorem lax_hex (lo : Hex4) {x : Str} (h : LaxBody (lo.text ++ x)) : LaxBody x := by
  simp only [Hex4.text, List.cons_append, List.nil_append] at h
  cases h with
  | byte _ _ h3 _ => exact absurd rfl h3
  | short h _ => exact absurd h (by decide)
  | uni _ _ _ _ h => exact h

theorem lax_total (n : Nat) : ∀ b : Str, b.length ≤ n → LaxBody b → ∃ s, GoBody b s := by
  induction n with
  | zero =>
    intro b hl _
    cases b with
    | nil => exact ⟨_, .nil⟩
    | cons c t => simp at hl
  | succ n ih =>
    intro b hl h
    cases h with
    | nil => exact ⟨_, .nil⟩
    | byte h1 h2 h3 h =>
      rename_i c t
      simp only [List.length_cons] at hl
      have h32 : 32 ≤ c.toNat := UInt8.le_iff_toNat_le.1 h1
      have n34 : c.toNat ≠ 34 := fun e => h2 (UInt8.toNat_inj.1 e)
      have n92 : c.toNat ≠ 92 := fun e => h3 (UInt8.toNat_inj.1 e)
      by_cases h128 : c < 128
      · have hp : utf8 c.toNat = [c] := by
          have := UInt8.lt_iff_toNat_lt.1 h128
          have e : (128 : UInt8).toNat = 128 := rfl
          unfold utf8; rw [if_pos (by omega)]; simp
        have hsc : Scalar c.toNat := .inl (by have := c.toNat_lt; omega)
        obtain ⟨s, hs⟩ := ih t (by omega) h
        have := GoBody.elem (e := .plain c.toNat) ⟨hsc, h32, n34, n92⟩ hs
        simp only [Elem.text, Elem.meaning, hp] at this
        exact ⟨_, this⟩
      · have hc : 128 ≤ c := UInt8.not_lt.1 h128
        by_cases hd : ∃ n x, Scalar n ∧ c :: t = utf8 n ++ x
        · obtain ⟨m, x, hm, e⟩ := hd
          obtain ⟨y, hy⟩ : ∃ y, c :: t = utf8 m ++ y := ⟨x, e⟩
          have hge : 128 ≤ m := by
            refine Nat.le_of_not_lt fun hlt => ?_
            have e' : utf8 m = [UInt8.ofNat m] := by unfold utf8; rw [if_pos hlt]
            rw [e'] at e
            have := (List.cons.inj e).1
            rw [this] at hc
            have := UInt8.le_iff_toNat_le.1 hc
            rw [UInt8.toNat_ofNat'] at this
            have : (128 : UInt8).toNat = 128 := rfl
            omega
          obtain ⟨a, z, hu, ha, hz⟩ := PtrJson.head_high hm hge
          have hx : LaxBody x := by
            rw [hu, List.cons_append] at e
            rw [(List.cons.inj e).2] at h
            exact lax_high hz h
          obtain ⟨s, hs⟩ := ih x (by
            have := congrArg List.length e
            rw [hu] at this
            simp only [List.length_cons, List.length_append] at this
            omega) hx
          rw [e]
          exact ⟨_, GoBody.elem (e := .plain m) ⟨hm, by omega, by omega, by omega⟩ hs⟩
        · obtain ⟨s, hs⟩ := ih t (by omega) h
          exact ⟨_, .bad hc (fun n x hn e => hd ⟨n, x, hn, e⟩) hs⟩
    | short hc h =>
      rename_i c t
      simp only [List.length_cons] at hl
      obtain ⟨s, hs⟩ := ih t (by omega) h
      simp only [List.mem_cons, List.not_mem_nil, or_false] at hc
      rcases hc with rfl | rfl | rfl | rfl | rfl | rfl | rfl | rfl
      · exact ⟨_, GoBody.elem (e := .short 34 34) (by simp [Elem.ok, shorts]) hs⟩
      · exact ⟨_, GoBody.elem (e := .short 92 92) (by simp [Elem.ok, shorts]) hs⟩
      · exact ⟨_, GoBody.elem (e := .slash) trivial hs⟩
      · exact ⟨_, GoBody.elem (e := .short 98 8) (by simp [Elem.ok, shorts]) hs⟩
      · exact ⟨_, GoBody.elem (e := .short 102 12) (by simp [Elem.ok, shorts]) hs⟩
      · exact ⟨_, GoBody.elem (e := .short 110 10) (by simp [Elem.ok, shorts]) hs⟩
      · exact ⟨_, GoBody.elem (e := .short 114 13) (by simp [Elem.ok, shorts]) hs⟩
      · exact ⟨_, GoBody.elem (e := .short 116 9) (by simp [Elem.ok, shorts]) hs⟩
    | uni ha hb hc hd h =>
      rename_i a b c d t
      simp only [List.length_cons] at hl
      obtain ⟨w, ha⟩ := Option.isSome_iff_exists.1 ha
      obtain ⟨x, hb⟩ := Option.isSome_iff_exists.1 hb
      obtain ⟨y, hc⟩ := Option.isSome_iff_exists.1 hc
      obtain ⟨z, hd⟩ := Option.isSome_iff_exists.1 hd
      let k : Hex4 := ⟨a, b, c, d, w * 4096 + x * 256 + y * 16 + z, w, x, y, z, ha, hb, hc, hd, rfl⟩
      change ∃ s, GoBody (k.text ++ t) s
      have hlt : k.value < 65536 := by
        change w * 4096 + x * 256 + y * 16 + z < 65536
        rw [← PtrJson.hexVal_hexOf] at ha hb hc hd
        have := PtrJson.hexVal_lt ha
        have := PtrJson.hexVal_lt hb
        have := PtrJson.hexVal_lt hc
        have := PtrJson.hexVal_lt hd
        omega
      by_cases hs : 0xD800 ≤ k.value ∧ k.value < 0xE000
      · by_cases hp : ∃ lo x, t = Hex4.text lo ++ x ∧ (Elem.pair k lo).ok
        · obtain ⟨lo, x, rfl, hok⟩ := hp
          obtain ⟨s, hs⟩ := ih x (by simp only [List.length_append] at hl; omega) (lax_hex lo h)
          have := GoBody.elem hok hs
          rw [Elem.text, List.append_assoc] at this
          exact ⟨_, this⟩
        · obtain ⟨s, hs'⟩ := ih t (by omega) h
          exact ⟨_, .lone hs.1 hs.2 (fun lo x e hok => hp ⟨lo, x, e, hok⟩) hs'⟩
      · obtain ⟨s, hs'⟩ := ih t (by omega) h
        have hok : (Elem.uni k).ok := by
          change Scalar k.value
          unfold Scalar
          omega
        exact ⟨_, GoBody.elem hok hs'⟩

theorem lax_bytes {x : Str} (hx : ∀ b ∈ x, 128 ≤ b.toNat) {y : Str} (h : LaxBody y) : LaxBody (x ++ y) := by
  induction x with
  | nil => exact h
  | cons c t ih =>
    have hc := hx c (by simp)
    refine .byte ?_ ?_ ?_ (ih fun b hb => hx b (by simp [hb]))
    · exact UInt8.le_iff_toNat_le.2 (by have : (32 : UInt8).toNat = 32 := rfl; omega)
    · rintro rfl; exact absurd hc (by decide)
    · rintro rfl; exact absurd hc (by decide)

theorem lax_hex4 (k : Hex4) {y : Str} (h : LaxBody y) : LaxBody (k.text ++ y) := by
  obtain ⟨w, x, y, z, h1, h2, h3, h4, _⟩ := k.ok
  exact .uni (by simp [h1]) (by simp [h2]) (by simp [h3]) (by simp [h4]) h

theorem go_lax {b s : Str} (h : GoBody b s) : LaxBody b := by
  induction h with
  | nil => exact .nil
  | elem he _ ih =>
    rename_i e t s h
    cases e with
    | plain n =>
      obtain ⟨g1, g2, g3, g4⟩ := he
      by_cases hlt : n < 128
      · have e : utf8 n = [UInt8.ofNat n] := by unfold utf8; rw [if_pos hlt]
        simp only [Elem.text]
        rw [e]
        refine .byte ?_ (PtrJson.ofNat_ne (k := 34) (by omega) (by decide) g3) (PtrJson.ofNat_ne (k := 92) (by omega) (by decide) g4) ih
        rw [UInt8.le_iff_toNat_le, UInt8.toNat_ofNat']
        have : (32 : UInt8).toNat = 32 := rfl
        omega
      · obtain ⟨a, x, hu, ha, hx⟩ := PtrJson.head_high g1 (by omega)
        simp only [Elem.text]
        rw [hu]
        exact lax_bytes (fun b hb => (List.mem_cons.1 hb).elim (fun e => e ▸ ha) (hx b)) ih
    | short l m =>
      refine .short ?_ ih
      simp only [Elem.ok, shorts, List.mem_cons, List.not_mem_nil, or_false, Prod.mk.injEq] at he
      rcases he with ⟨rfl, rfl⟩ | ⟨rfl, rfl⟩ | ⟨rfl, rfl⟩ | ⟨rfl, rfl⟩ | ⟨rfl, rfl⟩ | ⟨rfl, rfl⟩ | ⟨rfl, rfl⟩ <;> decide
    | slash => exact .short (by decide) ih
    | uni k => exact lax_hex4 k ih
    | pair a b => rw [Elem.text, List.append_assoc]; exact lax_hex4 a (lax_hex4 b ih)
  | bad hc _ _ ih =>
    refine lax_bytes (x := [_]) (fun b hb => ?_) ih
    rw [List.mem_singleton.1 hb]
    exact UInt8.le_iff_toNat_le.1 hc
  | lone _ _ _ _ ih => exact lax_hex4 _ ih

/-- A literal can be read iff it has the form of one. -/
theorem lax_iff (t : Str) : LaxString t ↔ ∃ s, GoString t s := by
  constructor
  · rintro ⟨b, hb, rfl⟩
    obtain ⟨s, hs⟩ := lax_total b.length b (Nat.le_refl _) hb
    exact ⟨s, b, hs, rfl⟩
  · rintro ⟨s, b, hb, rfl⟩
    exact ⟨b, go_lax hb, rfl⟩

end Oapi.JsonText
