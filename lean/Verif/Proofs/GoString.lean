import Verif.Spec.GoString
import Verif.Proofs.JsonStr

/- `strconv.Unquote` and Go's string literals. -/
namespace Oapi.PtrJson

open Spec Spec.PtrJson

/-- Reading digits onto a number. -/
def Onto (digit : UInt8 → Option Nat) (base v : Nat) (ds : Str) (w : Nat) : Prop :=
  ∃ xs : List Nat, ds.map digit = xs.map some ∧ w = xs.foldl (fun n x => n * base + x) v

theorem onto_nil {digit : UInt8 → Option Nat} {base v w : Nat} : Onto digit base v [] w ↔ w = v := by
  constructor
  · rintro ⟨xs, h1, h2⟩
    cases xs with
    | nil => exact h2
    | cons x xs => cases h1
  · intro h; exact ⟨[], rfl, h⟩

theorem onto_cons {digit : UInt8 → Option Nat} {base v w : Nat} {c : UInt8} {ds : Str} :
    Onto digit base v (c :: ds) w ↔ ∃ x, digit c = some x ∧ Onto digit base (v * base + x) ds w := by
  constructor
  · rintro ⟨xs, h1, h2⟩
    cases xs with
    | nil => cases h1
    | cons x xs =>
      simp only [List.map_cons, List.cons.injEq] at h1
      exact ⟨x, h1.1, xs, h1.2, h2⟩
  · rintro ⟨x, h1, xs, h2, h3⟩
    exact ⟨x :: xs, by simp [h1, h2], h3⟩

theorem readHex_iff (k : Nat) : ∀ (v w : Nat) (s r : Str),
    readHex k v s = some (w, r) ↔ ∃ ds : Str, ds.length = k ∧ s = ds ++ r ∧ Onto hexOf 16 v ds w := by
  induction k with
  | zero =>
    intro v w s r
    simp only [readHex, Option.some.injEq, Prod.mk.injEq]
    constructor
    · rintro ⟨rfl, rfl⟩
      exact ⟨[], rfl, rfl, onto_nil.2 rfl⟩
    · rintro ⟨ds, h1, h2, h3⟩
      cases ds with
      | nil => exact ⟨(onto_nil.1 h3).symm, h2⟩
      | cons _ _ => cases h1
  | succ k ih =>
    intro v w s r
    cases s with
    | nil =>
      simp only [readHex]
      constructor
      · nofun
      · rintro ⟨ds, h1, h2, _⟩
        cases ds with
        | nil => cases h1
        | cons _ _ => cases h2
    | cons c t =>
      simp only [readHex]
      constructor
      · intro h
        cases hc : Url.hexVal c with
        | none => rw [hc] at h; cases h
        | some x =>
          rw [hc] at h
          obtain ⟨ds, h1, h2, h3⟩ := (ih _ _ _ _).1 h
          exact ⟨c :: ds, by simp [h1], by simp [h2], onto_cons.2 ⟨x, by rw [← hexVal_hexOf]; exact hc, h3⟩⟩
      · rintro ⟨ds, h1, h2, h3⟩
        cases ds with
        | nil => cases h1
        | cons d ds =>
          simp only [List.cons_append, List.cons.injEq] at h2
          obtain ⟨rfl, rfl⟩ := h2
          obtain ⟨x, hx, h3⟩ := onto_cons.1 h3
          rw [← hexVal_hexOf] at hx
          simp only [hx]
          exact (ih _ _ _ _).2 ⟨ds, by simpa using h1, rfl, h3⟩

theorem octVal_octOf (c : UInt8) : octVal c = octOf c := by
  have : ∀ n : Fin 256, octVal (UInt8.ofNat n.val) = octOf (UInt8.ofNat n.val) := by decide +kernel
  have h := this ⟨c.toNat, c.toNat_lt⟩
  rwa [UInt8.ofNat_toNat] at h

/-- What an escape sequence is. -/
inductive Esc : Str → Str → Str → Prop
  | letter {l v : UInt8} {t : Str} : (l, v) ∈ goLetters → Esc (l :: t) [v] t
  | hex2 {ds : Str} {v : Nat} {t : Str} : ds.length = 2 → Numeral hexOf 16 ds v → Esc (120 :: (ds ++ t)) [UInt8.ofNat v] t
  | oct3 {ds : Str} {v : Nat} {t : Str} : ds.length = 3 → Numeral octOf 8 ds v → v < 256 → Esc (ds ++ t) [UInt8.ofNat v] t
  | hex4 {ds : Str} {v : Nat} {t : Str} : ds.length = 4 → Numeral hexOf 16 ds v → Scalar v → Esc (117 :: (ds ++ t)) (utf8 v) t
  | hex8 {ds : Str} {v : Nat} {t : Str} : ds.length = 8 → Numeral hexOf 16 ds v → Scalar v → Esc (85 :: (ds ++ t)) (utf8 v) t

theorem oct_digit {c : UInt8} {x : Nat} (h : octVal c = some x) : 48 ≤ c ∧ c ≤ 55 := by
  unfold octVal at h
  split at h
  · assumption
  · cases h

/-- The escapes of characters by their number. -/
def runeEsc (k : Nat) (t : Str) : Option (Str × Str) :=
  match readHex k 0 t with
  | some (v, r) => if validRune v then some (runeBytes v, r) else none
  | none => none

theorem rune_of {k : Nat} {t b r : Str} (h : runeEsc k t = some (b, r)) : ∃ v, readHex k 0 t = some (v, r) ∧ Scalar v ∧ b = utf8 v := by
  unfold runeEsc at h
  split at h
  · rename_i v r' hr
    split at h
    · rename_i hv
      cases h
      exact ⟨v, hr, (validRune_iff _).1 hv, rfl⟩
    · cases h
  · cases h

theorem runeEsc_of {k v : Nat} {t r : Str} (h : readHex k 0 t = some (v, r)) (hv : Scalar v) : runeEsc k t = some (utf8 v, r) := by
  unfold runeEsc
  rw [h]
  simp only [if_pos ((validRune_iff v).2 hv), runeBytes_utf8]

/-- The octal escapes. -/
def octEsc (c : UInt8) (t : Str) : Option (Str × Str) :=
  match octVal c, t with
  | some x, d :: e :: r => match octVal d, octVal e with
    | some y, some z => if x * 64 + y * 8 + z ≤ 255 then some ([UInt8.ofNat (x * 64 + y * 8 + z)], r) else none
    | _, _ => none
  | _, _ => none

theorem octal_of {c : UInt8} {t b r : Str} (h : octEsc c t = some (b, r)) : ∃ d e x y z, t = d :: e :: r ∧ octVal c = some x ∧ octVal d = some y ∧
    octVal e = some z ∧ x * 64 + y * 8 + z ≤ 255 ∧ b = [UInt8.ofNat (x * 64 + y * 8 + z)] := by
  unfold octEsc at h
  split at h
  · rename_i x d e r' hx
    split at h
    · rename_i y z hy hz
      split at h
      · rename_i hle
        cases h
        exact ⟨d, e, x, y, z, rfl, hx, hy, hz, hle, rfl⟩
      · cases h
    · cases h
  · cases h

theorem escape_eq (c : UInt8) (t : Str) : unquoteEscape (c :: t) =
    if c = 97 then some ([7], t)
    else if c = 98 then some ([8], t)
    else if c = 102 then some ([12], t)
    else if c = 110 then some ([10], t)
    else if c = 114 then some ([13], t)
    else if c = 116 then some ([9], t)
    else if c = 118 then some ([11], t)
    else if c = 120 then (readHex 2 0 t).map fun (v, r) => ([UInt8.ofNat v], r)
    else if c = 117 then runeEsc 4 t
    else if c = 85 then runeEsc 8 t
    else if c = 92 then some ([92], t)
    else if c = 34 then some ([34], t)
    else octEsc c t := rfl

theorem unquoteEscape_sound {s b r : Str} (h : unquoteEscape s = some (b, r)) : Esc s b r := by
  cases s with
  | nil => cases h
  | cons c t =>
    rw [escape_eq] at h
    by_cases e : c = 97
    · rw [if_pos e] at h; subst e; cases h; exact .letter (by decide)
    rw [if_neg e] at h; clear e
    by_cases e : c = 98
    · rw [if_pos e] at h; subst e; cases h; exact .letter (by decide)
    rw [if_neg e] at h; clear e
    by_cases e : c = 102
    · rw [if_pos e] at h; subst e; cases h; exact .letter (by decide)
    rw [if_neg e] at h; clear e
    by_cases e : c = 110
    · rw [if_pos e] at h; subst e; cases h; exact .letter (by decide)
    rw [if_neg e] at h; clear e
    by_cases e : c = 114
    · rw [if_pos e] at h; subst e; cases h; exact .letter (by decide)
    rw [if_neg e] at h; clear e
    by_cases e : c = 116
    · rw [if_pos e] at h; subst e; cases h; exact .letter (by decide)
    rw [if_neg e] at h; clear e
    by_cases e : c = 118
    · rw [if_pos e] at h; subst e; cases h; exact .letter (by decide)
    rw [if_neg e] at h; clear e
    by_cases e : c = 120
    · rw [if_pos e] at h; subst e
      cases hr : readHex 2 0 t with
      | none => rw [hr] at h; cases h
      | some p =>
        obtain ⟨v, r'⟩ := p
        rw [hr] at h
        cases h
        obtain ⟨ds, h1, rfl, h3⟩ := (readHex_iff _ _ _ _ _).1 hr
        exact .hex2 h1 h3
    rw [if_neg e] at h; clear e
    by_cases e : c = 117
    · rw [if_pos e] at h; subst e
      obtain ⟨v, hr, hv, rfl⟩ := rune_of h
      obtain ⟨ds, h1, rfl, h3⟩ := (readHex_iff _ _ _ _ _).1 hr
      exact .hex4 h1 h3 hv
    rw [if_neg e] at h; clear e
    by_cases e : c = 85
    · rw [if_pos e] at h; subst e
      obtain ⟨v, hr, hv, rfl⟩ := rune_of h
      obtain ⟨ds, h1, rfl, h3⟩ := (readHex_iff _ _ _ _ _).1 hr
      exact .hex8 h1 h3 hv
    rw [if_neg e] at h; clear e
    by_cases e : c = 92
    · rw [if_pos e] at h; subst e; cases h; exact .letter (by decide)
    rw [if_neg e] at h; clear e
    by_cases e : c = 34
    · rw [if_pos e] at h; subst e; cases h; exact .letter (by decide)
    rw [if_neg e] at h; clear e
    obtain ⟨d, e, x, y, z, rfl, hx, hy, hz, hle, rfl⟩ := octal_of h
    refine .oct3 (ds := [c, d, e]) (t := r) rfl ⟨[x, y, z], ?_, ?_⟩ (by omega)
    · simp [← octVal_octOf, hx, hy, hz]
    · simp only [List.foldl]; omega

theorem esc_oct {c d e : UInt8} {x y z : Nat} (hx : octVal c = some x) (hy : octVal d = some y) (hz : octVal e = some z)
    (h : x * 64 + y * 8 + z ≤ 255) (t : Str) : unquoteEscape (c :: d :: e :: t) = some ([UInt8.ofNat (x * 64 + y * 8 + z)], t) := by
  have hc := oct_digit hx
  have hne : ∀ k : UInt8, 55 < k → c ≠ k := by
    rintro k hk rfl
    have := UInt8.le_iff_toNat_le.1 hc.2
    have := UInt8.lt_iff_toNat_lt.1 hk
    omega
  have h34 : c ≠ 34 := by rintro rfl; exact absurd hc.1 (by decide)
  have e' : octEsc c (d :: e :: t) = some ([UInt8.ofNat (x * 64 + y * 8 + z)], t) := by
    unfold octEsc
    simp only [hx, hy, hz, if_pos h]
  rw [escape_eq, if_neg (hne _ (by decide)), if_neg (hne _ (by decide)), if_neg (hne _ (by decide)), if_neg (hne _ (by decide)), if_neg (hne _ (by decide)),
    if_neg (hne _ (by decide)), if_neg (hne _ (by decide)), if_neg (hne _ (by decide)), if_neg (hne _ (by decide)), if_neg (hne _ (by decide)),
    if_neg (hne _ (by decide)), if_neg h34, e']

theorem unquoteEscape_complete {s b r : Str} (h : Esc s b r) : unquoteEscape s = some (b, r) := by
  cases h with
  | @letter l v t hl =>
    simp only [goLetters, List.mem_cons, Prod.mk.injEq, List.not_mem_nil, or_false] at hl
    rcases hl with ⟨rfl, rfl⟩ | ⟨rfl, rfl⟩ | ⟨rfl, rfl⟩ | ⟨rfl, rfl⟩ | ⟨rfl, rfl⟩ | ⟨rfl, rfl⟩ | ⟨rfl, rfl⟩ | ⟨rfl, rfl⟩ | ⟨rfl, rfl⟩ <;> rfl
  | @hex2 ds v t h1 h2 =>
    have hr := (readHex_iff 2 0 v (ds ++ r) r).2 ⟨ds, h1, rfl, h2⟩
    have e : unquoteEscape (120 :: (ds ++ r)) = (readHex 2 0 (ds ++ r)).map fun (v, r) => ([UInt8.ofNat v], r) := rfl
    rw [e, hr]
    rfl
  | @oct3 ds v t h1 h2 h3 =>
    obtain ⟨xs, hx, hv⟩ := h2
    match ds, h1 with
    | [c, d, e], _ =>
      have hlen : xs.length = 3 := by
        have := congrArg List.length hx
        simpa using this.symm
      match xs, hlen with
      | [x, y, z], _ =>
        simp only [List.map_cons, List.map_nil, List.cons.injEq, and_true, ← octVal_octOf] at hx
        obtain ⟨hx, hy, hz⟩ := hx
        simp only [List.foldl] at hv
        have := esc_oct hx hy hz (by omega) r
        simp only [List.cons_append, List.nil_append]
        have e' : v = x * 64 + y * 8 + z := by omega
        rw [this, e']
  | @hex4 ds v t h1 h2 h3 =>
    have hr := (readHex_iff 4 0 v (ds ++ r) r).2 ⟨ds, h1, rfl, h2⟩
    have e : unquoteEscape (117 :: (ds ++ r)) = runeEsc 4 (ds ++ r) := rfl
    rw [e, runeEsc_of hr h3]
  | @hex8 ds v t h1 h2 h3 =>
    have hr := (readHex_iff 8 0 v (ds ++ r) r).2 ⟨ds, h1, rfl, h2⟩
    have e : unquoteEscape (85 :: (ds ++ r)) = runeEsc 8 (ds ++ r) := rfl
    rw [e, runeEsc_of hr h3]

theorem esc_body {s b r m : Str} (h : Esc s b r) (hb : GoBody r m) : GoBody (92 :: s) (b ++ m) := by
  cases h with
  | letter h => exact .letter h hb
  | hex2 h1 h2 => exact .hex2 h1 h2 hb
  | oct3 h1 h2 h3 => exact .oct3 h1 h2 h3 hb
  | hex4 h1 h2 h3 => exact .hex4 h1 h2 h3 hb
  | hex8 h1 h2 h3 => exact .hex8 h1 h2 h3 hb

theorem unquoteLoop_sound (fuel : Nat) : ∀ (s m : Str), unquoteLoop fuel s = some m → GoBody s m := by
  induction fuel with
  | zero => intro s m h; cases h
  | succ fuel ih =>
    intro s m h
    cases s with
    | nil => cases h
    | cons c t =>
      unfold unquoteLoop at h
      split at h
      · rename_i e; subst e
        split at h
        · rename_i e; subst e; cases h; exact .stop
        · cases h
      · rename_i h34
        split at h
        · cases h
        · rename_i h10
          split at h
          · rename_i b r hc
            cases hl : unquoteLoop fuel r with
            | none => rw [hl] at h; cases h
            | some m' =>
              rw [hl] at h
              cases h
              have hb := ih _ _ hl
              unfold unquoteChar at hc
              dsimp only at hc
              rw [if_neg h34] at hc
              split at hc
              · rename_i h128
                split at hc
                · rename_i n w hd
                  cases hc
                  obtain ⟨h1, h2, h3, h4⟩ := decode1_inv hd
                  rw [h3, runeBytes_utf8]
                  have hn : 128 ≤ n := by
                    refine Nat.le_of_not_lt fun hlt => ?_
                    have e : utf8 n = [UInt8.ofNat n] := by unfold utf8; rw [if_pos hlt]
                    rw [e] at h3
                    have := (List.cons.inj h3).1
                    rw [this] at h128
                    have := UInt8.le_iff_toNat_le.1 h128
                    rw [UInt8.toNat_ofNat'] at this
                    have : (128 : UInt8).toNat = 128 := rfl
                    omega
                  exact .char h1 (by omega) (by omega) (by omega) hb
                · rename_i hd
                  cases hc
                  rw [runeBytes_utf8]
                  refine .stray ?_ hb
                  intro n x hn e
                  rw [e, Route.decode1_utf8 hn] at hd
                  cases hd
              · rename_i h128
                split at hc
                · rename_i h92
                  cases hc
                  have hlt : c.toNat < 128 := by
                    have : (128 : UInt8).toNat = 128 := rfl
                    have := mt UInt8.le_iff_toNat_le.2 h128
                    omega
                  have e : [c] = utf8 c.toNat := by unfold utf8; rw [if_pos hlt, UInt8.ofNat_toNat]
                  have hne : ∀ k : UInt8, c ≠ k → c.toNat ≠ k.toNat := fun k h h' => h (UInt8.toNat_inj.1 h')
                  have : c :: t = utf8 c.toNat ++ t := by rw [← e]; rfl
                  rw [this, e]
                  exact .char (Or.inl (by omega)) (hne 10 h10) (hne 34 h34) (hne 92 h92) hb
                · rename_i h92
                  have : c = 92 := Classical.byContradiction h92
                  subst this
                  exact esc_body (unquoteEscape_sound hc) hb
          · cases h

theorem loop_esc {s b r m : Str} {fuel : Nat} (h : Esc s b r) (hl : unquoteLoop fuel r = some m) : unquoteLoop (fuel + 1) (92 :: s) = some (b ++ m) := by
  rw [unquote_esc, unquoteEscape_complete h]
  simp only [hl]
  rfl

theorem utf8_pos (n : Nat) : 1 ≤ (utf8 n).length := by
  unfold utf8
  split
  · simp
  · split
    · simp
    · split <;> simp

theorem unquoteLoop_complete {s m : Str} (h : GoBody s m) : ∀ fuel, s.length ≤ fuel → unquoteLoop fuel s = some m := by
  induction h with
  | stop =>
    intro fuel hf
    cases fuel with
    | zero => simp at hf
    | succ fuel => rfl
  | @char n t m hn h10 h34 h92 _ ih =>
    intro fuel hf
    have := utf8_pos n
    rw [List.length_append] at hf
    cases fuel with
    | zero => omega
    | succ fuel =>
      have hl := ih fuel (by omega)
      by_cases hlt : n < 128
      · have e : utf8 n = [UInt8.ofNat n] := by unfold utf8; rw [if_pos hlt]
        have ht : (UInt8.ofNat n).toNat = n := by rw [UInt8.toNat_ofNat']; omega
        have hne : ∀ k : UInt8, n ≠ k.toNat → UInt8.ofNat n ≠ k := fun k h h' => h (by rw [← h', ht])
        rw [e]
        simp only [List.cons_append, List.nil_append]
        unfold unquoteLoop
        rw [if_neg (hne 34 h34), if_neg (hne 10 h10)]
        have hc : unquoteChar (UInt8.ofNat n :: t) = some ([UInt8.ofNat n], t) := by
          unfold unquoteChar
          dsimp only
          rw [if_neg (hne 34 h34), if_neg, if_pos (hne 92 h92)]
          intro h
          have := UInt8.le_iff_toNat_le.1 h
          rw [ht] at this
          have : (128 : UInt8).toNat = 128 := rfl
          omega
        rw [hc]
        simp only [hl]
        rfl
      · rw [unquote_plain hn (by omega) h34 h92, hl]
        rfl
  | @stray b t m hb _ ih =>
    intro fuel hf
    cases fuel with
    | zero => simp at hf
    | succ fuel =>
      have hl := ih fuel (by simp only [List.length_cons] at hf; omega)
      have hd := JsonText.decode1_none hb
      have h128 : 128 ≤ b := by
        refine Classical.byContradiction fun hlt => ?_
        have : b.toNat < 128 := by
          have : (128 : UInt8).toNat = 128 := rfl
          have := mt UInt8.le_iff_toNat_le.2 hlt
          omega
        refine hb b.toNat t (Or.inl (by omega)) ?_
        unfold utf8
        rw [if_pos this, UInt8.ofNat_toNat]
        rfl
      have hne : ∀ k : UInt8, k < 128 → b ≠ k := by
        rintro k hk rfl
        have := UInt8.le_iff_toNat_le.1 h128
        have := UInt8.lt_iff_toNat_lt.1 hk
        omega
      have hc : unquoteChar (b :: t) = some (runeBytes 0xFFFD, t) := by
        unfold unquoteChar
        dsimp only
        rw [if_neg (hne 34 (by decide)), if_pos h128]
        simp only [hd]
      unfold unquoteLoop
      rw [if_neg (hne 34 (by decide)), if_neg (hne 10 (by decide)), hc]
      simp only [hl, runeBytes_utf8]
      rfl
  | letter h _ ih =>
    intro fuel hf
    cases fuel with
    | zero => simp at hf
    | succ fuel => exact loop_esc (.letter h) (ih fuel (by simp only [List.length_cons] at hf; omega))
  | hex2 h1 h2 _ ih =>
    intro fuel hf
    cases fuel with
    | zero => simp at hf
    | succ fuel => exact loop_esc (.hex2 h1 h2) (ih fuel (by simp only [List.length_cons, List.length_append] at hf; omega))
  | oct3 h1 h2 h3 _ ih =>
    intro fuel hf
    cases fuel with
    | zero => simp at hf
    | succ fuel => exact loop_esc (.oct3 h1 h2 h3) (ih fuel (by simp only [List.length_cons, List.length_append] at hf; omega))
  | hex4 h1 h2 h3 _ ih =>
    intro fuel hf
    cases fuel with
    | zero => simp at hf
    | succ fuel => exact loop_esc (.hex4 h1 h2 h3) (ih fuel (by simp only [List.length_cons, List.length_append] at hf; omega))
  | hex8 h1 h2 h3 _ ih =>
    intro fuel hf
    cases fuel with
    | zero => simp at hf
    | succ fuel => exact loop_esc (.hex8 h1 h2 h3) (ih fuel (by simp only [List.length_cons, List.length_append] at hf; omega))

theorem unquote_iff (s m : Str) : unquote s = some m ↔ GoString s m := by
  constructor
  · intro h
    unfold unquote at h
    split at h
    · exact ⟨_, rfl, unquoteLoop_sound _ _ _ h⟩
    · cases h
  · rintro ⟨t, rfl, h⟩
    exact unquoteLoop_complete h _ (by omega)

end Oapi.PtrJson
