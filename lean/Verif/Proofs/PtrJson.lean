import Verif.Model.PtrJson
import Verif.Spec.PtrJson
import Verif.Proofs.Route
import Verif.Proofs.Url

namespace Oapi.PtrJson

open Oapi.Spec Oapi.Spec.PtrJson

theorem runeBytes_utf8 (n : Nat) : runeBytes n = utf8 n := rfl

theorem validRune_iff (n : Nat) : validRune n = true ↔ Scalar n := by
  simp [validRune, Scalar]

/-! ### UTF-8 -/

theorem u8_ofNat {c : UInt8} {k : Nat} (h : c.toNat = k) : UInt8.ofNat k = c := by
  rw [← h]; exact UInt8.ofNat_toNat

theorem decode1_inv {s : Str} {n w : Nat} (h : Route.decode1 s = some (n, w)) : Scalar n ∧ 1 ≤ w ∧ s = utf8 n ++ s.drop w ∧ (utf8 n).length = w := by
  cases s with
  | nil => simp [Route.decode1] at h
  | cons a t =>
    have ha := a.toNat_lt
    simp only [Route.decode1] at h
    split at h
    · rename_i h1
      obtain ⟨rfl, rfl⟩ := Prod.mk.inj (Option.some.inj h)
      refine ⟨.inl (by omega), Nat.le_refl _, ?_, ?_⟩
      · simp [utf8, h1]
      · simp [utf8, h1]
    · split at h
      · rename_i h1 h2
        split at h
        · rename_i b t'
          have hb := b.toNat_lt
          simp only [Route.cont, Bool.and_eq_true, decide_eq_true_eq] at h
          split at h
          · rename_i h3
            obtain ⟨rfl, rfl⟩ := Prod.mk.inj (Option.some.inj h)
            have e : utf8 ((a.toNat - 0xC0) * 64 + (b.toNat - 0x80)) = [a, b] := by
              unfold utf8
              rw [if_neg (by omega), if_pos (by omega)]
              rw [u8_ofNat (c := a) (by omega), u8_ofNat (c := b) (by omega)]
            rw [e]
            exact ⟨.inl (by omega), by omega, rfl, rfl⟩
          · cases h
        · cases h
      · split at h
        · rename_i h1 h2 h3
          split at h
          · rename_i b c t'
            have hb := b.toNat_lt
            have hc := c.toNat_lt
            simp only [Route.cont, Bool.and_eq_true, decide_eq_true_eq] at h
            split at h
            · rename_i h4
              obtain ⟨rfl, rfl⟩ := Prod.mk.inj (Option.some.inj h)
              have e : utf8 ((a.toNat - 0xE0) * 4096 + (b.toNat - 0x80) * 64 + (c.toNat - 0x80)) = [a, b, c] := by
                unfold utf8
                rw [if_neg (by omega), if_neg (by omega), if_pos (by omega)]
                rw [u8_ofNat (c := a) (by omega), u8_ofNat (c := b) (by omega), u8_ofNat (c := c) (by omega)]
              rw [e]
              exact ⟨by unfold Scalar; omega, by omega, rfl, rfl⟩
            · cases h
          · cases h
        · split at h
          · rename_i h1 h2 h3 h4
            split at h
            · rename_i b c d t'
              have hb := b.toNat_lt
              have hc := c.toNat_lt
              have hd := d.toNat_lt
              simp only [Route.cont, Bool.and_eq_true, decide_eq_true_eq] at h
              split at h
              · rename_i h5
                obtain ⟨rfl, rfl⟩ := Prod.mk.inj (Option.some.inj h)
                have e : utf8 ((a.toNat - 0xF0) * 262144 + (b.toNat - 0x80) * 4096 + (c.toNat - 0x80) * 64 + (d.toNat - 0x80)) = [a, b, c, d] := by
                  unfold utf8
                  rw [if_neg (by omega), if_neg (by omega), if_neg (by omega)]
                  rw [u8_ofNat (c := a) (by omega), u8_ofNat (c := b) (by omega), u8_ofNat (c := c) (by omega), u8_ofNat (c := d) (by omega)]
                rw [e]
                exact ⟨by unfold Scalar; omega, by omega, rfl, rfl⟩
              · cases h
            · cases h
          · cases h

/-- The bytes of a chunk. -/
def Chunk.bytes : Chunk → Str
  | .rune n => utf8 n
  | .bad b => [b]

def Chunk.ok : Chunk → Prop
  | .rune n => Scalar n
  | .bad _ => True

theorem chunksGo_drop (s : Str) : ∀ k, chunksGo k s = chunksGo 0 (s.drop k) := by
  induction s with
  | nil => intro k; cases k <;> rfl
  | cons a t ih =>
    intro k
    cases k with
    | zero => rfl
    | succ k => exact ih k

theorem chunksGo_spec (n : Nat) : ∀ s : Str, s.length ≤ n → (chunksGo 0 s).flatMap Chunk.bytes = s ∧ ∀ c ∈ chunksGo 0 s, c.ok := by
  induction n with
  | zero =>
    intro s h
    cases s with
    | nil => exact ⟨rfl, by simp [chunksGo]⟩
    | cons a t => simp at h
  | succ n ih =>
    intro s h
    cases s with
    | nil => exact ⟨rfl, by simp [chunksGo]⟩
    | cons a t =>
      simp only [List.length_cons, Nat.add_le_add_iff_right] at h
      unfold chunksGo
      split
      · rename_i r w hd
        obtain ⟨h1, h2, h3, h4⟩ := decode1_inv hd
        rw [chunksGo_drop]
        have e : t.drop (w - 1) = (a :: t).drop w := by
          cases w with
          | zero => omega
          | succ w => rfl
        rw [e]
        obtain ⟨i1, i2⟩ := ih ((a :: t).drop w) (by simp only [List.length_drop, List.length_cons]; omega)
        refine ⟨?_, ?_⟩
        · rw [List.flatMap_cons, i1]
          exact h3.symm
        · intro c hc
          rcases List.mem_cons.1 hc with rfl | hc
          · exact h1
          · exact i2 c hc
      · obtain ⟨i1, i2⟩ := ih t h
        refine ⟨?_, ?_⟩
        · rw [List.flatMap_cons, i1]; rfl
        · intro c hc
          rcases List.mem_cons.1 hc with rfl | hc
          · trivial
          · exact i2 c hc

theorem chunks_bytes (s : Str) : (chunks s).flatMap Chunk.bytes = s := (chunksGo_spec s.length s (Nat.le_refl _)).1

theorem chunks_ok (s : Str) : ∀ c ∈ chunks s, c.ok := (chunksGo_spec s.length s (Nat.le_refl _)).2

theorem chunks_utf8s {rs : List Nat} (h : ∀ r ∈ rs, Scalar r) : chunks (utf8s rs) = rs.map .rune := by
  induction rs with
  | nil => rfl
  | cons r rs ih =>
    have hd := Route.decode1_utf8 (h r (.head _)) (utf8s rs)
    rw [show utf8s (r :: rs) = utf8 r ++ utf8s rs from rfl]
    have hpos := Route.utf8_length_pos r
    cases hu : utf8 r with
    | nil => rw [hu] at hpos; simp at hpos
    | cons a t =>
      rw [hu] at hd
      simp only [chunks, List.cons_append, chunksGo]
      simp only [List.cons_append] at hd
      rw [hd]
      simp only [List.length_cons, Nat.add_sub_cancel, List.map_cons]
      rw [chunksGo_drop, List.drop_left]
      exact congrArg _ (ih fun r' hr => h r' (.tail _ hr))

/-! ### Hexadecimal digits -/

set_option maxRecDepth 8000 in
theorem hexVal_hexOf (c : UInt8) : Url.hexVal c = hexOf c := by
  revert c
  refine Url.all_bytes ?_
  decide

set_option maxRecDepth 8000 in
theorem hexVal_lt {c : UInt8} {x : Nat} (h : Url.hexVal c = some x) : x < 16 := by
  have : ∀ c : UInt8, ∀ x ∈ Url.hexVal c, x < 16 := by
    refine Url.all_bytes ?_
    decide
  exact this c x h

theorem hexVal_hexDigit {n : Nat} (h : n < 16) : Url.hexVal (hexDigit n) = some n := by
  have : ∀ n : Fin 16, Url.hexVal (hexDigit n.val) = some n.val := by decide
  exact this ⟨n, h⟩

theorem readHex2 {n : Nat} (h : n < 256) (t : Str) : readHex 2 0 (hexDigits 2 n ++ t) = some (n, t) := by
  simp only [hexDigits, List.nil_append, List.cons_append, readHex, hexVal_hexDigit (Nat.mod_lt _ (by decide : 16 > 0))]
  simp only [Option.some.injEq, Prod.mk.injEq, and_true]
  omega

theorem readHex4 {n : Nat} (h : n < 65536) (t : Str) : readHex 4 0 (hexDigits 4 n ++ t) = some (n, t) := by
  simp only [hexDigits, List.nil_append, List.cons_append, readHex, hexVal_hexDigit (Nat.mod_lt _ (by decide : 16 > 0))]
  simp only [Option.some.injEq, Prod.mk.injEq, and_true]
  omega

theorem readHex8 {n : Nat} (h : n < 4294967296) (t : Str) : readHex 8 0 (hexDigits 8 n ++ t) = some (n, t) := by
  simp only [hexDigits, List.nil_append, List.cons_append, readHex, hexVal_hexDigit (Nat.mod_lt _ (by decide : 16 > 0))]
  simp only [Option.some.injEq, Prod.mk.injEq, and_true]
  omega

theorem readHex_hex4 (h : Hex4) (t : Str) : readHex 4 0 ([h.a, h.b, h.c, h.d] ++ t) = some (h.value, t) := by
  obtain ⟨w, x, y, z, h1, h2, h3, h4, h5⟩ := h.ok
  simp only [← hexVal_hexOf] at h1 h2 h3 h4
  simp only [List.cons_append, List.nil_append, readHex, h1, h2, h3, h4, h5]
  simp only [Option.some.injEq, Prod.mk.injEq, and_true]
  omega

/-! ### Unquoting -/

theorem head_high {n : Nat} (h : Scalar n) (h1 : 128 ≤ n) : ∃ a t, utf8 n = a :: t ∧ 128 ≤ a.toNat ∧ ∀ b ∈ t, 128 ≤ b.toNat := by
  unfold Scalar at h
  unfold utf8
  rw [if_neg (by omega)]
  split
  · exact ⟨_, _, rfl, by rw [UInt8.toNat_ofNat']; omega, by simp only [List.mem_singleton, forall_eq, UInt8.toNat_ofNat']; omega⟩
  · split
    · refine ⟨_, _, rfl, by rw [UInt8.toNat_ofNat']; omega, ?_⟩
      simp only [List.mem_cons, List.not_mem_nil, or_false, forall_eq_or_imp, forall_eq, UInt8.toNat_ofNat']
      omega
    · refine ⟨_, _, rfl, by rw [UInt8.toNat_ofNat']; omega, ?_⟩
      simp only [List.mem_cons, List.not_mem_nil, or_false, forall_eq_or_imp, forall_eq, UInt8.toNat_ofNat']
      omega

theorem ofNat_ne {n k : Nat} (h : n < 256) (hk : k < 256) (hne : n ≠ k) : UInt8.ofNat n ≠ UInt8.ofNat k := by
  intro e
  have := congrArg UInt8.toNat e
  rw [UInt8.toNat_ofNat', UInt8.toNat_ofNat'] at this
  omega

theorem le_toNat {c : UInt8} {k : Nat} (hk : k < 256) : UInt8.ofNat k ≤ c ↔ k ≤ c.toNat := by
  rw [UInt8.le_iff_toNat_le, UInt8.toNat_ofNat', Nat.mod_eq_of_lt (by omega)]

/-- A printable character that needs no escape is read as itself. -/
theorem unquote_plain {n : Nat} (h : Scalar n) (h1 : 32 ≤ n) (h2 : n ≠ 34) (h3 : n ≠ 92) (fuel : Nat) (r : Str) :
    unquoteLoop (fuel + 1) (utf8 n ++ r) = (unquoteLoop fuel r).map (utf8 n ++ ·) := by
  by_cases hlt : n < 128
  · have e : utf8 n = [UInt8.ofNat n] := by unfold utf8; rw [if_pos hlt]
    rw [e]
    have e34 : UInt8.ofNat n ≠ 34 := ofNat_ne (k := 34) (by omega) (by decide) h2
    have e10 : UInt8.ofNat n ≠ 10 := ofNat_ne (k := 10) (by omega) (by decide) (by omega)
    have e92 : UInt8.ofNat n ≠ 92 := ofNat_ne (k := 92) (by omega) (by decide) h3
    have e128 : ¬ (128 : UInt8) ≤ UInt8.ofNat n := by
      rw [show (128 : UInt8) = UInt8.ofNat 128 from rfl, le_toNat (by decide), UInt8.toNat_ofNat']
      omega
    simp [unquoteLoop, unquoteChar, e34, e10, e92, e128]
  · obtain ⟨a, t, hu, ha, _⟩ := head_high h (by omega)
    have hd := Route.decode1_utf8 h r
    rw [hu] at hd ⊢
    have e34 : a ≠ 34 := by rintro rfl; simp at ha
    have e10 : a ≠ 10 := by rintro rfl; simp at ha
    have e128 : (128 : UInt8) ≤ a := (le_toNat (k := 128) (by decide)).2 ha
    simp only [List.cons_append] at hd ⊢
    simp only [unquoteLoop, if_neg e34, if_neg e10, unquoteChar, if_pos e128, hd, runeBytes_utf8, hu]
    rw [show List.drop (a :: t).length (a :: (t ++ r)) = r from List.drop_left (l₁ := a :: t)]
    rfl

theorem unquote_esc (fuel : Nat) (t : Str) :
    unquoteLoop (fuel + 1) (92 :: t) = match unquoteEscape t with
      | some (b, r) => (unquoteLoop fuel r).map (b ++ ·)
      | none => none := by
  simp only [unquoteLoop, unquoteChar]
  rw [if_neg (by decide), if_neg (by decide), if_neg (by decide), if_neg (by decide), if_neg (by decide)]
  cases unquoteEscape t <;> rfl

theorem unquote_chunk (prn : Nat → Bool) (c : Chunk) (hc : c.ok) (fuel : Nat) (r : Str) :
    unquoteLoop (fuel + 1) (quoteChunk prn c ++ r) = (unquoteLoop fuel r).map (c.bytes ++ ·) := by
  cases c with
  | bad b =>
    simp only [quoteChunk, Chunk.bytes]
    change unquoteLoop (fuel + 1) (92 :: (120 :: (hexDigits 2 b.toNat ++ r))) = _
    rw [unquote_esc]
    have : unquoteEscape (120 :: (hexDigits 2 b.toNat ++ r)) = some ([b], r) := by
      simp only [unquoteEscape]
      rw [readHex2 b.toNat_lt]
      simp
    rw [this]
  | rune n =>
    simp only [quoteChunk, Chunk.bytes, Chunk.ok] at hc ⊢
    unfold escapeRune
    split
    · rename_i h
      rcases h with rfl | rfl
      · exact unquote_esc fuel (34 :: r)
      · exact unquote_esc fuel (92 :: r)
    · rename_i hne
      have hne : n ≠ 34 ∧ n ≠ 92 := ⟨fun e => hne (.inl e), fun e => hne (.inr e)⟩
      split
      · rename_i hp
        refine unquote_plain hc ?_ hne.1 hne.2 fuel r
        unfold isPrint at hp
        split at hp
        · simp at hp; exact hp.1
        · omega
      · rename_i hp
        split
        · rename_i e; subst e; exact unquote_esc fuel (97 :: r)
        split
        · rename_i e; subst e; exact unquote_esc fuel (98 :: r)
        split
        · rename_i e; subst e; exact unquote_esc fuel (102 :: r)
        split
        · rename_i e; subst e; exact unquote_esc fuel (110 :: r)
        split
        · rename_i e; subst e; exact unquote_esc fuel (114 :: r)
        split
        · rename_i e; subst e; exact unquote_esc fuel (116 :: r)
        split
        · rename_i e; subst e; exact unquote_esc fuel (118 :: r)
        split
        · rename_i hx
          have hlt : n < 128 := by omega
          change unquoteLoop (fuel + 1) (92 :: (120 :: (hexDigits 2 n ++ r))) = _
          rw [unquote_esc]
          have : unquoteEscape (120 :: (hexDigits 2 n ++ r)) = some (utf8 n, r) := by
            simp only [unquoteEscape]
            rw [readHex2 (by omega)]
            simp [utf8, hlt]
          rw [this]
        split
        · rename_i hx
          change unquoteLoop (fuel + 1) (92 :: (117 :: (hexDigits 4 n ++ r))) = _
          rw [unquote_esc]
          have : unquoteEscape (117 :: (hexDigits 4 n ++ r)) = some (utf8 n, r) := by
            simp only [unquoteEscape]
            rw [readHex4 (by omega)]
            simp [(validRune_iff n).2 hc, runeBytes_utf8]
          rw [this]
        · change unquoteLoop (fuel + 1) (92 :: (85 :: (hexDigits 8 n ++ r))) = _
          rw [unquote_esc]
          have : unquoteEscape (85 :: (hexDigits 8 n ++ r)) = some (utf8 n, r) := by
            simp only [unquoteEscape]
            rw [readHex8 (by unfold Scalar at hc; omega)]
            simp [(validRune_iff n).2 hc, runeBytes_utf8]
          rw [this]

theorem unquote_chunks (prn : Nat → Bool) (cs : List Chunk) (hc : ∀ c ∈ cs, c.ok) : ∀ fuel, cs.length < fuel →
    unquoteLoop fuel (cs.flatMap (quoteChunk prn) ++ [34]) = some (cs.flatMap Chunk.bytes) := by
  induction cs with
  | nil =>
    intro fuel h
    cases fuel with
    | zero => simp at h
    | succ f => rfl
  | cons c cs ih =>
    intro fuel h
    cases fuel with
    | zero => simp at h
    | succ f =>
      rw [List.flatMap_cons, List.append_assoc, unquote_chunk prn c (hc c (.head _)), ih (fun d hd => hc d (.tail _ hd)) f (by simpa using h)]
      rfl

theorem quoteChunk_pos (prn : Nat → Bool) (c : Chunk) : 1 ≤ (quoteChunk prn c).length := by
  cases c with
  | bad b => exact Nat.le_add_left 1 _
  | rune n =>
    simp only [quoteChunk, escapeRune]
    repeat' split
    all_goals first | exact Route.utf8_length_pos n | simp

theorem flatMap_len (prn : Nat → Bool) (cs : List Chunk) : cs.length ≤ (cs.flatMap (quoteChunk prn)).length := by
  induction cs with
  | nil => simp
  | cons c cs ih =>
    have := quoteChunk_pos prn c
    simp only [List.flatMap_cons, List.length_append, List.length_cons]
    omega

/-- `strconv.Unquote` undoes `strconv.Quote`. -/
theorem unquote_quote (prn : Nat → Bool) (s : Str) : unquote (quote prn s) = some s := by
  unfold quote unquote
  have := flatMap_len prn (chunks s)
  rw [List.cons_append]
  simp only []
  rw [unquote_chunks prn _ (chunks_ok s) _ (by simp only [List.length_append, List.length_singleton]; omega), chunks_bytes]

/-! ### JSON literals -/

theorem unquote_elem {e : Elem} (he : e.ok) (hf : ¬ e.foreign) (fuel : Nat) (r : Str) :
    unquoteLoop (fuel + 1) (e.text ++ r) = (unquoteLoop fuel r).map (e.meaning ++ ·) := by
  cases e with
  | plain n => exact unquote_plain he.1 he.2.1 he.2.2.1 he.2.2.2 fuel r
  | short l m =>
    simp only [Elem.ok, shorts, List.mem_cons, List.not_mem_nil, or_false, Prod.mk.injEq] at he
    rcases he with ⟨rfl, rfl⟩ | ⟨rfl, rfl⟩ | ⟨rfl, rfl⟩ | ⟨rfl, rfl⟩ | ⟨rfl, rfl⟩ | ⟨rfl, rfl⟩ | ⟨rfl, rfl⟩ <;>
      exact unquote_esc fuel (_ :: r)
  | slash => exact absurd trivial hf
  | pair a b => exact absurd trivial hf
  | uni h =>
    change unquoteLoop (fuel + 1) (92 :: (117 :: ([h.a, h.b, h.c, h.d] ++ r))) = _
    rw [unquote_esc]
    have : unquoteEscape (117 :: ([h.a, h.b, h.c, h.d] ++ r)) = some (utf8 h.value, r) := by
      simp only [unquoteEscape]
      rw [readHex_hex4]
      simp [(validRune_iff h.value).2 he, runeBytes_utf8]
    rw [this]
    rfl

theorem unquote_foreign {e : Elem} (he : e.ok) (hf : e.foreign) (fuel : Nat) (r : Str) : unquoteLoop (fuel + 1) (e.text ++ r) = none := by
  cases e with
  | plain n => exact hf.elim
  | short l m => exact hf.elim
  | uni h => exact hf.elim
  | slash =>
    change unquoteLoop (fuel + 1) (92 :: (47 :: r)) = none
    rw [unquote_esc]
    have : unquoteEscape (47 :: r) = none := by
      simp [unquoteEscape, octVal]
    rw [this]
  | pair a b =>
    obtain ⟨h1, h2, h3, h4⟩ := he
    change unquoteLoop (fuel + 1) (92 :: (117 :: ([a.a, a.b, a.c, a.d] ++ (b.text ++ r)))) = _
    rw [unquote_esc]
    have hv : validRune a.value = false := by
      simp only [validRune, Bool.or_eq_false_iff, Bool.and_eq_false_iff, decide_eq_false_iff_not]
      omega
    have : unquoteEscape (117 :: ([a.a, a.b, a.c, a.d] ++ (b.text ++ r))) = none := by
      simp only [unquoteEscape]
      rw [readHex_hex4]
      simp [hv]
    rw [this]

theorem elem_pos (e : Elem) : 1 ≤ e.text.length := by
  cases e with
  | plain n => exact Route.utf8_length_pos n
  | _ => simp [Elem.text, Hex4.text]

theorem elems_len (es : List Elem) : es.length ≤ (es.flatMap Elem.text).length := by
  induction es with
  | nil => simp
  | cons c cs ih =>
    have := elem_pos c
    simp only [List.flatMap_cons, List.length_append, List.length_cons]
    omega

theorem unquote_elems (es : List Elem) (ho : ∀ e ∈ es, e.ok) (hf : ∀ e ∈ es, ¬ e.foreign) : ∀ fuel, es.length < fuel →
    unquoteLoop fuel (es.flatMap Elem.text ++ [34]) = some (meaning es) := by
  induction es with
  | nil =>
    intro fuel h
    cases fuel with
    | zero => simp at h
    | succ f => rfl
  | cons e es ih =>
    intro fuel h
    cases fuel with
    | zero => simp at h
    | succ f =>
      rw [List.flatMap_cons, List.append_assoc, unquote_elem (ho e (.head _)) (hf e (.head _)),
        ih (fun d hd => ho d (.tail _ hd)) (fun d hd => hf d (.tail _ hd)) f (by simpa using h)]
      rfl

theorem unquote_literal {es : List Elem} (ho : ∀ e ∈ es, e.ok) (hf : ∀ e ∈ es, ¬ e.foreign) : unquote (literal es) = some (meaning es) := by
  unfold literal unquote
  have := elems_len es
  rw [List.cons_append]
  exact unquote_elems es ho hf _ (by simp only [List.length_append, List.length_singleton]; omega)

theorem unquote_elems_foreign (es : List Elem) (ho : ∀ e ∈ es, e.ok) (hf : ∃ e ∈ es, e.foreign) : ∀ fuel,
    unquoteLoop fuel (es.flatMap Elem.text ++ [34]) = none := by
  induction es with
  | nil => obtain ⟨e, he, _⟩ := hf; cases he
  | cons e es ih =>
    intro fuel
    cases fuel with
    | zero => rfl
    | succ f =>
      rw [List.flatMap_cons, List.append_assoc]
      by_cases hfe : e.foreign
      · exact unquote_foreign (ho e (.head _)) hfe f _
      · rw [unquote_elem (ho e (.head _)) hfe, ih (fun d hd => ho d (.tail _ hd)) ?_ f]
        · rfl
        · obtain ⟨d, hd, hdf⟩ := hf
          rcases List.mem_cons.1 hd with rfl | hd
          · exact absurd hdf hfe
          · exact ⟨d, hd, hdf⟩

theorem unquote_literal_foreign {es : List Elem} (ho : ∀ e ∈ es, e.ok) (hf : ∃ e ∈ es, e.foreign) : unquote (literal es) = none := by
  unfold literal unquote
  rw [List.cons_append]
  exact unquote_elems_foreign es ho hf _

/-! ### Validity -/

theorem scan_char {c : UInt8} (h1 : c ≠ 34) (h2 : ¬ c < 32) (h3 : c ≠ 92) (r : Str) : scanString (c :: r) = scanString r := by
  rw [scanString.eq_def]
  simp only [if_neg h1, if_neg h2, if_pos h3]

theorem scan_high (t r : Str) (h : ∀ b ∈ t, 128 ≤ b.toNat) : scanString (t ++ r) = scanString r := by
  induction t with
  | nil => rfl
  | cons a t ih =>
    have ha := h a (.head _)
    rw [List.cons_append, scan_char, ih fun b hb => h b (.tail _ hb)]
    · rintro rfl; simp at ha
    · rw [UInt8.lt_iff_toNat_lt]
      simp only [UInt8.reduceToNat]
      omega
    · rintro rfl; simp at ha

theorem scan_plain {n : Nat} (h : Scalar n) (h1 : 32 ≤ n) (h2 : n ≠ 34) (h3 : n ≠ 92) (r : Str) :
    scanString (utf8 n ++ r) = scanString r := by
  by_cases hlt : n < 128
  · have e : utf8 n = [UInt8.ofNat n] := by unfold utf8; rw [if_pos hlt]
    rw [e, List.singleton_append]
    refine scan_char (ofNat_ne (k := 34) (by omega) (by decide) h2) ?_ (ofNat_ne (k := 92) (by omega) (by decide) h3) r
    rw [UInt8.lt_iff_toNat_lt, UInt8.toNat_ofNat']
    simp only [UInt8.reduceToNat]
    omega
  · obtain ⟨a, t, hu, ha, ht⟩ := head_high h (by omega)
    rw [hu]
    exact scan_high (a :: t) r fun b hb => (List.mem_cons.1 hb).elim (fun e => e ▸ ha) (ht b)

theorem scan_short {l : UInt8} (h : l ∈ b!"bfnrt\\/\"") (r : Str) : scanString (92 :: l :: r) = scanString r := by
  rw [scanString.eq_def]
  simp only [if_neg (show (92 : UInt8) ≠ 34 by decide), if_neg (show ¬ (92 : UInt8) < 32 by decide), ne_eq, not_true, if_false, if_pos h]

theorem scan_u {h1 h2 h3 h4 : UInt8} {a b c d : Nat} (e1 : Url.hexVal h1 = some a) (e2 : Url.hexVal h2 = some b) (e3 : Url.hexVal h3 = some c)
    (e4 : Url.hexVal h4 = some d) (r : Str) : scanString (92 :: 117 :: h1 :: h2 :: h3 :: h4 :: r) = scanString r := by
  rw [scanString.eq_def]
  simp only [if_neg (show (92 : UInt8) ≠ 34 by decide), if_neg (show ¬ (92 : UInt8) < 32 by decide), ne_eq, not_true, if_false,
    if_neg (show (117 : UInt8) ∉ b!"bfnrt\\/\"" by decide), if_true, e1, e2, e3, e4, Option.isSome_some, Bool.true_and]

theorem scan_bad {l : UInt8} (h : l ∉ b!"bfnrt\\/\"") (h2 : l ≠ 117) (r : Str) : scanString (92 :: l :: r) = false := by
  rw [scanString.eq_def]
  simp only [if_neg (show (92 : UInt8) ≠ 34 by decide), if_neg (show ¬ (92 : UInt8) < 32 by decide), ne_eq, not_true, if_false, if_neg h, if_neg h2]

/-- Chunks that Go quotes in a way JSON understands. -/
def Chunk.good (prn : Nat → Bool) : Chunk → Prop
  | .rune n => (n < 32 → n ∈ [8, 9, 10, 12, 13]) ∧ n ≠ 127 ∧ (0x10000 ≤ n → prn n = true)
  | .bad _ => False

/-- The element of a JSON string a good chunk is quoted as. -/
theorem chunk_elem {prn : Nat → Bool} {c : Chunk} (hc : c.ok) (hg : c.good prn) :
    ∃ e : Elem, e.ok ∧ ¬ e.foreign ∧ quoteChunk prn c = e.text ∧ c.bytes = e.meaning := by
  cases c with
  | bad b => exact hg.elim
  | rune n =>
    simp only [Chunk.ok, Chunk.good, List.mem_cons, List.not_mem_nil, or_false] at hc hg
    obtain ⟨g1, g2, g3⟩ := hg
    simp only [quoteChunk, Chunk.bytes]
    by_cases h1 : n = 34
    · subst h1; exact ⟨.short 34 34, by unfold Elem.ok; decide, nofun, rfl, rfl⟩
    by_cases h2 : n = 92
    · subst h2; exact ⟨.short 92 92, by unfold Elem.ok; decide, nofun, rfl, rfl⟩
    unfold escapeRune
    rw [if_neg (by omega)]
    split
    · rename_i hp
      have h32 : 32 ≤ n := by
        unfold isPrint at hp
        split at hp
        · simp at hp; exact hp.1
        · omega
      exact ⟨.plain n, ⟨hc, h32, h1, h2⟩, nofun, rfl, rfl⟩
    · rename_i hp
      by_cases h32 : n < 32
      · rcases g1 h32 with rfl | rfl | rfl | rfl | rfl
        · exact ⟨.short 98 8, by unfold Elem.ok; decide, nofun, rfl, rfl⟩
        · exact ⟨.short 116 9, by unfold Elem.ok; decide, nofun, rfl, rfl⟩
        · exact ⟨.short 110 10, by unfold Elem.ok; decide, nofun, rfl, rfl⟩
        · exact ⟨.short 102 12, by unfold Elem.ok; decide, nofun, rfl, rfl⟩
        · exact ⟨.short 114 13, by unfold Elem.ok; decide, nofun, rfl, rfl⟩
      · rw [if_neg (by omega), if_neg (by omega), if_neg (by omega), if_neg (by omega), if_neg (by omega), if_neg (by omega), if_neg (by omega),
          if_neg (by omega)]
        have h128 : 128 ≤ n := by
          by_cases h : 128 ≤ n
          · exact h
          · exact absurd (by simp only [isPrint, if_pos (show n < 128 by omega)]; simp; omega) hp
        have hlt : n < 0x10000 := by
          by_cases h : n < 0x10000
          · exact h
          · exact absurd (by simp only [isPrint, if_neg (show ¬ n < 128 by omega)]; exact g3 (by omega)) hp
        rw [if_pos hlt]
        have hv : ∀ k, hexOf (hexDigit (k % 16)) = some (k % 16) := fun k => by
          rw [← hexVal_hexOf]; exact hexVal_hexDigit (Nat.mod_lt _ (by decide))
        exact ⟨.uni ⟨hexDigit (n / 16 / 16 / 16 % 16), hexDigit (n / 16 / 16 % 16), hexDigit (n / 16 % 16), hexDigit (n % 16), n,
          _, _, _, _, hv _, hv _, hv _, hv _, by omega⟩, hc, nofun, rfl, rfl⟩

theorem scan_elem {e : Elem} (he : e.ok) (r : Str) : scanString (e.text ++ r) = scanString r := by
  have uni : ∀ (h : Hex4) (r : Str), scanString (h.text ++ r) = scanString r := by
    intro h r
    obtain ⟨w, x, y, z, h1, h2, h3, h4, _⟩ := h.ok
    rw [← hexVal_hexOf] at h1 h2 h3 h4
    exact scan_u h1 h2 h3 h4 r
  cases e with
  | plain n => exact scan_plain he.1 he.2.1 he.2.2.1 he.2.2.2 r
  | short l m =>
    refine scan_short ?_ r
    simp only [Elem.ok, shorts, List.mem_cons, List.not_mem_nil, or_false, Prod.mk.injEq] at he
    rcases he with ⟨rfl, rfl⟩ | ⟨rfl, rfl⟩ | ⟨rfl, rfl⟩ | ⟨rfl, rfl⟩ | ⟨rfl, rfl⟩ | ⟨rfl, rfl⟩ | ⟨rfl, rfl⟩ <;> decide
  | slash => exact scan_short (by decide) r
  | uni h => exact uni h r
  | pair a b =>
    rw [Elem.text, List.append_assoc, uni, uni]

theorem scan_chunk_bad {prn : Nat → Bool} {c : Chunk} (hg : ¬ c.good prn) (r : Str) : scanString (quoteChunk prn c ++ r) = false := by
  cases c with
  | bad b => exact scan_bad (by decide) (by decide) _
  | rune n =>
    have hg' : (n < 32 ∧ n ≠ 8 ∧ n ≠ 9 ∧ n ≠ 10 ∧ n ≠ 12 ∧ n ≠ 13) ∨ n = 127 ∨ (0x10000 ≤ n ∧ ¬ prn n = true) := by
      simp only [Chunk.good, List.mem_cons, List.not_mem_nil, or_false] at hg
      by_cases h1 : n = 127
      · exact .inr (.inl h1)
      · by_cases h2 : 0x10000 ≤ n ∧ ¬ prn n = true
        · exact .inr (.inr h2)
        · refine .inl ?_
          have : ¬ (n < 32 → n = 8 ∨ n = 9 ∨ n = 10 ∨ n = 12 ∨ n = 13) := fun h => hg ⟨h, h1, fun h3 => Classical.byContradiction fun h4 => h2 ⟨h3, h4⟩⟩
          omega
    have hp : ¬ isPrint prn n = true := by
      unfold isPrint
      split
      · simp; omega
      · rcases hg' with h | h | h
        · omega
        · omega
        · exact h.2
    simp only [quoteChunk]
    unfold escapeRune
    rw [if_neg (by omega), if_neg hp]
    split
    · exact scan_bad (by decide) (by decide) _
    rw [if_neg (by omega), if_neg (by omega), if_neg (by omega), if_neg (by omega), if_neg (by omega)]
    split
    · exact scan_bad (by decide) (by decide) _
    split
    · exact scan_bad (by decide) (by decide) _
    rw [if_neg (by omega)]
    exact scan_bad (by decide) (by decide) _

theorem chunks_elems {prn : Nat → Bool} (cs : List Chunk) (ho : ∀ c ∈ cs, c.ok) (hg : ∀ c ∈ cs, c.good prn) :
    ∃ es : List Elem, (∀ e ∈ es, e.ok ∧ ¬ e.foreign) ∧ cs.flatMap (quoteChunk prn) = es.flatMap Elem.text ∧ cs.flatMap Chunk.bytes = meaning es := by
  induction cs with
  | nil => exact ⟨[], by simp, rfl, rfl⟩
  | cons c cs ih =>
    obtain ⟨es, h1, h2, h3⟩ := ih (fun d hd => ho d (.tail _ hd)) (fun d hd => hg d (.tail _ hd))
    obtain ⟨e, e1, e2, e3, e4⟩ := chunk_elem (ho c (.head _)) (hg c (.head _))
    refine ⟨e :: es, ?_, ?_, ?_⟩
    · intro d hd
      rcases List.mem_cons.1 hd with rfl | hd
      · exact ⟨e1, e2⟩
      · exact h1 d hd
    · simp only [List.flatMap_cons, e3, h2]
    · simp only [List.flatMap_cons, e4, h3, meaning]

theorem scan_elems (es : List Elem) (ho : ∀ e ∈ es, e.ok) : scanString (es.flatMap Elem.text ++ [34]) = true := by
  induction es with
  | nil => rfl
  | cons e es ih =>
    rw [List.flatMap_cons, List.append_assoc, scan_elem (ho e (.head _)), ih fun d hd => ho d (.tail _ hd)]

theorem scan_chunks_bad {prn : Nat → Bool} (cs : List Chunk) (ho : ∀ c ∈ cs, c.ok) (hg : ∃ c ∈ cs, ¬ c.good prn) (r : Str) :
    scanString (cs.flatMap (quoteChunk prn) ++ r) = false := by
  induction cs with
  | nil => obtain ⟨c, hc, _⟩ := hg; cases hc
  | cons c cs ih =>
    rw [List.flatMap_cons, List.append_assoc]
    by_cases hc : c.good prn
    · obtain ⟨e, e1, _, e3, _⟩ := chunk_elem (ho c (.head _)) hc
      rw [e3, scan_elem e1]
      refine ih (fun d hd => ho d (.tail _ hd)) ?_
      obtain ⟨d, hd, hdg⟩ := hg
      rcases List.mem_cons.1 hd with rfl | hd
      · exact absurd hc hdg
      · exact ⟨d, hd, hdg⟩
    · exact scan_chunk_bad hc _

theorem quotable_iff (prn : Nat → Bool) (s : Str) : Quotable prn s ↔ ∀ c ∈ chunks s, c.good prn := by
  constructor
  · rintro ⟨rs, rfl, h⟩ c hc
    rw [chunks_utf8s fun r hr => (h r hr).1] at hc
    obtain ⟨r, hr, rfl⟩ := List.mem_map.1 hc
    exact (h r hr).2
  · intro h
    have gen : ∀ cs : List Chunk, (∀ c ∈ cs, c.ok ∧ c.good prn) → ∃ rs : List Nat, cs.flatMap Chunk.bytes = utf8s rs ∧
        ∀ r ∈ rs, Scalar r ∧ (r < 32 → r ∈ [8, 9, 10, 12, 13]) ∧ r ≠ 127 ∧ (0x10000 ≤ r → prn r = true) := by
      intro cs
      induction cs with
      | nil => exact fun _ => ⟨[], rfl, by simp⟩
      | cons c cs ih =>
        intro hcs
        obtain ⟨rs, h1, h2⟩ := ih fun d hd => hcs d (.tail _ hd)
        obtain ⟨c1, c2⟩ := hcs c (.head _)
        cases c with
        | bad b => exact c2.elim
        | rune n =>
          refine ⟨n :: rs, ?_, ?_⟩
          · simp only [List.flatMap_cons, h1, Chunk.bytes, utf8s]
          · intro r hr
            rcases List.mem_cons.1 hr with rfl | hr
            · exact ⟨c1, c2⟩
            · exact h2 r hr
    obtain ⟨rs, h1, h2⟩ := gen (chunks s) fun c hc => ⟨chunks_ok s c hc, h c hc⟩
    exact ⟨rs, (chunks_bytes s).symm.trans h1, h2⟩

end Oapi.PtrJson
