import Verif.Proofs.JsonScan

/- `compact` keeps the meaning of a JSON text. -/
namespace Oapi.JsonText
open Spec Spec.JsonText
open Spec.PtrJson (hexOf Hex4 Elem JsonString shorts)
open PtrJson (hexDigit hexDigits)

/-- Bytes `compact` copies. -/
def Tame (c : UInt8) : Prop := c ≠ 60 ∧ c ≠ 62 ∧ c ≠ 38 ∧ c ≠ 0xE2

instance (c : UInt8) : Decidable (Tame c) := by unfold Tame; infer_instance

theorem emit_tame {op : Op} {c : UInt8} (hc : Tame c) (h1 : op ≠ .skipSpace) (h2 : op ≠ .fin) (t : Str) : emit op c t = ([c], 0) := by
  obtain ⟨a, b, d, e⟩ := hc
  simp [emit, a, b, d, e, h1, h2]

theorem compact_step {s s1 : Sc} {c : UInt8} {op : Op} (h : step s c = (s1, op)) (hc : Tame c) (h0 : op ≠ .err) (h1 : op ≠ .skipSpace) (h2 : op ≠ .fin)
    (t : Str) : compactGo 0 s (c :: t) = (compactGo 0 s1 t).map (c :: ·) := by
  simp only [compactGo, h]
  rw [if_neg h0, emit_tame hc h1 h2]
  rfl

theorem compact_run {s s' : Sc} {w : Str} (h : Run s w s') (hw : ∀ c ∈ w, Tame c) (r : Str) :
    compactGo 0 s (w ++ r) = (compactGo 0 s' r).map (w ++ ·) := by
  induction h with
  | nil => simp
  | cons e _ ih =>
    rw [List.cons_append, compact_step e (hw _ (by simp)) (by decide) (by decide) (by decide), ih fun c h => hw c (by simp [h]), Option.map_map]
    rfl

/-! ### Strings -/

set_option maxRecDepth 8000 in
theorem hex_tame {c : UInt8} (h : (hexOf c).isSome) : Tame c := by
  have : ∀ c : UInt8, (hexOf c).isSome → Tame c := by
    refine Url.all_bytes ?_
    decide
  exact this c h

theorem run_hex4 (h : Hex4) (st : List Ctx) : Run ⟨.inString, st⟩ h.text ⟨.inString, st⟩ := by
  obtain ⟨w, x, y, z, h1, h2, h3, h4, _⟩ := h.ok
  rw [← PtrJson.hexVal_hexOf] at h1 h2 h3 h4
  exact run_u (by simp [h1]) (by simp [h2]) (by simp [h3]) (by simp [h4])

theorem hex4_tame (h : Hex4) : ∀ c ∈ h.text, Tame c := by
  obtain ⟨w, x, y, z, h1, h2, h3, h4, _⟩ := h.ok
  intro c hc
  simp only [Hex4.text, List.mem_cons, List.not_mem_nil, or_false] at hc
  rcases hc with rfl | rfl | rfl | rfl | rfl | rfl
  · decide
  · decide
  · exact hex_tame (by simp [h1])
  · exact hex_tame (by simp [h2])
  · exact hex_tame (by simp [h3])
  · exact hex_tame (by simp [h4])

theorem run_high {t : Str} (h : ∀ b ∈ t, 128 ≤ b.toNat) (st : List Ctx) : Run ⟨.inString, st⟩ t ⟨.inString, st⟩ := by
  induction t with
  | nil => exact .nil
  | cons c t ih =>
    have hc := h c (by simp)
    refine .cons (run_char ?_ ?_ ?_) (ih fun b hb => h b (by simp [hb]))
    · exact UInt8.le_iff_toNat_le.2 (by have : (32 : UInt8).toNat = 32 := rfl; omega)
    · rintro rfl; exact absurd hc (by decide)
    · rintro rfl; exact absurd hc (by decide)

theorem run_plain {n : Nat} (h : Scalar n) (h1 : 32 ≤ n) (h2 : n ≠ 34) (h3 : n ≠ 92) (st : List Ctx) :
    Run ⟨.inString, st⟩ (utf8 n) ⟨.inString, st⟩ := by
  by_cases hlt : n < 128
  · have e : utf8 n = [UInt8.ofNat n] := by unfold utf8; rw [if_pos hlt]
    rw [e]
    refine .cons (run_char ?_ (PtrJson.ofNat_ne (k := 34) (by omega) (by decide) h2) (PtrJson.ofNat_ne (k := 92) (by omega) (by decide) h3)) .nil
    rw [UInt8.le_iff_toNat_le, UInt8.toNat_ofNat']
    have : (32 : UInt8).toNat = 32 := rfl
    omega
  · obtain ⟨a, t, hu, ha, ht⟩ := PtrJson.head_high h (by omega)
    rw [hu]
    exact run_high (fun b hb => (List.mem_cons.1 hb).elim (fun e => e ▸ ha) (ht b)) st

theorem run_elem {e : Elem} (he : e.ok) (st : List Ctx) : Run ⟨.inString, st⟩ e.text ⟨.inString, st⟩ := by
  cases e with
  | plain n => exact run_plain he.1 he.2.1 he.2.2.1 he.2.2.2 st
  | short l m =>
    refine run_short ?_
    simp only [Elem.ok, shorts, List.mem_cons, List.not_mem_nil, or_false, Prod.mk.injEq] at he
    rcases he with ⟨rfl, rfl⟩ | ⟨rfl, rfl⟩ | ⟨rfl, rfl⟩ | ⟨rfl, rfl⟩ | ⟨rfl, rfl⟩ | ⟨rfl, rfl⟩ | ⟨rfl, rfl⟩ <;> decide
  | slash => exact run_short (by decide)
  | uni h => exact run_hex4 h st
  | pair a b => exact Run.append (run_hex4 a st) (run_hex4 b st)

theorem run_elems {es : List Elem} (ho : ∀ e ∈ es, e.ok) (st : List Ctx) : Run ⟨.inString, st⟩ (es.flatMap Elem.text) ⟨.inString, st⟩ := by
  induction es with
  | nil => exact .nil
  | cons e es ih =>
    rw [List.flatMap_cons]
    exact Run.append (run_elem (ho e (by simp)) st) (ih fun e h => ho e (by simp [h]))

/-- JSON strings are literals for the scanner. -/
theorem key_json {k s : Str} (h : JsonString k s) : IsKey k := by
  obtain ⟨es, ho, rfl, _⟩ := h
  refine ⟨es.flatMap Elem.text ++ [34], rfl, fun st => Run.append (run_elems ho st) (.cons rfl .nil)⟩

/-- The `\u` escape of a small number. -/
def hexOfNat (n : Nat) (h : n < 65536) : Hex4 where
  a := hexDigit (n / 16 / 16 / 16 % 16)
  b := hexDigit (n / 16 / 16 % 16)
  c := hexDigit (n / 16 % 16)
  d := hexDigit (n % 16)
  value := n
  ok := by
    have hv : ∀ k, hexOf (hexDigit (k % 16)) = some (k % 16) := fun k => by
      rw [← PtrJson.hexVal_hexOf]; exact PtrJson.hexVal_hexDigit (Nat.mod_lt _ (by decide))
    exact ⟨_, _, _, _, hv _, hv _, hv _, hv _, by omega⟩

theorem compact_plain {n : Nat} (h : Scalar n) (h1 : 32 ≤ n) (h2 : n ≠ 34) (h3 : n ≠ 92) : ∃ e' : Elem, e'.ok ∧ e'.meaning = utf8 n ∧
    ∀ st r, compactGo 0 ⟨.inString, st⟩ (utf8 n ++ r) = (compactGo 0 ⟨.inString, st⟩ r).map (e'.text ++ ·) := by
  have run := run_plain h h1 h2 h3
  by_cases hlt : n < 128
  · have e : utf8 n = [UInt8.ofNat n] := by unfold utf8; rw [if_pos hlt]
    by_cases hh : n = 60 ∨ n = 62 ∨ n = 38
    · refine ⟨.uni (hexOfNat n (by omega)), h, rfl, fun st r => ?_⟩
      have hs : step ⟨.inString, st⟩ (UInt8.ofNat n) = (⟨.inString, st⟩, .cont) := by
        rcases hh with rfl | rfl | rfl <;> rfl
      rw [e, List.singleton_append]
      simp only [compactGo, hs]
      rw [if_neg (by decide)]
      rcases hh with rfl | rfl | rfl <;> rfl
    · refine ⟨.plain n, ⟨h, h1, h2, h3⟩, rfl, fun st r => compact_run (run st) ?_ r⟩
      intro c hc
      rw [e, List.mem_singleton] at hc
      subst hc
      refine ⟨PtrJson.ofNat_ne (k := 60) (by omega) (by decide) (by omega), PtrJson.ofNat_ne (k := 62) (by omega) (by decide) (by omega),
        PtrJson.ofNat_ne (k := 38) (by omega) (by decide) (by omega), PtrJson.ofNat_ne (k := 0xE2) (by omega) (by decide) (by omega)⟩
  · by_cases hsep : n = 0x2028 ∨ n = 0x2029
    · refine ⟨.uni (hexOfNat n (by omega)), h, rfl, fun st r => ?_⟩
      rcases hsep with rfl | rfl
      · change compactGo 0 ⟨.inString, st⟩ (0xE2 :: 0x80 :: 0xA8 :: r) = _
        have a1 : step ⟨.inString, st⟩ 0xE2 = (⟨.inString, st⟩, .cont) := rfl
        have a2 : step ⟨.inString, st⟩ 0x80 = (⟨.inString, st⟩, .cont) := rfl
        have a3 : step ⟨.inString, st⟩ 0xA8 = (⟨.inString, st⟩, .cont) := rfl
        have a4 : emit .cont 0xE2 (0x80 :: 0xA8 :: r) = (b!"\\u2028", 2) := by simp [emit]; decide
        simp only [compactGo, a1, a2, a3, a4]
        rfl
      · change compactGo 0 ⟨.inString, st⟩ (0xE2 :: 0x80 :: 0xA9 :: r) = _
        have a1 : step ⟨.inString, st⟩ 0xE2 = (⟨.inString, st⟩, .cont) := rfl
        have a2 : step ⟨.inString, st⟩ 0x80 = (⟨.inString, st⟩, .cont) := rfl
        have a3 : step ⟨.inString, st⟩ 0xA9 = (⟨.inString, st⟩, .cont) := rfl
        have a4 : emit .cont 0xE2 (0x80 :: 0xA9 :: r) = (b!"\\u2029", 2) := by simp [emit]; decide
        simp only [compactGo, a1, a2, a3, a4]
        rfl
    · refine ⟨.plain n, ⟨h, h1, h2, h3⟩, rfl, fun st r => ?_⟩
      have run' := run st
      change _ = (compactGo 0 ⟨.inString, st⟩ r).map (utf8 n ++ ·)
      have hbyte : ∀ k : Nat, k < 256 → ∀ m : Nat, m < 256 → k ≠ m → UInt8.ofNat k ≠ UInt8.ofNat m := fun k hk m hm hne => PtrJson.ofNat_ne hk hm hne
      have tame : ∀ k : Nat, 128 ≤ k → k < 256 → k ≠ 0xE2 → Tame (UInt8.ofNat k) := fun k h1 h2 h3 =>
        ⟨PtrJson.ofNat_ne (k := 60) h2 (by decide) (by omega), PtrJson.ofNat_ne (k := 62) h2 (by decide) (by omega),
          PtrJson.ofNat_ne (k := 38) h2 (by decide) (by omega), PtrJson.ofNat_ne (k := 0xE2) h2 (by decide) h3⟩
      by_cases hA : n < 0x800
      · refine compact_run run' ?_ r
        have e : utf8 n = [UInt8.ofNat (0xC0 + n / 64), UInt8.ofNat (0x80 + n % 64)] := by
          unfold utf8; rw [if_neg hlt, if_pos hA]
        rw [e]
        intro c hc
        simp only [List.mem_cons, List.not_mem_nil, or_false] at hc
        rcases hc with rfl | rfl <;> exact tame _ (by omega) (by omega) (by omega)
      by_cases hB : n < 0x10000
      · have e : utf8 n = [UInt8.ofNat (0xE0 + n / 4096), UInt8.ofNat (0x80 + n / 64 % 64), UInt8.ofNat (0x80 + n % 64)] := by
          unfold utf8; rw [if_neg hlt, if_neg hA, if_pos hB]
        rw [e] at run' ⊢
        cases run' with
        | cons e1 run1 =>
          rename_i s1
          have e1' := e1
          rw [run_char (UInt8.le_iff_toNat_le.2 (by rw [UInt8.toNat_ofNat']; have : (32 : UInt8).toNat = 32 := rfl; omega))
            (hbyte _ (by omega) 34 (by decide) (by omega)) (hbyte _ (by omega) 92 (by decide) (by omega))] at e1
          cases e1
          have hem : emit .cont (UInt8.ofNat (0xE0 + n / 4096)) ([UInt8.ofNat (0x80 + n / 64 % 64), UInt8.ofNat (0x80 + n % 64)] ++ r)
              = ([UInt8.ofNat (0xE0 + n / 4096)], 0) := by
            unfold emit
            rw [if_neg, if_neg, if_neg (by decide)]
            · rintro ⟨h1, h2, h3⟩
              simp only [List.cons_append, List.head?_cons, List.tail_cons, Option.some.injEq] at h2 h3
              have h1' : 0xE0 + n / 4096 = 0xE2 := by
                refine Decidable.byContradiction fun hne => ?_; exact hbyte _ (by omega) 0xE2 (by decide) hne h1
              have h2' : 0x80 + n / 64 % 64 = 0x80 := by
                refine Decidable.byContradiction fun hne => ?_; exact hbyte _ (by omega) 0x80 (by decide) hne h2
              have h3' : 0x80 + n % 64 = 0xA8 ∨ 0x80 + n % 64 = 0xA9 := by
                rcases h3 with h3 | h3
                · left; refine Decidable.byContradiction fun hne => ?_; exact hbyte _ (by omega) 0xA8 (by decide) hne h3
                · right; refine Decidable.byContradiction fun hne => ?_; exact hbyte _ (by omega) 0xA9 (by decide) hne h3
              omega
            · rintro (h | h | h)
              · exact hbyte _ (by omega) 60 (by decide) (by omega) h
              · exact hbyte _ (by omega) 62 (by decide) (by omega) h
              · exact hbyte _ (by omega) 38 (by decide) (by omega) h
          rw [List.cons_append]
          simp only [compactGo, e1', hem]
          rw [if_neg (by decide), compact_run run1 ?_ r, Option.map_map]
          · rfl
          · intro c hc
            simp only [List.mem_cons, List.not_mem_nil, or_false] at hc
            rcases hc with rfl | rfl <;> exact tame _ (by omega) (by omega) (by omega)
      · refine compact_run run' ?_ r
        have e : utf8 n = [UInt8.ofNat (0xF0 + n / 262144), UInt8.ofNat (0x80 + n / 4096 % 64), UInt8.ofNat (0x80 + n / 64 % 64), UInt8.ofNat (0x80 + n % 64)] := by
          unfold utf8; rw [if_neg hlt, if_neg hA, if_neg hB]
        have hm : n < 0x110000 := by rcases h with h | h <;> omega
        rw [e]
        intro c hc
        simp only [List.mem_cons, List.not_mem_nil, or_false] at hc
        rcases hc with rfl | rfl | rfl | rfl <;> exact tame _ (by omega) (by omega) (by omega)

theorem compact_elem {e : Elem} (he : e.ok) : ∃ e' : Elem, e'.ok ∧ e'.meaning = e.meaning ∧
    ∀ st r, compactGo 0 ⟨.inString, st⟩ (e.text ++ r) = (compactGo 0 ⟨.inString, st⟩ r).map (e'.text ++ ·) := by
  have copy : (∀ c ∈ e.text, Tame c) → ∃ e' : Elem, e'.ok ∧ e'.meaning = e.meaning ∧
      ∀ st r, compactGo 0 ⟨.inString, st⟩ (e.text ++ r) = (compactGo 0 ⟨.inString, st⟩ r).map (e'.text ++ ·) :=
    fun h => ⟨e, he, rfl, fun st r => compact_run (run_elem he st) h r⟩
  cases e with
  | plain n => exact compact_plain he.1 he.2.1 he.2.2.1 he.2.2.2
  | short l m =>
    refine copy ?_
    simp only [Elem.ok, shorts, List.mem_cons, List.not_mem_nil, or_false, Prod.mk.injEq] at he
    rcases he with ⟨rfl, rfl⟩ | ⟨rfl, rfl⟩ | ⟨rfl, rfl⟩ | ⟨rfl, rfl⟩ | ⟨rfl, rfl⟩ | ⟨rfl, rfl⟩ | ⟨rfl, rfl⟩ <;> (unfold Elem.text; decide)
  | slash => exact copy (by unfold Elem.text; decide)
  | uni h => exact copy (hex4_tame h)
  | pair a b => exact copy fun c hc => (List.mem_append.1 hc).elim (hex4_tame a c) (hex4_tame b c)

theorem compact_elems {es : List Elem} (ho : ∀ e ∈ es, e.ok) : ∃ es' : List Elem, (∀ e ∈ es', e.ok) ∧ es'.flatMap Elem.meaning = es.flatMap Elem.meaning ∧
    ∀ st r, compactGo 0 ⟨.inString, st⟩ (es.flatMap Elem.text ++ r) = (compactGo 0 ⟨.inString, st⟩ r).map (es'.flatMap Elem.text ++ ·) := by
  induction es with
  | nil => exact ⟨[], nofun, rfl, fun st r => by simp⟩
  | cons e es ih =>
    obtain ⟨es', h1, h2, h3⟩ := ih fun e h => ho e (by simp [h])
    obtain ⟨e', g1, g2, g3⟩ := compact_elem (ho e (by simp))
    refine ⟨e' :: es', ?_, ?_, fun st r => ?_⟩
    · intro x hx
      rcases List.mem_cons.1 hx with rfl | hx
      · exact g1
      · exact h1 x hx
    · simp only [List.flatMap_cons, g2, h2]
    · rw [List.flatMap_cons, List.append_assoc, g3, h3, Option.map_map]
      simp only [List.flatMap_cons, List.append_assoc]
      rfl

/-- How `compact` rewrites a string literal. -/
def CompactKey (k k' : Str) : Prop := ∃ t t', k = 34 :: t ∧ k' = 34 :: t' ∧
    ∀ st r, compactGo 0 ⟨.inString, st⟩ (t ++ r) = (compactGo 0 ⟨.endValue, st⟩ r).map (t' ++ ·)

theorem compact_key {k s : Str} (h : JsonString k s) : ∃ k', JsonString k' s ∧ CompactKey k k' := by
  obtain ⟨es, ho, rfl, rfl⟩ := h
  obtain ⟨es', h1, h2, h3⟩ := compact_elems ho
  refine ⟨34 :: (es'.flatMap Elem.text ++ [34]), ⟨es', h1, rfl, h2.symm⟩, es.flatMap Elem.text ++ [34], _, rfl, rfl, fun st r => ?_⟩
  rw [List.append_assoc, h3, List.singleton_append, compact_step (s1 := ⟨.endValue, st⟩) (op := .cont) rfl (by decide) (by decide) (by decide) (by decide),
    Option.map_map]
  congr 1
  funext x
  simp

/-! ### Texts -/

theorem num_tame {c : UInt8} (h : isNumByte c = true) : Tame c := by
  have : ∀ c : UInt8, isNumByte c = true → Tame c := by
    refine Url.all_bytes ?_
    decide +kernel
  exact this c h

theorem digits_num {d : Str} (h : ∀ c ∈ d, 48 ≤ c ∧ c ≤ 57) : ∀ c ∈ d, isNumByte c = true := fun c hc => digit_num ((isDigit_iff c).2 (h c hc))

theorem number_bytes {t : Str} (h : Number t) : ∀ c ∈ t, isNumByte c = true := by
  obtain ⟨sign, int, frac, exp, hs, hi, hf, hx, rfl⟩ := h
  intro c hc
  simp only [List.mem_append] at hc
  rcases hc with ((hc | hc) | hc) | hc
  · rcases hs with rfl | rfl
    · simp at hc
    · simp only [List.mem_singleton] at hc; subst hc; decide
  · exact digits_num hi.1.2 c hc
  · rcases hf with rfl | ⟨d, hd, rfl⟩
    · simp at hc
    · rcases List.mem_cons.1 hc with rfl | hc
      · decide
      · exact digits_num hd.2 c hc
  · rcases hx with rfl | ⟨e, s, d, he, hs, hd, rfl⟩
    · simp at hc
    · simp only [List.cons_append, List.mem_cons, List.mem_append] at hc
      rcases hc with rfl | hc | hc
      · simp only [List.mem_cons, List.not_mem_nil, or_false] at he
        rcases he with rfl | rfl <;> decide
      · rcases hs with rfl | rfl | rfl
        · simp at hc
        · simp only [List.mem_singleton] at hc; subst hc; decide
        · simp only [List.mem_singleton] at hc; subst hc; decide
      · exact digits_num hd.2 c hc

section
variable {N : Str → Int → Prop} {S : Str → Str → Prop}

/-- What `compact` makes of a piece. -/
def CompactPiece (N : Str → Int → Prop) (S : Str → Str → Prop) (w : Str) (x : What) : Prop :=
  ∃ w', Means N S x w' ∧ match x with
  | .value _ => ∀ st r q, (q = State.beginValue ∨ q = .beginValueOrEmpty) → Delim r →
      compactGo 0 ⟨q, st⟩ (w ++ r) = (compactGo 0 ⟨.endValue, st⟩ r).map (w' ++ ·)
  | .elems _ => ∀ st r q, (q = State.beginValue ∨ q = .beginValueOrEmpty) →
      compactGo 0 ⟨q, .arr :: st⟩ (w ++ 93 :: r) = (compactGo 0 (pop (.arr :: st)) r).map (w' ++ 93 :: ·)
  | .members _ => ∀ st r q, (q = State.beginString ∨ q = .beginStringOrEmpty) →
      compactGo 0 ⟨q, .key :: st⟩ (w ++ 125 :: r) = (compactGo 0 (pop (.val :: st)) r).map (w' ++ 125 :: ·)

theorem compact_lit {w : Str} (h : IsLit w) (hw : ∀ c ∈ w, Tame c) (st : List Ctx) (r : Str) {q : State} (hq : q = .beginValue ∨ q = .beginValueOrEmpty)
    (hr : Delim r) : compactGo 0 ⟨q, st⟩ (w ++ r) = (compactGo 0 ⟨.endValue, st⟩ r).map (w ++ ·) := by
  obtain ⟨c, t, rfl, h⟩ := h
  obtain ⟨s1, s', h1, h2, h3⟩ := h st
  rw [List.cons_append, compact_step (step_orEmpty h1 (by decide) (by decide) hq) (hw c (by simp)) (by decide) (by decide) (by decide),
    compact_run h2 (fun c h => hw c (by simp [h])), compactGo_eqv h3 hr, Option.map_map]
  rfl

theorem blank_nil : Blank [] := nofun

theorem compact_piece (hN : ∀ t n, N t n → Number t) (hS : ∀ k s, S k s → ∃ k', S k' s ∧ CompactKey k k') {x : What} {w : Str} (h : Means N S x w) :
    CompactPiece N S w x := by
  induction h with
  | null => exact ⟨_, .null, fun st r q hq hr => compact_lit lit_null (by decide) st r hq hr⟩
  | true_ => exact ⟨_, .true_, fun st r q hq hr => compact_lit lit_true (by decide) st r hq hr⟩
  | false_ => exact ⟨_, .false_, fun st r q hq hr => compact_lit lit_false (by decide) st r hq hr⟩
  | num h =>
    exact ⟨_, .num h, fun st r q hq hr => compact_lit (lit_number (hN _ _ h)) (fun c hc => num_tame (number_bytes (hN _ _ h) c hc)) st r hq hr⟩
  | str h =>
    obtain ⟨k', hk, t, t', rfl, rfl, ht⟩ := hS _ _ h
    refine ⟨_, .str hk, fun st r q hq hr => ?_⟩
    rw [List.cons_append, compact_step (step_orEmpty (s1 := ⟨.inString, st⟩) (op := .beginLiteral) rfl (by decide) (by decide) hq) (by decide) (by decide)
      (by decide) (by decide), ht, Option.map_map]
    rfl
  | arr0 hw =>
    refine ⟨_, .arr0 blank_nil, fun st r q hq hr => ?_⟩
    rw [List.cons_append, compact_step (step_bracket hq st) (by decide) (by decide) (by decide) (by decide), List.append_assoc,
      compactGo_blank (skips_begin (by decide) _) hw, List.singleton_append,
      compact_step (s1 := pop (.arr :: st)) (op := .endArray) rfl (by decide) (by decide) (by decide) (by decide), compactGo_eqv (eqv_pop _ st) hr, Option.map_map]
    rfl
  | arr _ ih =>
    obtain ⟨w', hm, ih⟩ := ih
    refine ⟨_, .arr hm, fun st r q hq hr => ?_⟩
    rw [List.cons_append, compact_step (step_bracket hq st) (by decide) (by decide) (by decide) (by decide), List.append_assoc, List.singleton_append,
      ih st r .beginValueOrEmpty (.inr rfl), compactGo_eqv (eqv_pop _ st) hr, Option.map_map]
    congr 1; funext x; simp
  | obj0 hw =>
    refine ⟨_, .obj0 blank_nil, fun st r q hq hr => ?_⟩
    rw [List.cons_append, compact_step (step_brace hq st) (by decide) (by decide) (by decide) (by decide), List.append_assoc,
      compactGo_blank (skips_begin (by decide) _) hw, List.singleton_append,
      compact_step (s1 := pop (.val :: st)) (op := .endObject) rfl (by decide) (by decide) (by decide) (by decide), compactGo_eqv (eqv_pop _ st) hr, Option.map_map]
    rfl
  | obj _ hcol ih =>
    obtain ⟨w', hm, ih⟩ := ih
    refine ⟨_, .obj hm hcol, fun st r q hq hr => ?_⟩
    rw [List.cons_append, compact_step (step_brace hq st) (by decide) (by decide) (by decide) (by decide), List.append_assoc, List.singleton_append,
      ih st r .beginStringOrEmpty (.inr rfl), compactGo_eqv (eqv_pop _ st) hr, Option.map_map]
    congr 1; funext x; simp
  | elem ha _ hb ih =>
    obtain ⟨w', hm, ih⟩ := ih
    refine ⟨_, .elem blank_nil hm blank_nil, fun st r q hq => ?_⟩
    simp only [List.append_assoc]
    rw [compactGo_blank (skips_begin (q_value hq) _) ha, ih (.arr :: st) _ q hq (delim_blank hb (delim_cons (by decide) _)),
      compactGo_blank (skips_end _ _) hb,
      compact_step (s1 := pop (.arr :: st)) (op := .endArray) rfl (by decide) (by decide) (by decide) (by decide), Option.map_map]
    congr 1
  | elems ha _ hb _ ih ih' =>
    obtain ⟨w', hm, ih⟩ := ih
    obtain ⟨w'', hm', ih'⟩ := ih'
    refine ⟨_, .elems blank_nil hm blank_nil hm', fun st r q hq => ?_⟩
    simp only [List.append_assoc, List.cons_append]
    rw [compactGo_blank (skips_begin (q_value hq) _) ha, ih (.arr :: st) _ q hq (delim_blank hb (delim_cons (by decide) _)),
      compactGo_blank (skips_end _ _) hb,
      compact_step (s1 := ⟨.beginValue, .arr :: st⟩) (op := .arrayValue) rfl (by decide) (by decide) (by decide) (by decide),
      ih' st r .beginValue (.inl rfl), Option.map_map, Option.map_map]
    congr 1
  | member ha hk hb hc _ hd ih =>
    obtain ⟨w', hm, ih⟩ := ih
    obtain ⟨k', hk', t, t', rfl, rfl, ht⟩ := hS _ _ hk
    refine ⟨_, .member blank_nil hk' blank_nil blank_nil hm blank_nil, fun st r q hq => ?_⟩
    simp only [List.append_assoc, List.cons_append]
    rw [compactGo_blank (skips_begin (q_string hq) _) ha, compact_step (step_quote hq _) (by decide) (by decide) (by decide) (by decide), ht,
      compactGo_blank (skips_end _ _) hb, compact_step (s1 := ⟨.beginValue, .val :: st⟩) (op := .objectKey) rfl (by decide) (by decide) (by decide) (by decide),
      compactGo_blank (skips_begin (by decide) _) hc, ih _ _ _ (.inl rfl) (delim_blank hd (delim_cons (by decide) _)),
      compactGo_blank (skips_end _ _) hd, compact_step (s1 := pop (.val :: st)) (op := .endObject) rfl (by decide) (by decide) (by decide) (by decide),
      Option.map_map, Option.map_map, Option.map_map, Option.map_map]
    congr 1
  | members ha hk hb hc _ hd _ ih ih' =>
    obtain ⟨w', hm, ih⟩ := ih
    obtain ⟨w'', hm', ih'⟩ := ih'
    obtain ⟨k', hk', t, t', rfl, rfl, ht⟩ := hS _ _ hk
    refine ⟨_, .members blank_nil hk' blank_nil blank_nil hm blank_nil hm', fun st r q hq => ?_⟩
    simp only [List.append_assoc, List.cons_append]
    rw [compactGo_blank (skips_begin (q_string hq) _) ha, compact_step (step_quote hq _) (by decide) (by decide) (by decide) (by decide), ht,
      compactGo_blank (skips_end _ _) hb, compact_step (s1 := ⟨.beginValue, .val :: st⟩) (op := .objectKey) rfl (by decide) (by decide) (by decide) (by decide),
      compactGo_blank (skips_begin (by decide) _) hc, ih _ _ _ (.inl rfl) (delim_blank hd (delim_cons (by decide) _)),
      compactGo_blank (skips_end _ _) hd, compact_step (s1 := ⟨.beginString, .key :: st⟩) (op := .objectValue) rfl (by decide) (by decide) (by decide) (by decide),
      ih' st r .beginString (.inl rfl), Option.map_map, Option.map_map, Option.map_map, Option.map_map, Option.map_map]
    congr 1

theorem compactGo_top {b : Str} (hb : Blank b) : compactGo 0 ⟨.endValue, []⟩ b = some [] := by
  have : ∀ b : Str, Blank b → compactGo 0 ⟨.endTop, []⟩ b = some [] := by
    intro b hb
    induction b with
    | nil => rfl
    | cons c t ih =>
      have hc := (isSpace_iff c).2 (hb c (by simp))
      have hp := space_plain hc
      have hs : step ⟨.endTop, []⟩ c = (⟨.endTop, []⟩, .fin) := by simp [step, endTop, hc]
      simp only [compactGo, hs]
      have he : emit .fin c t = ([], 0) := by simp [emit, hp.1, hp.2]
      rw [if_neg (by decide), he, ih fun c h => hb c (by simp [h])]
      rfl
  rw [← compactGo_eqv eqv_top (by have := delim_blank hb delim_nil; simpa using this)]
  exact this b hb

/-- `compact` of a JSON text is a JSON text, without white space around it, with the same meaning. -/
theorem compact_doc (hN : ∀ t n, N t n → Number t) (hS : ∀ k s, S k s → ∃ k', S k' s ∧ CompactKey k k') {t : Str} {j : Json} (h : Doc N S t j) :
    ∃ w, compact t = some w ∧ Means N S (.value j) w := by
  obtain ⟨a, w, b, ha, hb, rfl, hm⟩ := h
  obtain ⟨w', hm', hw⟩ := compact_piece hN hS hm
  refine ⟨w', ?_, hm'⟩
  unfold compact
  rw [start, compactGo_blank (skips_begin (by decide) _) ha, hw [] b _ (.inl rfl) (by have := delim_blank hb delim_nil; simpa using this), compactGo_top hb]
  simp
end

end Oapi.JsonText
