import Verif.Model.TagText
import Verif.Spec.TagText
import Verif.Proofs.GoString

/-! Proofs about the texts of struct tags. -/
namespace Oapi.TagText
open TagP Spec.TagText
open Spec.PtrJson (GoString GoBody)

/-! `tagparser` -/

theorem scanKey_word {k r : Str} (h : ∀ c ∈ k, c ≠ 44 ∧ c ≠ 58 ∧ c ≠ 39) : scanKey (k ++ r) = (k ++ (scanKey r).1, (scanKey r).2) := by
  induction k with
  | nil => rfl
  | cons c k ih =>
    have h1 := h c (List.mem_cons_self ..)
    rw [List.cons_append, scanKey, if_neg (by simp [h1]), ih fun d hd => h d (List.mem_cons_of_mem _ hd)]
    rfl

theorem value_char {d : Nat} {c : UInt8} (s : Str) (h1 : c ≠ 92) (h2 : c = 44 → d ≠ 0) :
    scanValue d (c :: s) = (c :: (scanValue (if c = 40 then d + 1 else if c = 41 then d - 1 else d) s).1,
      (scanValue (if c = 40 then d + 1 else if c = 41 then d - 1 else d) s).2) := by
  cases s with
  | nil => simp [scanValue, h1]; intro h3 h4; exact absurd h4 (h2 h3)
  | cons e s =>
    rw [scanValue, if_neg h1, if_neg (fun h => h2 h.1 h.2)]

theorem value_esc {d : Nat} {c : UInt8} (s : Str) : scanValue d (92 :: c :: s) = (c :: (scanValue d s).1, (scanValue d s).2) := by
  rw [scanValue, if_pos rfl]

theorem value_comma (s : Str) : scanValue 0 (44 :: s) = ([], skip 32 s) := by
  cases s with
  | nil => rfl
  | cons e s => rw [scanValue, if_neg (by decide), if_pos ⟨rfl, rfl⟩]

theorem value_inside {g n : Str} (h : Inside g n) : ∀ (d : Nat) (r : Str),
    scanValue (d + 1) (g ++ r) = (n ++ (scanValue (d + 1) r).1, (scanValue (d + 1) r).2) := by
  induction h with
  | nil => intro d r; rfl
  | char h1 h2 h3 _ ih =>
    intro d r
    rw [List.cons_append, value_char _ h3 (fun _ => by omega), if_neg h1, if_neg h2, ih]; rfl
  | esc _ ih => intro d r; rw [List.cons_append, List.cons_append, value_esc, ih]; rfl
  | nest _ _ ih1 ih2 =>
    intro d r
    rw [List.cons_append, value_char _ (by decide) (fun h => absurd h (by decide)), if_pos rfl, List.append_assoc, ih1, List.cons_append,
      value_char _ (by decide) (fun h => absurd h (by decide)), if_neg (by decide), if_pos rfl, Nat.add_sub_cancel, ih2]
    simp

theorem value_bare {t v : Str} (h : Bare t v) : ∀ (r : Str), scanValue 0 (t ++ r) = (v ++ (scanValue 0 r).1, (scanValue 0 r).2) := by
  induction h with
  | nil => intro r; rfl
  | @char c t m h1 h2 h3 _ ih =>
    intro r
    rw [List.cons_append, value_char _ h3 (fun h => absurd h h2), if_neg h1]
    have : (if c = 41 then 0 - 1 else 0) = 0 := by split <;> rfl
    rw [this, ih]; rfl
  | esc _ ih => intro r; rw [List.cons_append, List.cons_append, value_esc, ih]; rfl
  | nest h1 _ ih2 =>
    intro r
    rw [List.cons_append, value_char _ (by decide) (by decide), if_pos rfl, List.append_assoc, value_inside h1, List.cons_append,
      value_char _ (by decide) (by decide), if_neg (by decide), if_pos rfl, Nat.add_sub_cancel, ih2]
    simp

theorem quoted_char {c : UInt8} (s : Str) (h1 : c ≠ 39) (h2 : c ≠ 92) : scanQuoted (c :: s) = (c :: (scanQuoted s).1, (scanQuoted s).2) := by
  cases s with
  | nil => simp [scanQuoted, h1]
  | cons e s => rw [scanQuoted, if_neg h1, if_neg (fun h => h2 h.1)]

theorem quoted_quoted {t v : Str} (h : Quoted t v) (r : Str) : scanQuoted (t ++ 39 :: r) = (v, r) := by
  induction h with
  | nil => cases r <;> rfl
  | char h1 h2 _ ih => rw [List.cons_append, quoted_char _ h1 h2, ih]
  | quote _ ih => rw [List.cons_append, List.cons_append, scanQuoted, if_neg (by decide), if_pos ⟨rfl, rfl⟩, ih]
  | slash h1 h2 _ ih =>
    rw [List.cons_append, List.cons_append, scanQuoted, if_neg (by decide), if_neg (fun h => h1 h.2), quoted_char _ h1 h2, ih]

theorem white_iff (c : UInt8) : white c = true ↔ c ∈ ([32, 9, 10, 11, 12, 13] : Str) := by
  have : ∀ n : Fin 256, (white (UInt8.ofNat n.val) = true ↔ UInt8.ofNat n.val ∈ ([32, 9, 10, 11, 12, 13] : Str)) := by decide +kernel
  have h := this ⟨c.toNat, c.toNat_lt⟩
  rwa [UInt8.ofNat_toNat] at h

theorem trim_trimmed {s : Str} (h : Trimmed s) : trimSpace s = s := by
  have key : ∀ l : Str, (∀ c, l.head? = some c → white c = false) → l.dropWhile white = l := by
    intro l hl
    cases l with
    | nil => rfl
    | cons c l => rw [List.dropWhile_cons_of_neg]; simp [hl c rfl]
  have h1 : ∀ c, s.head? = some c → white c = false := fun c hc => by
    cases hw : white c with
    | false => rfl
    | true => exact absurd hc (h c ((white_iff c).1 hw)).1
  have h2 : ∀ c, s.getLast? = some c → white c = false := fun c hc => by
    cases hw : white c with
    | false => rfl
    | true => exact absurd hc (h c ((white_iff c).1 hw)).2
  unfold trimSpace
  rw [key s h1, key s.reverse (fun c hc => h2 c (by rw [List.head?_reverse] at hc; exact hc)), List.reverse_reverse]

theorem trim_nil : trimSpace [] = [] := rfl

/-- Another option. -/
def push (st : PState) (o : Str × Str) : PState := { tag := { st.tag with options := o :: st.tag.options }, hasName := true }

theorem set_flag {st : PState} {k : Str} (hs : st.hasName = true) (h : Trimmed k) : setOption st [] k = push st (k, []) := by
  unfold setOption push
  simp only [trim_trimmed h, trim_nil]
  rw [if_neg (by simp [hs])]
  simp [hs]

theorem set_value {st : PState} {k v : Str} (h : Trimmed k) (hk : k ≠ []) (hv : Trimmed v) : setOption st k v = push st (k, v) := by
  unfold setOption push
  simp only [trim_trimmed h, trim_trimmed hv]
  rw [if_neg (by simp [hk])]
  simp [hk]

theorem set_name {k : Str} (h : Trimmed k) : setOption ⟨⟨[], []⟩, false⟩ [] k = ⟨⟨k, []⟩, true⟩ := by
  unfold setOption
  simp only [trim_trimmed h, trim_nil]
  simp

theorem parse_nil (fuel : Nat) (st : PState) : parseKey fuel [] st = st := by cases fuel <;> rfl

/-- What follows an option. -/
def Ends (r : Str) : Prop := r = [] ∨ ∃ r', r = 44 :: r'

theorem ends_of {os : List (Str × Str)} {r : Str} (h : Options os r) : Ends r := by
  cases h with
  | nil => exact .inl rfl
  | comma => exact .inr ⟨_, rfl⟩
  | cons _ _ => exact .inr ⟨_, rfl⟩
  | blank _ _ => exact .inr ⟨_, rfl⟩

theorem value_ends {r : Str} (h : Ends r) : scanValue 0 r = ([], skipComma r) := by
  rcases h with rfl | ⟨r', rfl⟩
  · rfl
  · rw [value_comma, skipComma, if_pos rfl]

/-- An option with a value is read. -/
theorem parse_assigned {o : Str × Str} {t : Str} (h : Assigned o t) {r : Str} (hr : Ends r) (st : PState) (fuel : Nat) :
    parseKey (fuel + 1) (t ++ r) st = parseKey fuel (skipComma r) (push st o) := by
  cases h with
  | @bare k t v hw hk hb hq hv =>
    have hh : (t ++ r).head? ≠ some 39 := by
      cases t with
      | nil =>
        rcases hr with rfl | ⟨r', rfl⟩
        · simp
        · simp
      | cons c t => exact hq
    rw [parseKey, List.append_assoc, List.cons_append, scanKey_word hw.2]
    have : scanKey (58 :: (t ++ r)) = ([], some 58, t ++ r) := by rw [scanKey, if_pos (by decide)]
    simp only [this, List.append_nil]
    rw [if_neg (by decide), if_pos trivial, if_neg hh, value_bare hb, value_ends hr]
    simp only [List.append_nil]
    rw [set_value hw.1 hk hv]
  | @quoted k t v hw hk hq hv =>
    rw [parseKey, List.append_assoc, List.cons_append, List.cons_append, List.append_assoc, scanKey_word hw.2]
    have : scanKey (58 :: 39 :: (t ++ ([39] ++ r))) = ([], some 58, 39 :: (t ++ ([39] ++ r))) := by rw [scanKey, if_pos (by decide)]
    simp only [this, List.append_nil]
    rw [if_neg (by decide), if_pos trivial, if_pos (by rfl), List.tail_cons, List.singleton_append, quoted_quoted hq]
    simp only
    rw [set_value hw.1 hk hv]

/-- A text between apostrophes without a key is read. -/
theorem parse_alone {k t : Str} (h : Alone k t) (r : Str) (st : PState) (fuel : Nat) :
    Trimmed k ∧ parseKey (fuel + 1) (t ++ r) st = parseKey fuel (skipComma r) (setOption st [] k) := by
  cases h with
  | @mk p t v hw hq hv =>
    refine ⟨hv, ?_⟩
    rw [parseKey, List.append_assoc, List.cons_append, List.append_assoc, scanKey_word hw.2]
    have : scanKey (39 :: (t ++ ([39] ++ r))) = ([], some 39, t ++ ([39] ++ r)) := by rw [scanKey, if_pos (by decide)]
    simp only [this, List.append_nil]
    rw [if_neg (by decide), if_neg (by decide), List.singleton_append, quoted_quoted hq]

/-- One option is read. -/
theorem parse_option {o : Str × Str} {t : Str} (h : Option_ o t) {r : Str} (hr : Ends r) {st : PState} (hs : st.hasName = true) (fuel : Nat) :
    parseKey (fuel + 1) (t ++ r) st = parseKey fuel (skipComma r) (push st o) := by
  cases h with
  | flag hw hk =>
    rcases hr with rfl | ⟨r', rfl⟩
    · rw [parseKey, scanKey_word hw.2]
      simp only [scanKey, List.append_nil, skipComma]
      rw [if_neg hk, parse_nil, set_flag hs hw.1]
    · rw [parseKey, scanKey_word hw.2]
      have : scanKey (44 :: r') = ([], some 44, r') := by rw [scanKey, if_pos (by decide)]
      simp only [this, List.append_nil]
      rw [if_pos trivial, set_flag hs hw.1, skipComma, if_pos rfl]
  | alone h =>
    obtain ⟨h1, h2⟩ := parse_alone h r st fuel
    rw [h2, set_flag hs h1]
  | assigned h => exact parse_assigned h hr st fuel

theorem option_head {o : Str × Str} {t : Str} (h : Option_ o t) (r : Str) : ∃ c s, t ++ r = c :: s ∧ c ≠ 32 := by
  have key : ∀ (k s : Str), Word k → k ≠ [] → ∃ c s', k ++ s = c :: s' ∧ c ≠ 32 := by
    intro k s hw hk
    cases k with
    | nil => exact absurd rfl hk
    | cons c k => exact ⟨c, k ++ s, rfl, fun e => (hw.1 32 (by decide)).1 (by rw [e]; rfl)⟩
  cases h with
  | flag hw hk => exact key _ _ hw hk
  | alone h => cases h with
    | @mk p t v hw _ _ =>
      cases p with
      | nil => exact ⟨39, _, rfl, by decide⟩
      | cons c p => rw [List.append_assoc]; exact key _ _ hw (by simp)
  | assigned h => cases h with
    | bare hw hk _ _ _ => rw [List.append_assoc]; exact key _ _ hw hk
    | quoted hw hk _ _ => rw [List.append_assoc]; exact key _ _ hw hk

theorem skip_option {o : Str × Str} {t : Str} (h : Option_ o t) (r : Str) : skip 32 (t ++ r) = t ++ r := by
  obtain ⟨c, s, h1, h2⟩ := option_head h r
  rw [h1, skip, if_neg h2]

theorem parse_options {os : List (Str × Str)} {r : Str} (h : Options os r) : ∀ (st : PState) (fuel : Nat), st.hasName = true → r.length ≤ fuel →
    parseKey fuel (skipComma r) st = { tag := { st.tag with options := os.reverse ++ st.tag.options }, hasName := true } := by
  induction h with
  | nil => intro st fuel hs _; simp only [skipComma, parse_nil]; rw [← hs]; rfl
  | comma => intro st fuel hs _; rw [skipComma, if_pos rfl, skip, parse_nil]; rw [← hs]; rfl
  | @cons o os t r ho h ih =>
    intro st fuel hs hf
    cases fuel with
    | zero => simp at hf
    | succ fuel =>
      rw [skipComma, if_pos rfl, skip_option ho, parse_option ho (ends_of h) hs, ih (push st o) fuel rfl (by simp at hf; omega)]
      simp [push]
  | @blank o os t r ho h ih =>
    intro st fuel hs hf
    cases fuel with
    | zero => simp at hf
    | succ fuel =>
      rw [skipComma, if_pos rfl, skip, if_pos rfl, parse_option ho (ends_of h) hs, ih (push st o) fuel rfl (by simp at hf; omega)]
      simp [push]

theorem assigned_ne {o : Str × Str} {t : Str} (h : Assigned o t) : t ≠ [] := by cases h <;> simp

theorem tagparser_value {n s : Str} {os : List (Str × Str)} (h : Value n os s) : tagparser s = ⟨n, os.reverse⟩ := by
  cases h with
  | @named n r os hw hr =>
    unfold tagparser
    rw [parseKey, scanKey_word hw.2]
    rcases ends_of hr with rfl | ⟨r', rfl⟩
    · cases hr
      simp only [scanKey, List.append_nil]
      split
      · next e => rw [e]; rfl
      · rw [set_name hw.1]; rfl
    · have : scanKey (44 :: r') = ([], some 44, r') := by rw [scanKey, if_pos (by decide)]
      simp only [this, List.append_nil]
      rw [if_pos trivial, set_name hw.1]
      have h1 := parse_options hr ⟨⟨n, []⟩, true⟩ (n ++ 44 :: r').length rfl (by simp)
      rw [skipComma, if_pos rfl] at h1
      rw [h1]; simp
  | @alone n t r os ha hr =>
    unfold tagparser
    obtain ⟨h1, h2⟩ := parse_alone ha r ⟨⟨[], []⟩, false⟩ (t ++ r).length
    rw [h2, set_name h1, parse_options hr _ _ rfl (by simp)]
    simp
  | @nameless o t r os ho _ hr =>
    unfold tagparser
    rw [parse_assigned ho (ends_of hr), parse_options hr _ _ rfl (by simp)]
    simp [push]

/-- A comma that nothing follows may be left out. -/
theorem options_comma {t r w : Str} {os : List (Str × Str)} (hl : t.getLast? ≠ some 44) (hr : Options os r) (h : w ++ [44] = t ++ r) (hw : (44 : UInt8) ∉ w) :
    os = [] ∧ t = w := by
  rcases ends_of hr with rfl | ⟨r', rfl⟩
  · rw [List.append_nil] at h
    exact absurd (by rw [← h]; simp) hl
  · cases r' with
    | nil =>
      have ht : t = w := (List.append_cancel_right h).symm
      refine ⟨?_, ht⟩
      generalize hq : ([44] : Str) = q at hr
      cases hr with
      | nil => rfl
      | comma => rfl
      | @cons o os t r ho h =>
        obtain ⟨c, s, h1, _⟩ := option_head ho r
        rw [h1] at hq
        exact absurd hq (by simp)
      | blank _ _ => exact absurd hq (by simp)
    | cons c r' =>
      have h3 := congrArg List.dropLast h
      rw [List.dropLast_concat, List.dropLast_append_of_ne_nil (by simp)] at h3
      exact absurd (by rw [h3]; simp) hw

theorem value_comma_out {n w : Str} {os : List (Str × Str)} (h : Value n os (w ++ [44])) (hw : (44 : UInt8) ∉ w) : Value n os w := by
  generalize hs : w ++ [44] = s at h
  cases h with
  | @named n r os hn hr =>
    obtain ⟨rfl, rfl⟩ := options_comma (fun h => (hn.2 44 (List.mem_of_getLast? h)).1 rfl) hr hs hw
    have := Value.named hn .nil
    rwa [List.append_nil] at this
  | @alone n t r os ha hr =>
    have hl : t.getLast? ≠ some 44 := by
      cases ha with
      | @mk p t v _ _ _ =>
        rw [show p ++ 39 :: (t ++ [39]) = (p ++ 39 :: t) ++ [39] by simp, List.getLast?_concat]
        decide
    obtain ⟨rfl, rfl⟩ := options_comma hl hr hs hw
    have := Value.alone ha .nil
    rwa [List.append_nil] at this
  | @nameless o t r os ho hl hr =>
    obtain ⟨rfl, rfl⟩ := options_comma hl hr hs hw
    have := Value.nameless ho hl .nil
    rwa [List.append_nil] at this

/-- What `structtag` hands over is read like the value. -/
theorem value_read {n s : Str} {os : List (Str × Str)} (h : Value n os s) : tagparser (valueOf s) = ⟨n, os.reverse⟩ := by
  unfold valueOf
  split
  · next hd =>
    have h1 : s.takeWhile (· != 44) ++ [44] = s := by
      have := List.takeWhile_append_dropWhile (p := fun x : UInt8 => x != 44) (l := s)
      rwa [hd] at this
    have h2 : (44 : UInt8) ∉ s.takeWhile (· != 44) := by
      intro h2
      have := List.all_eq_true.1 List.all_takeWhile _ h2
      exact absurd this (by decide)
    rw [← h1] at h
    exact tagparser_value (value_comma_out h h2)
  · exact tagparser_value h

/-! `structtag` -/

theorem close_char {c : UInt8} {s : Str} (h1 : c ≠ 34) (h2 : c ≠ 92) : close (c :: s) = (close s).map fun r => (c :: r.1, r.2) := by
  cases s with
  | nil => simp [close, h1]
  | cons d s => rw [close, if_neg h1, if_neg h2]

theorem close_stop (s : Str) : close (34 :: s) = some ([34], s) := by cases s <;> simp [close]

theorem close_esc (c : UInt8) (s : Str) : close (92 :: c :: s) = (close s).map fun r => (92 :: c :: r.1, r.2) := by
  rw [close, if_neg (by decide), if_pos rfl]

/-- Characters that are neither a quote nor a backslash. -/
theorem close_plain {p : Str} (s : Str) (h : ∀ c ∈ p, c ≠ 34 ∧ c ≠ 92) : close (p ++ s) = (close s).map fun r => (p ++ r.1, r.2) := by
  induction p with
  | nil => simp
  | cons c p ih =>
    have h1 := h c (List.mem_cons_self ..)
    rw [List.cons_append, close_char h1.1 h1.2, ih fun d hd => h d (List.mem_cons_of_mem _ hd)]
    cases close s <;> rfl

theorem close_sound : ∀ (n : Nat) (s b r : Str), s.length ≤ n → close s = some (b, r) → s = b ++ r := by
  intro n
  induction n with
  | zero => intro s b r hl h; cases s with
    | nil => cases h
    | cons c s => simp at hl
  | succ n ih =>
    intro s b r hl h
    match s, h, hl with
    | [], h, _ => cases h
    | [c], h, _ =>
      simp only [close] at h
      split at h
      · next e => cases h; rw [e]; rfl
      · cases h
    | c :: d :: t, h, hl =>
      rw [close] at h
      split at h
      · next e => cases h; rw [e]; rfl
      · split at h
        · next e =>
          cases hc : close t with
          | none => rw [hc] at h; cases h
          | some x => rw [hc] at h; cases h; rw [ih t x.1 x.2 (by simp at hl; omega) hc, e]; simp
        · cases hc : close (d :: t) with
          | none => rw [hc] at h; cases h
          | some x => rw [hc] at h; cases h; rw [ih (d :: t) x.1 x.2 (by simp at hl ⊢; omega) hc]; simp

/-- The bytes of a character but a quote or a backslash are neither. -/
theorem utf8_bytes {n : Nat} (h : Spec.Scalar n) (h1 : n ≠ 34) (h2 : n ≠ 92) : ∀ c ∈ Spec.utf8 n, c ≠ 34 ∧ c ≠ 92 := by
  have hs : n < 0x110000 := by rcases h with h | h <;> omega
  have key : ∀ k : Nat, k < 256 → k ≠ 34 → k ≠ 92 → UInt8.ofNat k ≠ 34 ∧ UInt8.ofNat k ≠ 92 := by
    intro k hk h1 h2
    have e : (UInt8.ofNat k).toNat = k := by rw [UInt8.toNat_ofNat']; omega
    exact ⟨fun h => h1 (by rw [h] at e; exact e.symm), fun h => h2 (by rw [h] at e; exact e.symm)⟩
  intro c hc
  unfold Spec.utf8 at hc
  split at hc
  · simp only [List.mem_singleton] at hc
    rw [hc]; exact key _ (by omega) h1 h2
  · split at hc
    · simp only [List.mem_cons, List.not_mem_nil, or_false] at hc
      rcases hc with rfl | rfl <;> exact key _ (by omega) (by omega) (by omega)
    · split at hc
      · simp only [List.mem_cons, List.not_mem_nil, or_false] at hc
        rcases hc with rfl | rfl | rfl <;> exact key _ (by omega) (by omega) (by omega)
      · simp only [List.mem_cons, List.not_mem_nil, or_false] at hc
        rcases hc with rfl | rfl | rfl | rfl <;> exact key _ (by omega) (by omega) (by omega)

theorem digits_bytes {digit : UInt8 → Option Nat} {base v : Nat} {ds : Str} (h1 : digit 34 = none) (h2 : digit 92 = none)
    (h : Spec.PtrJson.Numeral digit base ds v) : ∀ c ∈ ds, c ≠ 34 ∧ c ≠ 92 := by
  obtain ⟨xs, he, _⟩ := h
  intro c hc
  have : digit c ∈ xs.map some := he ▸ List.mem_map_of_mem hc
  obtain ⟨x, _, hx⟩ := List.mem_map.1 this
  refine ⟨fun e => ?_, fun e => ?_⟩
  · rw [e, h1] at hx; cases hx
  · rw [e, h2] at hx; cases hx

theorem close_body {s m : Str} (h : GoBody s m) (t : Str) : close (s ++ t) = some (s, t) := by
  have digits : ∀ {digit : UInt8 → Option Nat} {base v : Nat} {ds s : Str} (_ : digit 34 = none) (_ : digit 92 = none)
      (_ : Spec.PtrJson.Numeral digit base ds v), close (s ++ t) = some (s, t) → close (ds ++ s ++ t) = some (ds ++ s, t) := by
    intro digit base v ds s h1 h2 h ih
    rw [List.append_assoc, close_plain _ (digits_bytes h1 h2 h), ih]; rfl
  induction h with
  | stop => exact close_stop t
  | char h1 _ h3 h4 _ ih => rw [List.append_assoc, close_plain _ (utf8_bytes h1 h3 h4), ih]; rfl
  | @stray b s m hb _ ih =>
    have key : ∀ k : Nat, k < 128 → b ≠ UInt8.ofNat k := fun k hk e =>
      hb k s (.inl (by omega)) (by rw [e]; unfold Spec.utf8; rw [if_pos hk]; rfl)
    rw [List.cons_append, close_char (key 34 (by omega)) (key 92 (by omega)), ih]; rfl
  | letter _ _ ih => rw [List.cons_append, List.cons_append, close_esc, ih]; rfl
  | hex2 _ h2 _ ih => rw [List.cons_append, List.cons_append, close_esc, digits (by decide) (by decide) h2 ih]; rfl
  | @oct3 ds v s m h1 h2 _ _ ih =>
    cases ds with
    | nil => cases h1
    | cons d ds =>
      have hd : ∀ c ∈ ds, c ≠ 34 ∧ c ≠ 92 := fun c hc => digits_bytes (by decide) (by decide) h2 c (List.mem_cons_of_mem _ hc)
      rw [List.cons_append, List.cons_append, List.cons_append, close_esc, List.append_assoc, close_plain _ hd, ih]; rfl
  | hex4 _ h2 _ _ ih => rw [List.cons_append, List.cons_append, close_esc, digits (by decide) (by decide) h2 ih]; rfl
  | hex8 _ h2 _ _ ih => rw [List.cons_append, List.cons_append, close_esc, digits (by decide) (by decide) h2 ih]; rfl

theorem keyByte_iff {c : UInt8} : keyByte c = true ↔ 32 < c ∧ c ≠ 58 ∧ c ≠ 34 ∧ c ≠ 127 := by simp [keyByte, and_assoc]

theorem drop_blanks (n : Nat) (s : Str) : (List.replicate n 32 ++ s).dropWhile (· == 32) = s.dropWhile (· == 32) := by
  induction n with
  | zero => rfl
  | succ n ih => rw [List.replicate_succ, List.cons_append, List.dropWhile_cons_of_pos (by decide), ih]

theorem take_key {k : Str} (s : Str) (h : ∀ c ∈ k, keyByte c = true) : (k ++ 58 :: s).takeWhile keyByte = k ∧ (k ++ 58 :: s).dropWhile keyByte = 58 :: s := by
  induction k with
  | nil => exact ⟨rfl, rfl⟩
  | cons c k ih =>
    obtain ⟨h1, h2⟩ := ih fun d hd => h d (List.mem_cons_of_mem _ hd)
    have hc := h c (List.mem_cons_self ..)
    constructor
    · rw [List.cons_append, List.takeWhile_cons_of_pos hc, h1]
    · rw [List.cons_append, List.dropWhile_cons_of_pos hc, h2]

theorem tags_complete {ps : List (Str × Str)} {s : Str} (h : Raw ps s) : ∀ fuel, s.length < fuel → tagsLoop fuel s = some ps := by
  induction h with
  | nil n =>
    intro fuel hf
    cases fuel with
    | zero => omega
    | succ fuel =>
      rw [tagsLoop]
      have := drop_blanks n []
      rw [List.append_nil] at this
      simp [this]
  | @cons n k q v t ps hk hq _ ih =>
    intro fuel hf
    cases fuel with
    | zero => omega
    | succ fuel =>
      have hkb : ∀ c ∈ k, keyByte c = true := fun c hc => keyByte_iff.2 (hk.2 c hc)
      obtain ⟨b, rfl, hb⟩ := hq
      have h0 : (List.replicate n 32 ++ k ++ 58 :: (34 :: b) ++ t).dropWhile (· == 32) = (k ++ 58 :: 34 :: (b ++ t)).dropWhile (· == 32) := by
        rw [List.append_assoc, List.append_assoc, drop_blanks]; rfl
      rw [tagsLoop, h0]
      have h1 : (k ++ 58 :: 34 :: (b ++ t)).dropWhile (· == 32) = k ++ 58 :: 34 :: (b ++ t) := by
        cases k with
        | nil => exact absurd rfl hk.1
        | cons c k =>
          rw [List.cons_append, List.dropWhile_cons_of_neg]
          intro e
          have := (hk.2 c (List.mem_cons_self ..)).1
          rw [beq_iff_eq.1 e] at this
          exact absurd this (by decide)
      obtain ⟨h2, h3⟩ := take_key (34 :: (b ++ t)) hkb
      have hu := (PtrJson.unquote_iff (34 :: b) v).2 ⟨b, rfl, hb⟩
      simp only [h1, h2, h3, close_body hb t, hu]
      rw [if_neg (by simp), if_neg hk.1, ih fuel (by simp at hf; omega)]
      rfl

theorem blanks_of (s : Str) : ∃ n, s = List.replicate n 32 ++ s.dropWhile (· == 32) := by
  induction s with
  | nil => exact ⟨0, rfl⟩
  | cons c s ih =>
    by_cases h : (c == 32) = true
    · obtain ⟨n, hn⟩ := ih
      refine ⟨n + 1, ?_⟩
      rw [List.dropWhile_cons_of_pos (p := fun x => x == 32) h, List.replicate_succ, List.cons_append, ← hn, beq_iff_eq.1 h]
    · exact ⟨0, by rw [List.dropWhile_cons_of_neg (p := fun x => x == 32) h]; rfl⟩

theorem tags_sound (fuel : Nat) : ∀ (s : Str) (ps : List (Str × Str)), tagsLoop fuel s = some ps → Raw ps s := by
  induction fuel with
  | zero => intro s ps h; cases h
  | succ fuel ih =>
    intro s ps h
    obtain ⟨n, hn⟩ := blanks_of s
    rw [tagsLoop] at h
    generalize s.dropWhile (· == 32) = u at hn h
    dsimp only at h
    split at h
    · next e => cases h; rw [hn, e, List.append_nil]; exact .nil n
    · split at h
      · cases h
      · next hk =>
        split at h
        · next t ht =>
          split at h
          · cases h
          · next b r hc =>
            split at h
            · cases h
            · next v hv =>
              cases hl : tagsLoop fuel r with
              | none => rw [hl] at h; cases h
              | some ps' =>
                rw [hl] at h; cases h
                have h1 : u = u.takeWhile keyByte ++ 58 :: 34 :: t := by rw [← ht]; exact List.takeWhile_append_dropWhile.symm
                have h2 := close_sound t.length t b r (Nat.le_refl _) hc
                have h3 : s = List.replicate n 32 ++ u.takeWhile keyByte ++ 58 :: (34 :: b) ++ r := by
                  have h4 : u = u.takeWhile keyByte ++ 58 :: 34 :: (b ++ r) := by rw [← h2]; exact h1
                  rw [hn, List.append_assoc, List.append_assoc]
                  exact congrArg _ h4
                rw [h3]
                exact .cons ⟨hk, fun c hc => keyByte_iff.1 (List.all_eq_true.1 List.all_takeWhile c hc)⟩ ((PtrJson.unquote_iff _ _).1 hv) (ih r ps' hl)
        · cases h

/-- What `structtag` accepts. -/
theorem structtag_iff (s : Str) (ps : List (Str × Str)) : structtag s = some ps ↔ Raw ps s :=
  ⟨tags_sound _ _ _, fun h => tags_complete h _ (by omega)⟩

end Oapi.TagText
