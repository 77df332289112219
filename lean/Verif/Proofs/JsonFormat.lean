import Verif.Proofs.JsonClone
import Verif.Props.Format

/- Writing whole documents. -/
namespace Oapi.JsonText
open Spec Spec.JsonText
open Spec.PtrJson (hexOf Hex4 Elem JsonString shorts Quotable)
open PtrJson (Chunk chunks quoteChunk Chunk.bytes Chunk.ok hexDigit hexDigits runeBytes)

/-- Literals with some meaning or other. -/
def AnyString (k _ : Str) : Prop := ∃ m, JsonString k m

/-- Number texts with any value. -/
def AnyNumber (t : Str) (_ : Int) : Prop := Number t

theorem any_compact {k s : Str} (h : AnyString k s) : ∃ k', AnyString k' s ∧ CompactKey k k' := by
  obtain ⟨m, h⟩ := h
  obtain ⟨k', h1, h2⟩ := compact_key h
  exact ⟨k', ⟨m, h1⟩, h2⟩

theorem any_key {k s : Str} (h : AnyString k s) : IsKey k := h.elim fun _ h => key_json h

variable {env : Env}

theorem mem_items {m : Obj} {out : List Format.Item} (h : Format.Members Format.order m out) (i : Format.Item) (hi : i ∈ out) : (i.key, i.val) ∈ m := by
  have hp := Props.members_perm h
  obtain ⟨e, he, rfl⟩ := List.mem_map.1 (hp.mem_iff.1 hi)
  exact he

theorem items_mem {m : Obj} {out : List Format.Item} (h : Format.Members Format.order m out) {k : Str} {v : Json} (hm : (k, v) ∈ m) :
    ∃ i ∈ out, i.key = k ∧ i.val = v := by
  have hp := Props.members_perm h
  exact ⟨⟨k, v, Format.indexOf k Format.order⟩, hp.mem_iff.2 (List.mem_map.2 ⟨(k, v), hm, rfl⟩), rfl, rfl⟩

theorem pairs_perm {m : Obj} {out : List Format.Item} (h : Format.Members Format.order m out) : (out.map fun i => (i.key, i.val)).Perm m := by
  have h1 := (Props.members_perm h).map fun i : Format.Item => (i.key, i.val)
  have h2 := Props.items_pairs Format.order m
  unfold Props.pairs at h2
  rw [h2] at h1
  exact h1

theorem allNumbers_items {m : Obj} {out : List Format.Item} (h : Format.Members Format.order m out) :
    AllNumbers (fun n => (env.numText n).isSome) (.obj m) ↔ ∀ i ∈ out, (enc env i.val).isSome := by
  rw [AllNumbers, allNumbersO_iff]
  constructor
  · intro ha i hi
    exact (enc_some env i.val).2 (ha (i.key, i.val) (mem_items h i hi))
  · rintro ha ⟨k, v⟩ he
    obtain ⟨i, hi, _, rfl⟩ := items_mem h he
    exact (enc_some env i.val).1 (ha i hi)

/-- The values of the items as texts. -/
theorem item_values {N : Str → Int → Prop} {S : Str → Str → Prop} {P : Str → Prop} (hN : ∀ n t, env.numText n = some t → N t n)
    (hS : ∀ s, P s → S (encString env.short s) s) {m : Obj} {out : List Format.Item} (hw : Json.WF (.obj m)) (hP : AllTexts P (.obj m))
    (h : Format.Members Format.order m out) (hs : ∀ i ∈ out, (enc env i.val).isSome) :
    ∀ i ∈ out, Means N S (.value i.val) ((enc env i.val).getD []) := by
  intro i hi
  obtain ⟨t, ht⟩ := Option.isSome_iff_exists.1 (hs i hi)
  rw [ht]
  have hm := mem_items h i hi
  rw [Json.WF, Json.WFO_iff] at hw
  rw [AllTexts, allTextsO_iff] at hP
  exact enc_means hN hS i.val t (hw.2 _ hm) (hP _ hm).2 ht

theorem mapSlice_some {out : List Format.Item} (hs : ∀ i ∈ out, (enc env i.val).isSome) :
    mapSlice env out = some (Format.objectText (PtrJson.quote env.prn) (fun j => (enc env j).getD []) out) := by
  unfold mapSlice
  rw [if_pos (List.all_eq_true.2 hs)]

theorem allTexts_true (j : Json) : AllTexts (fun _ => True) j := by
  have : ∀ n (j : Json), sizeOf j ≤ n → AllTexts (fun _ => True) j := by
    intro n
    induction n with
    | zero => intro j h; cases j <;> simp at h
    | succ n ih =>
      intro j h
      cases j with
      | arr xs =>
        rw [AllTexts, allTextsL_iff]
        intro x hx
        have := List.sizeOf_lt_of_mem hx
        simp at h
        exact ih x (by omega)
      | obj o =>
        rw [AllTexts, allTextsO_iff]
        rintro ⟨k, x⟩ hx
        have := List.sizeOf_lt_of_mem hx
        simp at h this
        exact ⟨trivial, ih x (by omega)⟩
      | _ => simp [AllTexts]
  exact this _ j (Nat.le_refl _)

/-- Which documents can be written. -/
theorem marshals_some (hT : ∀ n t, env.numText n = some t → Number t) {m : Obj} (hw : Json.WF (.obj m)) {r : Option Str} (h : Marshals env (.obj m) r) :
    r.isSome ↔ AllNumbers (fun n => (env.numText n).isSome) (.obj m) ∧ ∀ k ∈ Obj.keys m, Quotable env.prn k := by
  obtain ⟨out, ho, rfl⟩ := h
  by_cases hs : ∀ i ∈ out, (enc env i.val).isSome
  · rw [allNumbers_items ho, mapSlice_some hs, Option.bind_some]
    have hv := item_values (N := AnyNumber) (S := AnyString) (P := fun _ => True) hT (fun s _ => encString_key env.short s) hw (allTexts_true _) ho hs
    have hkeys : (∀ k ∈ Obj.keys m, Quotable env.prn k) ↔ ∀ i ∈ out, Quotable env.prn i.key := by
      constructor
      · intro h i hi
        exact h _ (List.mem_map.2 ⟨_, mem_items ho i hi, rfl⟩)
      · intro h k hk
        obtain ⟨⟨k, v⟩, he, rfl⟩ := List.mem_map.1 hk
        obtain ⟨i, hi, rfl, _⟩ := items_mem ho he
        exact h i hi
    rw [hkeys]
    constructor
    · intro hc
      refine ⟨hs, ?_⟩
      have hv2 := compact_valid _ _ _ hc
      have e : validGo start (Format.objectText (PtrJson.quote env.prn) (fun j => (enc env j).getD []) out) =
          validGo ⟨.beginStringOrEmpty, [.key]⟩ (Format.memberTexts (PtrJson.quote env.prn) (fun j => (enc env j).getD []) out ++ [125]) := rfl
      rw [e] at hv2
      exact valid_members (N := AnyNumber) (S := AnyString) (fun _ _ h => h) (fun _ _ h => any_key h) out hv [] [] _ (.inr rfl) hv2
    · rintro ⟨_, hq⟩
      have hm := objectText_means (N := AnyNumber) (S := AnyString) (q := PtrJson.quote env.prn) (f := fun j => (enc env j).getD []) out (pairs_perm ho) hw.1
        (fun i hi => ⟨_, quote_json (hq i hi)⟩) hv
      obtain ⟨w, h1, _⟩ := compact_doc (fun _ _ h => h) (fun _ _ h => any_compact h) (means_doc hm)
      unfold compact at h1 ⊢
      rw [h1]; rfl
  · have h1 : mapSlice env out = none := by
      unfold mapSlice
      rw [if_neg]
      rw [List.all_eq_true]
      exact hs
    rw [h1, allNumbers_items ho]
    simp [hs]

/-- What is written means the document. -/
theorem marshals_means {N : Str → Int → Prop} {S : Str → Str → Prop} {P : Str → Prop} (hN : ∀ n t, env.numText n = some t → N t n) (hT : ∀ t n, N t n → Number t)
    (hS : ∀ s, P s → S (encString env.short s) s) (hq : ∀ k, Quotable env.prn k → S (PtrJson.quote env.prn k) k)
    (hc : ∀ k s, S k s → ∃ k', S k' s ∧ CompactKey k k') {d : Json} (hw : Json.WF d) (hP : AllTexts P d) {w : Str} (h : Marshals env d (some w)) :
    Means N S (.value d) w := by
  have key : ∀ m, d = .obj m → Means N S (.value d) w := by
    rintro m rfl
    have hok := (marshals_some (fun n t e => hT _ _ (hN n t e)) hw h).1 rfl
    obtain ⟨out, ho, e⟩ := h
    have hs := (allNumbers_items ho).1 hok.1
    rw [mapSlice_some hs, Option.bind_some] at e
    have hv := item_values hN hS hw hP ho hs
    have hm := objectText_means (q := PtrJson.quote env.prn) (f := fun j => (enc env j).getD []) out (pairs_perm ho) hw.1
        (fun i hi => hq _ (hok.2 _ (List.mem_map.2 ⟨_, mem_items ho i hi, rfl⟩))) hv
    obtain ⟨w', h1, h2⟩ := compact_doc hT hc (means_doc hm)
    rw [h1] at e
    cases e
    exact h2
  cases d with
  | obj m => exact key m rfl
  | _ => exact enc_means hN hS _ w hw hP h.symm

theorem marshals_exists (env : Env) (d : Json) : ∃ r, Marshals env d r := by
  cases d with
  | obj m => obtain ⟨out, h⟩ := Props.C55_some_output m; exact ⟨_, out, h, rfl⟩
  | _ => exact ⟨_, rfl⟩

/-- Another reading of the literals gives another document. -/
theorem any_means {N : Str → Int → Prop} {S S' : Str → Str → Prop} (hS : ∀ k s, S k s → ∃ m, S' k m) {x : What} {w : Str} (h : Means N S x w) : ∃ y, Means N S' y w ∧
    (∀ j, x = .value j → ∃ j', y = .value j') ∧ (∀ l, x = .elems l → ∃ l', y = .elems l') ∧ (∀ l, x = .members l → ∃ l', y = .members l') := by
  induction h with
  | null => exact ⟨_, .null, fun _ _ => ⟨_, rfl⟩, nofun, nofun⟩
  | true_ => exact ⟨_, .true_, fun _ _ => ⟨_, rfl⟩, nofun, nofun⟩
  | false_ => exact ⟨_, .false_, fun _ _ => ⟨_, rfl⟩, nofun, nofun⟩
  | num hn => exact ⟨_, .num hn, fun _ _ => ⟨_, rfl⟩, nofun, nofun⟩
  | str hs => obtain ⟨m, hs⟩ := hS _ _ hs; exact ⟨_, .str hs, fun _ _ => ⟨_, rfl⟩, nofun, nofun⟩
  | arr0 hw => exact ⟨_, .arr0 hw, fun _ _ => ⟨_, rfl⟩, nofun, nofun⟩
  | arr _ ih =>
    obtain ⟨y, h, _, h2, _⟩ := ih
    obtain ⟨l', rfl⟩ := h2 _ rfl
    exact ⟨_, .arr h, fun _ _ => ⟨_, rfl⟩, nofun, nofun⟩
  | obj0 hw => exact ⟨_, .obj0 hw, fun _ _ => ⟨_, rfl⟩, nofun, nofun⟩
  | obj _ hc ih =>
    obtain ⟨y, h, _, _, h2⟩ := ih
    obtain ⟨l', rfl⟩ := h2 _ rfl
    exact ⟨_, .obj h ((collect_iff _ _).2 rfl), fun _ _ => ⟨_, rfl⟩, nofun, nofun⟩
  | elem a _ b ih =>
    obtain ⟨y, h, h2, _⟩ := ih
    obtain ⟨j', rfl⟩ := h2 _ rfl
    exact ⟨_, .elem a h b, nofun, fun _ _ => ⟨_, rfl⟩, nofun⟩
  | elems a _ b _ ih ih' =>
    obtain ⟨y, h, h2, _⟩ := ih
    obtain ⟨j', rfl⟩ := h2 _ rfl
    obtain ⟨y, h', _, h2, _⟩ := ih'
    obtain ⟨j', rfl⟩ := h2 _ rfl
    exact ⟨_, .elems a h b h', nofun, fun _ _ => ⟨_, rfl⟩, nofun⟩
  | member a k b c _ d ih =>
    obtain ⟨y, h, h2, _⟩ := ih
    obtain ⟨j', rfl⟩ := h2 _ rfl
    obtain ⟨m, k⟩ := hS _ _ k
    exact ⟨_, .member a k b c h d, nofun, nofun, fun _ _ => ⟨_, rfl⟩⟩
  | members a k b c _ d _ ih ih' =>
    obtain ⟨y, h, h2, _⟩ := ih
    obtain ⟨j', rfl⟩ := h2 _ rfl
    obtain ⟨y, h', _, _, h2⟩ := ih'
    obtain ⟨j', rfl⟩ := h2 _ rfl
    obtain ⟨m, k⟩ := hS _ _ k
    exact ⟨_, .members a k b c h d h', nofun, nofun, fun _ _ => ⟨_, rfl⟩⟩

/-! ### Backquotes and control characters -/

theorem endTop_low {c : UInt8} : (endTop c).2 = .fin := by unfold endTop; split <;> rfl

theorem endValue_low {c : UInt8} (h : c < 32) (st : List Ctx) : (endValue st c).2 = .skipSpace ∨ (endValue st c).2 = .fin ∨ (endValue st c).2 = .err := by
  have h1 : c ≠ 58 := by rintro rfl; revert h; decide
  have h2 : c ≠ 44 := by rintro rfl; revert h; decide
  have h3 : c ≠ 125 := by rintro rfl; revert h; decide
  have h4 : c ≠ 93 := by rintro rfl; revert h; decide
  unfold endValue
  split
  · exact .inr (.inl endTop_low)
  · split
    · exact .inl rfl
    · split <;> simp [h1, h2, h3, h4, fail]

theorem beginValue_low {c : UInt8} (h : c < 32) (st : List Ctx) : (beginValue st c).2 = .skipSpace ∨ (beginValue st c).2 = .err := by
  have hh : ∀ c : UInt8, c < 32 → c ≠ 123 ∧ c ≠ 91 ∧ c ≠ 34 ∧ c ≠ 45 ∧ c ≠ 48 ∧ c ≠ 116 ∧ c ≠ 102 ∧ c ≠ 110 ∧ ¬ (49 ≤ c ∧ c ≤ 57) := by
    refine Url.all_bytes ?_; decide +kernel
  obtain ⟨h1, h2, h3, h4, h5, h6, h7, h8, h9⟩ := hh c h
  unfold beginValue
  split
  · exact .inl rfl
  · exact .inr rfl

theorem beginString_low {c : UInt8} (h : c < 32) (st : List Ctx) : (beginString st c).2 = .skipSpace ∨ (beginString st c).2 = .err := by
  have h1 : c ≠ 34 := by rintro rfl; revert h; decide
  unfold beginString
  split
  · exact .inl rfl
  · exact .inr rfl

theorem lit_low {c : UInt8} (h : c < 32) (s : Sc) (hl : ∀ r, s.st = .lit r → ∀ x ∈ r, 32 ≤ x) :
    (step s c).2 = .skipSpace ∨ (step s c).2 = .fin ∨ (step s c).2 = .err := by
  have hh : ∀ c : UInt8, c < 32 → c ≠ 46 ∧ c ≠ 101 ∧ c ≠ 69 ∧ isDigit c = false ∧ c ≠ 43 ∧ c ≠ 45 ∧ (Url.hexVal c).isSome = false ∧ c ∉ b!"bfnrt\\/\"" ∧ c ≠ 117 ∧
      c ≠ 34 ∧ c ≠ 92 ∧ c ≠ 48 ∧ ¬ (49 ≤ c ∧ c ≤ 57) ∧ c ≠ 93 ∧ c ≠ 125 := by
    refine Url.all_bytes ?_; decide +kernel
  obtain ⟨h1, h2, h3, h4, h5, h6, h7, h8, h9, h10, h11, h12, h13, h14, h15⟩ := hh c h
  have hz : ∀ st, (zero st c).2 = .skipSpace ∨ (zero st c).2 = .fin ∨ (zero st c).2 = .err := by
    intro st; unfold zero; rw [if_neg h1, if_neg (by simp [h2, h3])]; exact endValue_low h st
  obtain ⟨q, st⟩ := s
  unfold step
  cases q <;> simp only
  case beginValueOrEmpty =>
    split
    · exact .inl rfl
    · exact (beginValue_low h st).elim .inl (fun h => .inr (.inr h))
  case beginValue => exact (beginValue_low h st).elim .inl (fun h => .inr (.inr h))
  case beginStringOrEmpty =>
    split
    · exact .inl rfl
    · exact (beginString_low h st).elim .inl (fun h => .inr (.inr h))
  case beginString => exact (beginString_low h st).elim .inl (fun h => .inr (.inr h))
  case endValue => exact endValue_low h st
  case endTop => exact .inr (.inl endTop_low)
  case inString => rw [if_neg h10, if_neg h11, if_pos h]; exact .inr (.inr rfl)
  case esc => rw [if_neg h8, if_neg h9]; exact .inr (.inr rfl)
  case u0 => unfold hexStep; rw [h7]; exact .inr (.inr rfl)
  case u1 => unfold hexStep; rw [h7]; exact .inr (.inr rfl)
  case u2 => unfold hexStep; rw [h7]; exact .inr (.inr rfl)
  case u3 => unfold hexStep; rw [h7]; exact .inr (.inr rfl)
  case neg => rw [if_neg h12, if_neg h13]; exact .inr (.inr rfl)
  case one => rw [h4]; exact hz st
  case zero => exact hz st
  case dot => rw [h4]; exact .inr (.inr rfl)
  case dot0 => rw [h4, if_neg (by simp), if_neg (by simp [h2, h3])]; exact endValue_low h st
  case e => rw [if_neg (by simp [h5, h6])]; unfold eSign; rw [h4]; exact .inr (.inr rfl)
  case eSign => unfold eSign; rw [h4]; exact .inr (.inr rfl)
  case e0 => rw [h4]; exact endValue_low h st
  case lit r =>
    have hl := hl r rfl
    match r with
    | [] => exact .inr (.inr rfl)
    | [x] =>
      have : c ≠ x := by rintro rfl; exact absurd h (UInt8.not_lt.2 (hl _ (by simp)))
      simp [this, fail]
    | x :: y :: t =>
      have : c ≠ x := by rintro rfl; exact absurd h (UInt8.not_lt.2 (hl _ (by simp)))
      simp [this, fail]
  case error => simp

/-- The letters still expected are letters. -/
def Good (s : Sc) : Prop := ∀ r, s.st = .lit r → ∀ x ∈ r, 32 ≤ x

theorem endValue_good (st : List Ctx) (c : UInt8) : Good (endValue st c).1 := by
  intro r
  unfold endValue endTop pop
  repeat' split
  all_goals simp [fail]

theorem beginValue_good (st : List Ctx) (c : UInt8) : Good (beginValue st c).1 := by
  intro r
  unfold beginValue
  repeat' split
  all_goals simp only [fail, reduceCtorEq, false_imp_iff, State.lit.injEq]
  all_goals (rintro rfl; decide)

theorem beginString_good (st : List Ctx) (c : UInt8) : Good (beginString st c).1 := by
  intro r
  unfold beginString
  repeat' split
  all_goals simp [fail]

theorem step_good (s : Sc) (c : UInt8) (h : Good s) : Good (step s c).1 := by
  obtain ⟨q, st⟩ := s
  unfold step
  cases q <;> simp only
  case beginValueOrEmpty => repeat' split
                            · exact h
                            · exact endValue_good _ _
                            · exact beginValue_good _ _
  case beginStringOrEmpty => repeat' split
                             · exact h
                             · exact endValue_good _ _
                             · exact beginString_good _ _
  case beginValue => exact beginValue_good _ _
  case beginString => exact beginString_good _ _
  case endValue => exact endValue_good _ _
  case endTop => unfold endTop; split <;> (intro r; simp)
  case one => split
              · exact h
              · unfold zero; repeat' split
                · intro r; simp
                · intro r; simp
                · exact endValue_good _ _
  case zero => unfold zero; repeat' split
               · intro r; simp
               · intro r; simp
               · exact endValue_good _ _
  case dot0 => repeat' split
               · exact h
               · intro r; simp
               · exact endValue_good _ _
  case e0 => split
             · exact h
             · exact endValue_good _ _
  case lit r =>
    have hl := h r rfl
    match r with
    | [] => intro r; simp [fail]
    | [x] => simp only; split <;> (intro r; simp [fail])
    | x :: y :: t =>
      simp only
      split
      · intro r hr
        simp only [State.lit.injEq] at hr
        subst hr
        exact fun z hz => hl z (by simp [List.mem_cons.1 hz])
      · intro r; simp [fail]
  case error => exact h
  all_goals
    intro r
    try unfold hexStep
    try unfold eSign
    repeat' split
    all_goals simp [fail]

theorem endValue_gap (st : List Ctx) (c : UInt8) (h : (endValue st c).2 = .skipSpace ∨ (endValue st c).2 = .fin) : isSpace c = true ∨ (endValue st c).1.st = .error := by
  by_cases hc : isSpace c = true
  · exact .inl hc
  refine .inr ?_
  revert h
  unfold endValue endTop pop
  repeat' split
  all_goals simp_all [fail]

theorem beginValue_gap (st : List Ctx) (c : UInt8) (h : (beginValue st c).2 = .skipSpace ∨ (beginValue st c).2 = .fin) : isSpace c = true := by
  apply Decidable.byContradiction
  intro hc
  revert h
  unfold beginValue
  rw [if_neg hc]
  repeat' split
  all_goals simp [fail]

theorem beginString_gap (st : List Ctx) (c : UInt8) (h : (beginString st c).2 = .skipSpace ∨ (beginString st c).2 = .fin) : isSpace c = true := by
  apply Decidable.byContradiction
  intro hc
  revert h
  unfold beginString
  rw [if_neg hc]
  repeat' split
  all_goals simp [fail]

/-- Only white space is dropped, or the text is wrong. -/
theorem step_gap (s : Sc) (c : UInt8) (h : (step s c).2 = .skipSpace ∨ (step s c).2 = .fin) : isSpace c = true ∨ (step s c).1.st = .error := by
  by_cases hc : isSpace c = true
  · exact .inl hc
  refine .inr ?_
  obtain ⟨q, st⟩ := s
  have ev : ∀ st, (endValue st c).2 = .skipSpace ∨ (endValue st c).2 = .fin → (endValue st c).1.st = .error := fun st h => (endValue_gap st c h).resolve_left hc
  have bv : ∀ st, ¬ ((beginValue st c).2 = .skipSpace ∨ (beginValue st c).2 = .fin) := fun st h => hc (beginValue_gap st c h)
  have bs : ∀ st, ¬ ((beginString st c).2 = .skipSpace ∨ (beginString st c).2 = .fin) := fun st h => hc (beginString_gap st c h)
  have ze : ∀ st, (zero st c).2 = .skipSpace ∨ (zero st c).2 = .fin → (zero st c).1.st = .error := by
    intro st
    unfold zero
    repeat' split
    · simp
    · simp
    · exact ev st
  revert h
  unfold step
  cases q <;> simp only
  case beginValueOrEmpty => rw [if_neg hc]
                            split
                            · exact ev _
                            · exact fun h => absurd h (bv st)
  case beginStringOrEmpty => rw [if_neg hc]
                             split
                             · exact ev _
                             · exact fun h => absurd h (bs st)
  case beginValue => exact fun h => absurd h (bv st)
  case beginString => exact fun h => absurd h (bs st)
  case endValue => exact ev _
  case endTop => unfold endTop; rw [if_neg hc]; exact fun _ => rfl
  case one => split
              · simp
              · exact ze st
  case zero => exact ze st
  case dot0 => repeat' split
               · simp
               · simp
               · exact ev st
  case e0 => split
             · simp
             · exact ev st
  case lit r =>
    match r with
    | [] => simp [fail]
    | [x] => simp only; split <;> simp [fail]
    | x :: y :: t => simp only; split <;> simp [fail]
  all_goals
    try unfold hexStep
    try unfold eSign
    repeat' split
    all_goals simp [fail]

theorem compactGo_error (t : Str) : ∀ (k : Nat) (s : Sc), s.st = .error → compactGo k s t = none := by
  induction t with
  | nil => intro k s h; unfold compactGo eof; rw [h]; simp
  | cons c t ih =>
    intro k s h
    have e : (step s c).2 = .err := by unfold step; rw [h]
    unfold compactGo
    simp only [e, if_true]

/-- The output of `compact`: no control characters, and backquotes iff the input has them. -/
theorem compact_out (t : Str) : ∀ (k : Nat) (s : Sc) (w : Str), Good s → compactGo k s t = some w →
    (∀ c ∈ w, 32 ≤ c) ∧ ((96 : UInt8) ∉ t.take k → ((96 : UInt8) ∈ w ↔ (96 : UInt8) ∈ t)) := by
  induction t with
  | nil =>
    intro k s w _ h
    unfold compactGo at h
    split at h
    · cases h; simp
    · cases h
  | cons c t ih =>
    intro k s w hg h
    unfold compactGo at h
    simp only at h
    split at h
    · cases h
    rename_i hne
    have hg' := step_good s c hg
    cases k with
    | succ k =>
      simp only at h
      obtain ⟨h1, h2⟩ := ih k _ w hg' h
      refine ⟨h1, fun hk => ?_⟩
      rw [List.take_succ_cons, List.mem_cons, not_or] at hk
      rw [h2 hk.2, List.mem_cons]
      simp [hk.1]
    | zero =>
      simp only at h
      obtain ⟨v, hv, rfl⟩ := Option.map_eq_some_iff.1 h
      obtain ⟨h1, h2⟩ := ih _ _ v hg' hv
      have hc1 : c = 60 ∨ c = 62 ∨ c = 38 → c ≠ 96 ∧ (∀ x ∈ b!"\\u00" ++ hexDigits 2 c.toNat, 32 ≤ x) ∧ (96 : UInt8) ∉ b!"\\u00" ++ hexDigits 2 c.toNat := by
        rintro (rfl | rfl | rfl) <;> decide +kernel
      have hhex : ∀ c : UInt8, 32 ≤ hexDigit (c.toNat % 16) ∧ hexDigit (c.toNat % 16) ≠ 96 := by
        refine Url.all_bytes ?_; decide +kernel
      unfold emit at h2 hv ⊢
      by_cases e1 : c = 60 ∨ c = 62 ∨ c = 38
      · rw [if_pos e1] at h2 ⊢
        obtain ⟨a1, a2, a3⟩ := hc1 e1
        simp only at h2 ⊢
        refine ⟨fun x hx => (List.mem_append.1 hx).elim (a2 x) (h1 x), fun _ => ?_⟩
        rw [List.mem_append, List.mem_cons, h2 (by simp)]
        constructor
        · rintro (h | h)
          · exact absurd h a3
          · exact .inr h
        · rintro (h | h)
          · exact absurd h.symm a1
          · exact .inr h
      rw [if_neg e1] at h2 hv ⊢
      split at hv
      · rename_i e2
        rw [if_pos e2] at h2 ⊢
        simp only at h2 ⊢
        obtain ⟨rfl, e3, e4⟩ := e2
        have ht : (96 : UInt8) ∉ t.take 2 := by
          match t, e3, e4 with
          | x :: y :: t, e3, e4 =>
            simp only [List.head?_cons, Option.some.injEq, List.tail_cons] at e3 e4
            rcases e4 with e4 | e4 <;> (subst e3; subst e4; simp)
        refine ⟨fun x hx => ?_, fun _ => ?_⟩
        · rcases List.mem_append.1 hx with hx | hx
          · rcases List.mem_append.1 hx with hx | hx
            · exact (by decide : ∀ x ∈ b!"\\u202", (32 : UInt8) ≤ x) x hx
            · rw [List.mem_singleton.1 hx]; exact (hhex _).1
          · exact h1 x hx
        · rw [List.mem_append, List.mem_cons, h2 ht]
          constructor
          · rintro (h | h)
            · rcases List.mem_append.1 h with h | h
              · exact absurd h (by decide)
              · exact absurd (List.mem_singleton.1 h).symm (hhex _).2
            · exact .inr h
          · rintro (h | h)
            · exact absurd h (by decide)
            · exact .inr h
      · rename_i e2
        rw [if_neg e2] at h2 ⊢
        split at hv
        · rename_i e3
          rw [if_pos e3] at h2 ⊢
          simp only at h2 hv ⊢
          refine ⟨by simpa using h1, fun _ => ?_⟩
          have : c ≠ 96 := by
            rintro rfl
            rcases step_gap s 96 e3 with e | e
            · exact absurd e (by decide)
            · rw [compactGo_error _ _ _ e] at hv; cases hv
          rw [List.nil_append, List.mem_cons, h2 (by simp)]
          constructor
          · exact .inr
          · rintro (h | h)
            · exact absurd h.symm this
            · exact h
        · rename_i e3
          rw [if_neg e3] at h2 ⊢
          simp only at h2 ⊢
          refine ⟨fun x hx => ?_, fun _ => ?_⟩
          · rcases List.mem_append.1 hx with hx | hx
            · rw [List.mem_singleton.1 hx]
              apply UInt8.not_lt.1
              intro hlt
              rcases lit_low hlt s hg with h | h | h
              · exact e3 (.inl h)
              · exact e3 (.inr h)
              · exact hne h
            · exact h1 x hx
          · rw [List.singleton_append, List.mem_cons, List.mem_cons, h2 (by simp)]

theorem hexDigit_ok (n : Nat) : hexDigit (n % 16) ≠ 96 := by
  have : ∀ i : Fin 16, hexDigit i.val ≠ 96 := by decide +kernel
  exact this ⟨n % 16, Nat.mod_lt _ (by omega)⟩

theorem hexDigits_ok (k n : Nat) : (96 : UInt8) ∉ hexDigits k n := by
  induction k generalizing n with
  | zero => simp [hexDigits]
  | succ k ih =>
    rw [hexDigits, List.mem_append, not_or]
    exact ⟨ih _, by rw [List.mem_singleton]; exact fun e => hexDigit_ok n e.symm⟩

theorem mem_utf8 {n : Nat} (h : Scalar n) : (96 : UInt8) ∈ utf8 n ↔ n = 96 := by
  by_cases h1 : n < 128
  · unfold utf8
    rw [if_pos h1, List.mem_singleton]
    constructor
    · intro e
      have := congrArg UInt8.toNat e
      rw [UInt8.toNat_ofNat'] at this
      have h2 : (96 : UInt8).toNat = 96 := rfl
      omega
    · rintro rfl; rfl
  · obtain ⟨a, t, e, h2, h3⟩ := PtrJson.head_high h (by omega)
    rw [e]
    constructor
    · intro hm
      have : 128 ≤ (96 : UInt8).toNat := (List.mem_cons.1 hm).elim (fun e => e ▸ h2) (h3 _)
      exact absurd this (by decide)
    · omega

theorem mem_bytes {c : Chunk} (h : c.ok) : (96 : UInt8) ∈ c.bytes ↔ c = .rune 96 ∨ c = .bad 96 := by
  cases c with
  | rune n => simp only [Chunk.bytes, mem_utf8 h, Chunk.rune.injEq, reduceCtorEq, or_false]
  | bad b => simp only [Chunk.bytes, List.mem_singleton, reduceCtorEq, false_or, Chunk.bad.injEq]; exact eq_comm

/-- A backquote is a character. -/
theorem not_bad (n : Nat) : ∀ s : Str, s.length ≤ n → Chunk.bad 96 ∉ PtrJson.chunksGo 0 s := by
  induction n with
  | zero => intro s h; rw [List.length_eq_zero_iff.1 (Nat.le_zero.1 h)]; simp [PtrJson.chunksGo]
  | succ n ih =>
    intro s h
    match s with
    | [] => simp [PtrJson.chunksGo]
    | a :: t =>
      simp only [List.length_cons] at h
      unfold PtrJson.chunksGo
      split
      · rename_i m w e
        rw [PtrJson.chunksGo_drop]
        simp only [List.mem_cons, reduceCtorEq, false_or]
        exact ih _ (by rw [List.length_drop]; omega)
      · rename_i e
        rw [List.mem_cons, not_or]
        refine ⟨?_, ih t (by omega)⟩
        intro e'
        injection e' with e'
        subst e'
        simp [Route.decode1] at e

theorem mem_chunks (s : Str) : (96 : UInt8) ∈ s ↔ Chunk.rune 96 ∈ chunks s := by
  have h1 := PtrJson.chunks_bytes s
  have h2 := PtrJson.chunks_ok s
  have h3 : Chunk.bad 96 ∉ chunks s := not_bad s.length s (Nat.le_refl _)
  constructor
  · intro h
    rw [← h1] at h
    obtain ⟨c, hc, hm⟩ := List.mem_flatMap.1 h
    rcases (mem_bytes (h2 c hc)).1 hm with rfl | rfl
    · exact hc
    · exact absurd hc h3
  · intro h
    rw [← h1]
    exact List.mem_flatMap.2 ⟨_, h, (mem_bytes (h2 _ h)).2 (.inl rfl)⟩

theorem mem_encChunk (short : Bool) {c : Chunk} (h : c.ok) : (96 : UInt8) ∈ encChunk short c ↔ c = .rune 96 := by
  cases c with
  | bad b => simp [encChunk]
  | rune r =>
    rw [Chunk.rune.injEq]
    by_cases e : r = 96
    · subst e; cases short <;> decide +kernel
    · simp only [e, iff_false]
      unfold encChunk
      simp only
      repeat' split
      · rename_i h1; rcases h1 with rfl | rfl <;> decide
      · decide
      · decide
      · decide
      · decide
      · decide
      · rw [List.mem_append, not_or]; exact ⟨by decide, hexDigits_ok _ _⟩
      · rw [List.mem_append, not_or]; exact ⟨by decide, by rw [List.mem_singleton]; exact fun e => hexDigit_ok r e.symm⟩
      · rw [PtrJson.runeBytes_utf8, mem_utf8 h]; exact e

theorem mem_encString (short : Bool) (s : Str) : (96 : UInt8) ∈ encString short s ↔ (96 : UInt8) ∈ s := by
  unfold encString
  rw [mem_chunks s, List.mem_cons, List.mem_append, List.mem_flatMap]
  constructor
  · rintro (h | ⟨c, hc, h⟩ | h)
    · exact absurd h (by decide)
    · rw [mem_encChunk short (PtrJson.chunks_ok s c hc)] at h; exact h ▸ hc
    · exact absurd h (by decide)
  · intro h
    exact .inr (.inl ⟨_, h, (mem_encChunk short (PtrJson.chunks_ok s _ h)).2 rfl⟩)

/-- Some text or key has a backquote. -/
def Ticks (s : Str) : Prop := (96 : UInt8) ∉ s

theorem number_no_tick {t : Str} (h : Number t) : (96 : UInt8) ∉ t := by
  have hd : ∀ d, Digits d → (96 : UInt8) ∉ d := by
    intro d hd hm
    exact absurd (hd.2 _ hm) (by decide)
  obtain ⟨sign, int, frac, exp, h1, h2, h3, h4, rfl⟩ := h
  simp only [List.mem_append, not_or]
  refine ⟨⟨⟨?_, hd _ h2.1⟩, ?_⟩, ?_⟩
  · rcases h1 with rfl | rfl <;> decide
  · rcases h3 with rfl | ⟨d, h, rfl⟩
    · simp
    · rw [List.mem_cons, not_or]; exact ⟨by decide, hd d h⟩
  · rcases h4 with rfl | ⟨e, s, d, h5, h6, h7, rfl⟩
    · simp
    · simp only [List.mem_append, List.mem_cons, not_or]
      refine ⟨⟨?_, ?_⟩, hd d h7⟩
      · rintro rfl; revert h5; decide
      · rcases h6 with rfl | rfl | rfl <;> decide

mutual
theorem mem_enc (env : Env) (hT : ∀ n t, env.numText n = some t → Number t) (j : Json) (t : Str) (h : enc env j = some t) : (96 : UInt8) ∉ t ↔ AllTexts Ticks j := by
  match j with
  | .null => simp only [enc, Option.some.injEq] at h; subst h; simp [AllTexts]
  | .bool true => simp only [enc, Option.some.injEq] at h; subst h; simp [AllTexts]
  | .bool false => simp only [enc, Option.some.injEq] at h; subst h; simp [AllTexts]
  | .num n => rw [enc] at h; simp only [AllTexts, iff_true]; exact number_no_tick (hT n t h)
  | .str s => simp only [enc, Option.some.injEq] at h; subst h; rw [mem_encString, AllTexts]; rfl
  | .arr xs =>
    rw [enc] at h
    obtain ⟨r, hr, rfl⟩ := Option.map_eq_some_iff.1 h
    rw [AllTexts, ← mem_encList env hT xs r hr]
    simp
  | .obj o =>
    rw [enc] at h
    obtain ⟨r, hr, rfl⟩ := Option.map_eq_some_iff.1 h
    rw [AllTexts, ← mem_encObj env hT o r hr]
    simp
termination_by structural j
theorem mem_encList (env : Env) (hT : ∀ n t, env.numText n = some t → Number t) (xs : List Json) (t : Str) (h : encList env xs = some t) : (96 : UInt8) ∉ t ↔ AllTextsL Ticks xs := by
  match xs with
  | [] => simp only [encList, Option.some.injEq] at h; subst h; simp [AllTextsL]
  | x :: xs =>
    obtain ⟨v, hv, h⟩ := encList_ne x h
    have hx := mem_enc env hT x v hv
    rcases h with ⟨rfl, rfl⟩ | ⟨y, xs', r, _, hr, rfl⟩
    · rw [AllTextsL, AllTextsL, hx]; simp
    · rw [AllTextsL, ← hx, ← mem_encList env hT xs r hr]; simp
termination_by structural xs
theorem mem_encObj (env : Env) (hT : ∀ n t, env.numText n = some t → Number t) (o : List (Str × Json)) (t : Str) (h : encObj env o = some t) : (96 : UInt8) ∉ t ↔ AllTextsO Ticks o := by
  match o with
  | [] => simp only [encObj, Option.some.injEq] at h; subst h; simp [AllTextsO]
  | (k, x) :: o =>
    obtain ⟨v, hv, h⟩ := encObj_ne k x h
    have hx := mem_enc env hT x v hv
    rcases h with ⟨rfl, rfl⟩ | ⟨y, xs', r, _, hr, rfl⟩
    · rw [AllTextsO, AllTextsO, ← hx]; simp [mem_encString, Ticks]
    · rw [AllTextsO, ← hx, ← mem_encObj env hT o r hr]; simp [mem_encString, Ticks]
termination_by structural o
end

theorem mem_quoteChunk (prn : Nat → Bool) {c : Chunk} (h : c.ok) : (96 : UInt8) ∈ quoteChunk prn c ↔ c = .rune 96 := by
  cases c with
  | bad b => simp only [quoteChunk, List.mem_append, hexDigits_ok]; simp
  | rune r =>
    rw [Chunk.rune.injEq]
    unfold quoteChunk
    simp only
    by_cases e : r = 96
    · subst e
      unfold PtrJson.escapeRune PtrJson.isPrint
      simp [PtrJson.runeBytes]
    · simp only [e, iff_false]
      unfold PtrJson.escapeRune
      repeat' split
      · rename_i h1; rcases h1 with rfl | rfl <;> decide
      · rw [PtrJson.runeBytes_utf8, mem_utf8 h]; exact e
      · decide
      · decide
      · decide
      · decide
      · decide
      · decide
      · decide
      · rw [List.mem_append, not_or]; exact ⟨by decide, hexDigits_ok _ _⟩
      · rw [List.mem_append, not_or]; exact ⟨by decide, hexDigits_ok _ _⟩
      · rw [List.mem_append, not_or]; exact ⟨by decide, hexDigits_ok _ _⟩

theorem mem_quote (prn : Nat → Bool) (s : Str) : (96 : UInt8) ∈ PtrJson.quote prn s ↔ (96 : UInt8) ∈ s := by
  unfold PtrJson.quote
  rw [mem_chunks s, List.mem_append, List.mem_cons, List.mem_flatMap]
  constructor
  · rintro ((h | ⟨c, hc, h⟩) | h)
    · exact absurd h (by decide)
    · rw [mem_quoteChunk prn (PtrJson.chunks_ok s c hc)] at h; exact h ▸ hc
    · exact absurd h (by decide)
  · intro h
    exact .inl (.inr ⟨_, h, (mem_quoteChunk prn (PtrJson.chunks_ok s _ h)).2 rfl⟩)

theorem mem_memberTexts {q : Str → Str} {f : Json → Str} (l : List Format.Item) :
    (96 : UInt8) ∉ Format.memberTexts q f l ↔ ∀ i ∈ l, (96 : UInt8) ∉ q i.key ∧ (96 : UInt8) ∉ f i.val := by
  induction l with
  | nil => simp [Format.memberTexts]
  | cons x t ih =>
    cases t with
    | nil => simp [Format.memberTexts]
    | cons y t =>
      have : (96 : UInt8) ≠ 58 ∧ (96 : UInt8) ≠ 44 := by decide
      rw [Format.memberTexts, List.mem_append, List.mem_append, List.mem_cons, List.mem_cons, not_or, not_or, not_or, not_or, ih]
      constructor
      · rintro ⟨⟨h1, _, h2⟩, _, h3⟩ i hi
        rcases List.mem_cons.1 hi with rfl | hi
        · exact ⟨h1, h2⟩
        · exact h3 i hi
      · intro h
        have h1 := h x (by simp)
        exact ⟨⟨h1.1, this.1, h1.2⟩, this.2, fun i hi => h i (by simp [List.mem_cons.1 hi])⟩

/-- The compact form of an object: no control characters; a backquote iff a text or key has one. -/
theorem marshals_bytes (hT : ∀ n t, env.numText n = some t → Number t) {m : Obj} {w : Str} (h : Marshals env (.obj m) (some w)) :
    (∀ c ∈ w, 32 ≤ c) ∧ ((96 : UInt8) ∉ w ↔ AllTexts Ticks (.obj m)) := by
  obtain ⟨out, ho, e⟩ := h
  cases hm : mapSlice env out with
  | none => rw [hm] at e; cases e
  | some t =>
    rw [hm, Option.bind_some] at e
    obtain ⟨h1, h2⟩ := compact_out t 0 start w (by intro r hr; cases hr) e.symm
    refine ⟨h1, ?_⟩
    have hs : ∀ i ∈ out, (enc env i.val).isSome := by
      unfold mapSlice at hm
      split at hm
      · rename_i h; exact fun i hi => List.all_eq_true.1 h i hi
      · cases hm
    rw [mapSlice_some hs] at hm
    cases hm
    rw [h2 (by simp)]
    unfold Format.objectText
    have : (96 : UInt8) ≠ 123 ∧ (96 : UInt8) ≠ 125 := by decide
    rw [List.mem_append, List.mem_cons, not_or, not_or, mem_memberTexts, AllTexts, allTextsO_iff]
    have hv : ∀ i ∈ out, (96 : UInt8) ∉ (enc env i.val).getD [] ↔ AllTexts Ticks i.val := by
      intro i hi
      obtain ⟨t, ht⟩ := Option.isSome_iff_exists.1 (hs i hi)
      rw [ht]
      exact mem_enc env hT i.val t ht
    constructor
    · rintro ⟨⟨_, h⟩, _⟩ ⟨k, v⟩ he
      obtain ⟨i, hi, rfl, rfl⟩ := items_mem ho he
      exact ⟨fun hk => (h i hi).1 ((mem_quote _ _).2 hk), (hv i hi).1 (h i hi).2⟩
    · intro h
      refine ⟨⟨this.1, fun i hi => ?_⟩, by simp [this.2]⟩
      have := h _ (mem_items ho i hi)
      exact ⟨fun hk => this.1 ((mem_quote _ _).1 hk), (hv i hi).2 this.2⟩

/-- The first literal of a text can be told. -/
theorem literal_inj {k l a b s t : Str} (h1 : JsonString (34 :: k) a) (h2 : JsonString (34 :: l) b) (h : k ++ s = l ++ t) : a = b := by
  have key : ∀ {k a s : Str}, JsonString (34 :: k) a → strGo 0 (k ++ s) = some (a, s) := by
    rintro k a s ⟨es, ho, e, rfl⟩
    injection e with _ e
    subst e
    unfold Spec.PtrJson.meaning
    clear h1 h2 h
    induction es with
    | nil => rfl
    | cons x es ih =>
      simp only [List.append_eq] at ih ⊢
      rw [List.flatMap_cons, List.flatMap_cons, List.append_assoc, List.append_assoc, strGo_elem (ho x (by simp)), ← List.append_assoc,
        ih (fun e he => ho e (by simp [he]))]
      rfl
  have e1 := key (s := s) h1
  rw [h, key (s := t) h2] at e1
  simp only [Option.some.injEq, Prod.mk.injEq] at e1
  exact e1.1.symm

/-- How the compact form starts. -/
theorem marshals_first {out : List Format.Item} {k : Str} (hk : (out.map Format.Item.key).head? = some k) (hq : Quotable env.prn k) {w : Str}
    (h : (mapSlice env out).bind compact = some w) : ∃ l x, JsonString (34 :: l) k ∧ w = 123 :: 34 :: (l ++ x) := by
  cases hm : mapSlice env out with
  | none => rw [hm] at h; cases h
  | some t =>
    rw [hm, Option.bind_some] at h
    have ht : ∃ r, t = 123 :: (PtrJson.quote env.prn k ++ r) := by
      unfold mapSlice at hm
      split at hm
      · cases hm
        match out with
        | [] => cases hk
        | [x] =>
          simp at hk; subst hk
          exact ⟨58 :: (enc env x.val).getD [] ++ [125], by simp [Format.objectText, Format.memberTexts]⟩
        | x :: y :: t =>
          simp at hk; subst hk
          exact ⟨58 :: (enc env x.val).getD [] ++ 44 :: Format.memberTexts (PtrJson.quote env.prn) (fun j => (enc env j).getD []) (y :: t) ++ [125],
            by simp [Format.objectText, Format.memberTexts]⟩
      · cases hm
    obtain ⟨r, rfl⟩ := ht
    obtain ⟨k', h1, a, b, e1, rfl, h2⟩ := compact_key (quote_json hq)
    unfold compact start at h
    rw [compact_step (s1 := ⟨.beginStringOrEmpty, [.key]⟩) (op := .beginObject) rfl (by decide) (by decide) (by decide) (by decide), e1, List.cons_append,
      compact_step (s1 := ⟨.inString, [.key]⟩) (op := .beginLiteral) rfl (by decide) (by decide) (by decide) (by decide), h2] at h
    obtain ⟨x, hx, rfl⟩ := Option.map_eq_some_iff.1 h
    obtain ⟨y, hy, rfl⟩ := Option.map_eq_some_iff.1 hx
    obtain ⟨z, hz, rfl⟩ := Option.map_eq_some_iff.1 hy
    exact ⟨b, z, h1, rfl⟩

end Oapi.JsonText
