import Verif.Proofs.JsonScan

/- `Indent` keeps the meaning of a JSON text. -/
namespace Oapi.JsonText
open Spec.JsonText

theorem newline_blank (d : Nat) : Blank (newline d) := by
  intro c hc
  rcases List.mem_cons.1 hc with rfl | hc
  · decide
  · obtain ⟨l, hl, hc⟩ := List.mem_flatten.1 hc
    rw [(List.mem_replicate.1 hl).2] at hc
    simp only [List.mem_cons, List.not_mem_nil, or_false] at hc
    rcases hc with rfl | rfl <;> decide

theorem blank_none : Blank [] := nofun

theorem blank_append {a b : Str} (ha : Blank a) (hb : Blank b) : Blank (a ++ b) := fun c h => (List.mem_append.1 h).elim (ha c) (hb c)

/-- The steps that start a value or a key. -/
def Opens (op : Op) : Prop := op = .beginLiteral ∨ op = .beginObject ∨ op = .beginArray

theorem indent_open {s s1 : Sc} {c : UInt8} {op : Op} (h : step s c = (s1, op)) (ho : Opens op) (d : Nat) (t : Str) :
    indentGo true d s (c :: t) = (indentGo false (d + 1) s (c :: t)).map (newline (d + 1) ++ ·) := by
  have e1 : op ≠ .skipSpace := by rcases ho with rfl | rfl | rfl <;> decide
  have e2 : op ≠ .err := by rcases ho with rfl | rfl | rfl <;> decide
  have e3 : decide (op ≠ .endObject) = true := by rcases ho with rfl | rfl | rfl <;> decide
  have e4 : decide (op ≠ .endArray) = true := by rcases ho with rfl | rfl | rfl <;> decide
  simp only [indentGo, h, if_neg e1, if_neg e2]
  rw [e3, e4]
  simp only [Bool.true_and, Bool.false_and, Bool.and_self, Bool.not_true, if_true, Bool.false_eq_true, if_false]
  cases h : (if op = Op.cont then _ else _ : Option Str) <;> simp

/-- A byte that starts a literal. -/
theorem indent_lit {s s1 : Sc} {c : UInt8} (h : step s c = (s1, .beginLiteral)) (hc : c ∉ b!"{[,:}]") (d : Nat) (t : Str) :
    indentGo false d s (c :: t) = (indentGo false d s1 t).map (c :: ·) := by
  simp only [List.mem_cons, List.not_mem_nil, or_false, not_or] at hc
  obtain ⟨h1, h2, h3, h4, h5, h6⟩ := hc
  simp only [indentGo, h]
  rw [if_neg (by decide), if_neg (by decide)]
  simp only [Bool.false_and, Bool.false_eq_true, if_false]
  rw [if_neg (by decide), if_neg (not_or.2 ⟨h1, h2⟩), if_neg h3, if_neg h4, if_neg (not_or.2 ⟨h5, h6⟩)]
  cases indentGo false d s1 t <;> rfl

theorem indent_brace {s s1 : Sc} {c : UInt8} {op : Op} (h : step s c = (s1, op)) (ho : op = .beginObject ∨ op = .beginArray) (hc : c = 123 ∨ c = 91)
    (d : Nat) (t : Str) : indentGo false d s (c :: t) = (indentGo true d s1 t).map (c :: ·) := by
  simp only [indentGo, h]
  have e1 : op ≠ .skipSpace := by rcases ho with rfl | rfl <;> decide
  have e2 : op ≠ .err := by rcases ho with rfl | rfl <;> decide
  have e3 : op ≠ .cont := by rcases ho with rfl | rfl <;> decide
  rw [if_neg e1, if_neg e2]
  simp only [Bool.false_and, Bool.false_eq_true, if_false]
  rw [if_neg e3, if_pos hc]
  cases indentGo true d s1 t <;> rfl

theorem indent_close {s s1 : Sc} {c : UInt8} {op : Op} (h : step s c = (s1, op)) (ho : op = .endObject ∨ op = .endArray) (hc : c = 125 ∨ c = 93)
    (d : Nat) (t : Str) : indentGo false d s (c :: t) = (indentGo false (d - 1) s1 t).map (newline (d - 1) ++ [c] ++ ·) := by
  simp only [indentGo, h]
  have e1 : op ≠ .skipSpace := by rcases ho with rfl | rfl <;> decide
  have e2 : op ≠ .err := by rcases ho with rfl | rfl <;> decide
  have e3 : op ≠ .cont := by rcases ho with rfl | rfl <;> decide
  rw [if_neg e1, if_neg e2]
  simp only [Bool.false_and, Bool.false_eq_true, if_false]
  rw [if_neg e3, if_neg (by rcases hc with rfl | rfl <;> decide), if_neg (by rcases hc with rfl | rfl <;> decide), if_neg (by rcases hc with rfl | rfl <;> decide),
    if_pos hc]
  cases indentGo false (d - 1) s1 t <;> rfl

theorem indent_empty {s s1 : Sc} {c : UInt8} {op : Op} (h : step s c = (s1, op)) (ho : op = .endObject ∨ op = .endArray) (hc : c = 125 ∨ c = 93)
    (d : Nat) (t : Str) : indentGo true d s (c :: t) = (indentGo false d s1 t).map (c :: ·) := by
  simp only [indentGo, h]
  have e1 : op ≠ .skipSpace := by rcases ho with rfl | rfl <;> decide
  have e2 : op ≠ .err := by rcases ho with rfl | rfl <;> decide
  have e3 : op ≠ .cont := by rcases ho with rfl | rfl <;> decide
  have e4 : (decide (op ≠ .endObject) && decide (op ≠ .endArray)) = false := by rcases ho with rfl | rfl <;> decide
  rw [if_neg e1, if_neg e2]
  simp only [Bool.true_and, e4, Bool.false_eq_true, if_false, Bool.not_false, if_true]
  rw [if_neg e3, if_neg (by rcases hc with rfl | rfl <;> decide), if_neg (by rcases hc with rfl | rfl <;> decide), if_neg (by rcases hc with rfl | rfl <;> decide),
    if_pos hc]
  cases indentGo false d s1 t <;> rfl

theorem indent_comma {s s1 : Sc} {op : Op} (h : step s 44 = (s1, op)) (ho : op = .objectValue ∨ op = .arrayValue) (d : Nat) (t : Str) :
    indentGo false d s (44 :: t) = (indentGo false d s1 t).map (44 :: newline d ++ ·) := by
  simp only [indentGo, h]
  rcases ho with rfl | rfl
  all_goals
    rw [if_neg (by decide), if_neg (by decide)]
    simp only [Bool.false_and, Bool.false_eq_true, if_false]
    rw [if_neg (by decide), if_neg (by decide), if_pos trivial]
    cases indentGo false d s1 t <;> rfl

theorem indent_colon {s s1 : Sc} (h : step s 58 = (s1, .objectKey)) (d : Nat) (t : Str) :
    indentGo false d s (58 :: t) = (indentGo false d s1 t).map ([58, 32] ++ ·) := by
  simp only [indentGo, h]
  rw [if_neg (by decide), if_neg (by decide)]
  simp only [Bool.false_and, Bool.false_eq_true, if_false]
  rw [if_neg (by decide), if_neg (by decide), if_neg (by decide), if_pos trivial]
  cases indentGo false d s1 t <;> rfl

/-! ### Pieces -/

section
variable {N : Str → Int → Prop} {S : Str → Str → Prop}

theorem elems_blank {l : List Json} {a t : Str} (ha : Blank a) (h : Means N S (.elems l) t) : Means N S (.elems l) (a ++ t) := by
  cases h with
  | elem h1 h2 h3 => rw [← List.append_assoc]; exact .elem (blank_append ha h1) h2 h3
  | elems h1 h2 h3 h4 => rw [← List.append_assoc]; exact .elems (blank_append ha h1) h2 h3 h4

theorem members_blank {l : List (Str × Json)} {a t : Str} (ha : Blank a) (h : Means N S (.members l) t) : Means N S (.members l) (a ++ t) := by
  cases h with
  | member h1 h2 h3 h4 h5 h6 => rw [← List.append_assoc]; exact .member (blank_append ha h1) h2 h3 h4 h5 h6
  | members h1 h2 h3 h4 h5 h6 h7 => rw [← List.append_assoc]; exact .members (blank_append ha h1) h2 h3 h4 h5 h6 h7

theorem lit_first {c : UInt8} {st : List Ctx} {s1 : Sc} (h : step ⟨.beginValue, st⟩ c = (s1, .beginLiteral)) : c ∉ b!"{[,:}]" := by
  intro hc
  simp only [List.mem_cons, List.not_mem_nil, or_false] at hc
  rcases hc with rfl | rfl | rfl | rfl | rfl | rfl <;> exact absurd (congrArg Prod.snd h) (by simp [step, beginValue, isSpace, fail])

theorem indent_literal {w : Str} (h : IsLit w) (d : Nat) (st : List Ctx) (r : Str) {q : State} (hq : q = .beginValue ∨ q = .beginValueOrEmpty)
    (hr : Delim r) : indentGo false d ⟨q, st⟩ (w ++ r) = (indentGo false d ⟨.endValue, st⟩ r).map (w ++ ·) := by
  obtain ⟨c, t, rfl, h⟩ := h
  obtain ⟨s1, s', h1, h2, h3⟩ := h st
  rw [List.cons_append, indent_lit (step_orEmpty h1 (by decide) (by decide) hq) (lit_first h1), indentGo_run h2, indentGo_eqv h3 hr, Option.map_map]
  rfl

/-- How values start. -/
theorem value_first (hN : ∀ t n, N t n → Number t) (hS : ∀ k s, S k s → IsKey k) {j : Json} {w : Str} (h : Means N S (.value j) w) :
    ∃ c t, w = c :: t ∧ ∀ st, ∃ s1 op, step ⟨.beginValue, st⟩ c = (s1, op) ∧ Opens op := by
  have lit : ∀ {w : Str}, IsLit w → ∃ c t, w = c :: t ∧ ∀ st, ∃ s1 op, step ⟨.beginValue, st⟩ c = (s1, op) ∧ Opens op := by
    rintro w ⟨c, t, rfl, h⟩
    exact ⟨c, t, rfl, fun st => by obtain ⟨s1, s', h1, _⟩ := h st; exact ⟨s1, _, h1, .inl rfl⟩⟩
  cases h with
  | null => exact lit lit_null
  | true_ => exact lit lit_true
  | false_ => exact lit lit_false
  | num h => exact lit (lit_number (hN _ _ h))
  | str h => exact lit (lit_key (hS _ _ h))
  | arr0 _ => exact ⟨91, _, rfl, fun st => ⟨_, _, rfl, .inr (.inr rfl)⟩⟩
  | arr _ => exact ⟨91, _, rfl, fun st => ⟨_, _, rfl, .inr (.inr rfl)⟩⟩
  | obj0 _ => exact ⟨123, _, rfl, fun st => ⟨_, _, rfl, .inr (.inl rfl)⟩⟩
  | obj _ _ => exact ⟨123, _, rfl, fun st => ⟨_, _, rfl, .inr (.inl rfl)⟩⟩

theorem opens_plain {op : Op} (h : Opens op) : op ≠ .skipSpace ∧ op ≠ .err := by rcases h with rfl | rfl | rfl <;> decide

/-- The first element of an array. -/
theorem elems_need (hN : ∀ t n, N t n → Number t) (hS : ∀ k s, S k s → IsKey k) {l : List Json} {w : Str} (h : Means N S (.elems l) w)
    {q : State} (hq : q = .beginValue ∨ q = .beginValueOrEmpty) (d : Nat) (st : List Ctx) (r : Str) :
    indentGo true d ⟨q, st⟩ (w ++ r) = (indentGo false (d + 1) ⟨q, st⟩ (w ++ r)).map (newline (d + 1) ++ ·) := by
  have go : ∀ {j : Json} {a t x : Str}, Blank a → Means N S (.value j) t →
      indentGo true d ⟨q, st⟩ (a ++ (t ++ x)) = (indentGo false (d + 1) ⟨q, st⟩ (a ++ (t ++ x))).map (newline (d + 1) ++ ·) := by
    intro j a t x ha ht
    obtain ⟨c, t', rfl, hc⟩ := value_first hN hS ht
    obtain ⟨s1, op, h1, h2⟩ := hc st
    rw [indentGo_blank (skips_begin (q_value hq) _) ha, indentGo_blank (skips_begin (q_value hq) _) ha, List.cons_append]
    exact indent_open (step_orEmpty h1 (opens_plain h2).1 (opens_plain h2).2 hq) h2 d _
  cases h with
  | elem h1 h2 h3 => simp only [List.append_assoc]; exact go h1 h2
  | elems h1 h2 h3 h4 => simp only [List.append_assoc]; exact go h1 h2

/-- The first member of an object. -/
theorem members_need (hS : ∀ k s, S k s → IsKey k) {l : List (Str × Json)} {w : Str} (h : Means N S (.members l) w)
    {q : State} (hq : q = .beginString ∨ q = .beginStringOrEmpty) (d : Nat) (st : List Ctx) (r : Str) :
    indentGo true d ⟨q, st⟩ (w ++ r) = (indentGo false (d + 1) ⟨q, st⟩ (w ++ r)).map (newline (d + 1) ++ ·) := by
  have go : ∀ {s a t x : Str}, Blank a → S t s →
      indentGo true d ⟨q, st⟩ (a ++ (t ++ x)) = (indentGo false (d + 1) ⟨q, st⟩ (a ++ (t ++ x))).map (newline (d + 1) ++ ·) := by
    intro j a t x ha ht
    obtain ⟨t', rfl, _⟩ := hS _ _ ht
    rw [indentGo_blank (skips_begin (q_string hq) _) ha, indentGo_blank (skips_begin (q_string hq) _) ha, List.cons_append]
    exact indent_open (step_quote hq st) (.inl rfl) d _
  cases h with
  | member h1 h2 _ _ _ _ => simp only [List.append_assoc]; exact go h1 h2
  | members h1 h2 _ _ _ _ _ => simp only [List.append_assoc]; exact go h1 h2

/-- What `Indent` makes of a piece. -/
def IndentPiece (N : Str → Int → Prop) (S : Str → Str → Prop) (w : Str) (x : What) : Prop :=
  ∀ d, ∃ w', Means N S x w' ∧ match x with
  | .value _ => ∀ st r q, (q = State.beginValue ∨ q = .beginValueOrEmpty) → Delim r →
      indentGo false d ⟨q, st⟩ (w ++ r) = (indentGo false d ⟨.endValue, st⟩ r).map (w' ++ ·)
  | .elems _ => ∀ st r q, (q = State.beginValue ∨ q = .beginValueOrEmpty) →
      indentGo false d ⟨q, .arr :: st⟩ (w ++ 93 :: r) = (indentGo false (d - 1) (pop (.arr :: st)) r).map (w' ++ 93 :: ·)
  | .members _ => ∀ st r q, (q = State.beginString ∨ q = .beginStringOrEmpty) →
      indentGo false d ⟨q, .key :: st⟩ (w ++ 125 :: r) = (indentGo false (d - 1) (pop (.val :: st)) r).map (w' ++ 125 :: ·)

theorem indent_piece (hN : ∀ t n, N t n → Number t) (hS : ∀ k s, S k s → IsKey k) {x : What} {w : Str} (h : Means N S x w) :
    IndentPiece N S w x := by
  induction h with
  | null => exact fun d => ⟨_, .null, fun st r q hq hr => indent_literal lit_null d st r hq hr⟩
  | true_ => exact fun d => ⟨_, .true_, fun st r q hq hr => indent_literal lit_true d st r hq hr⟩
  | false_ => exact fun d => ⟨_, .false_, fun st r q hq hr => indent_literal lit_false d st r hq hr⟩
  | num h => exact fun d => ⟨_, .num h, fun st r q hq hr => indent_literal (lit_number (hN _ _ h)) d st r hq hr⟩
  | str h => exact fun d => ⟨_, .str h, fun st r q hq hr => indent_literal (lit_key (hS _ _ h)) d st r hq hr⟩
  | arr0 hw =>
    refine fun d => ⟨_, .arr0 blank_none, fun st r q hq hr => ?_⟩
    rw [List.cons_append, indent_brace (step_bracket hq st) (.inr rfl) (.inr rfl), List.append_assoc,
      indentGo_blank (skips_begin (by decide) _) hw, List.singleton_append,
      indent_empty (s1 := pop (.arr :: st)) (op := .endArray) rfl (.inr rfl) (.inr rfl), indentGo_eqv (eqv_pop _ st) hr, Option.map_map]
    rfl
  | arr hm ih =>
    intro d
    obtain ⟨w', hm', ih⟩ := ih (d + 1)
    refine ⟨_, .arr (elems_blank (newline_blank (d + 1)) hm'), fun st r q hq hr => ?_⟩
    rw [List.cons_append, indent_brace (step_bracket hq st) (.inr rfl) (.inr rfl), List.append_assoc, List.singleton_append,
      elems_need hN hS hm (.inr rfl), ih st r .beginValueOrEmpty (.inr rfl), Nat.add_sub_cancel, indentGo_eqv (eqv_pop _ st) hr, Option.map_map,
      Option.map_map]
    congr 1; funext x; simp
  | obj0 hw =>
    refine fun d => ⟨_, .obj0 blank_none, fun st r q hq hr => ?_⟩
    rw [List.cons_append, indent_brace (step_brace hq st) (.inl rfl) (.inl rfl), List.append_assoc,
      indentGo_blank (skips_begin (by decide) _) hw, List.singleton_append,
      indent_empty (s1 := pop (.val :: st)) (op := .endObject) rfl (.inl rfl) (.inl rfl), indentGo_eqv (eqv_pop _ st) hr, Option.map_map]
    rfl
  | obj hm hcol ih =>
    intro d
    obtain ⟨w', hm', ih⟩ := ih (d + 1)
    refine ⟨_, .obj (members_blank (newline_blank (d + 1)) hm') hcol, fun st r q hq hr => ?_⟩
    rw [List.cons_append, indent_brace (step_brace hq st) (.inl rfl) (.inl rfl), List.append_assoc, List.singleton_append,
      members_need hS hm (.inr rfl), ih st r .beginStringOrEmpty (.inr rfl), Nat.add_sub_cancel, indentGo_eqv (eqv_pop _ st) hr, Option.map_map,
      Option.map_map]
    congr 1; funext x; simp
  | elem ha _ hb ih =>
    intro d
    obtain ⟨w', hm, ih⟩ := ih d
    refine ⟨_, .elem blank_none hm (newline_blank (d - 1)), fun st r q hq => ?_⟩
    simp only [List.append_assoc]
    rw [indentGo_blank (skips_begin (q_value hq) _) ha, ih (.arr :: st) _ q hq (delim_blank hb (delim_cons (by decide) _)),
      indentGo_blank (skips_end _ _) hb,
      indent_close (s1 := pop (.arr :: st)) (op := .endArray) rfl (.inr rfl) (.inr rfl), Option.map_map]
    congr 1; funext x; simp
  | elems ha _ hb _ ih ih' =>
    intro d
    obtain ⟨w', hm, ih⟩ := ih d
    obtain ⟨w'', hm', ih'⟩ := ih' d
    refine ⟨_, .elems blank_none hm blank_none (elems_blank (newline_blank d) hm'), fun st r q hq => ?_⟩
    simp only [List.append_assoc, List.cons_append]
    rw [indentGo_blank (skips_begin (q_value hq) _) ha, ih (.arr :: st) _ q hq (delim_blank hb (delim_cons (by decide) _)),
      indentGo_blank (skips_end _ _) hb,
      indent_comma (s1 := ⟨.beginValue, .arr :: st⟩) (op := .arrayValue) rfl (.inr rfl),
      ih' st r .beginValue (.inl rfl), Option.map_map, Option.map_map]
    congr 1
  | member ha hk hb hc _ hd ih =>
    intro d
    obtain ⟨w', hm, ih⟩ := ih d
    refine ⟨_, .member blank_none hk blank_none (c := [32]) (by intro c hc; simpa using Or.inl hc) hm (newline_blank (d - 1)), fun st r q hq => ?_⟩
    obtain ⟨t, rfl, ht⟩ := hS _ _ hk
    simp only [List.append_assoc, List.cons_append]
    rw [indentGo_blank (skips_begin (q_string hq) _) ha, indent_lit (step_quote hq _) (by decide), indentGo_run (ht _),
      indentGo_blank (skips_end _ _) hb, indent_colon (s1 := ⟨.beginValue, .val :: st⟩) rfl,
      indentGo_blank (skips_begin (by decide) _) hc, ih _ _ _ (.inl rfl) (delim_blank hd (delim_cons (by decide) _)),
      indentGo_blank (skips_end _ _) hd, indent_close (s1 := pop (.val :: st)) (op := .endObject) rfl (.inl rfl) (.inl rfl),
      Option.map_map, Option.map_map, Option.map_map, Option.map_map]
    congr 1; funext x; simp
  | members ha hk hb hc _ hd _ ih ih' =>
    intro d
    obtain ⟨w', hm, ih⟩ := ih d
    obtain ⟨w'', hm', ih'⟩ := ih' d
    refine ⟨_, .members blank_none hk blank_none (c := [32]) (by intro c hc; simpa using Or.inl hc) hm blank_none (members_blank (newline_blank d) hm'),
      fun st r q hq => ?_⟩
    obtain ⟨t, rfl, ht⟩ := hS _ _ hk
    simp only [List.append_assoc, List.cons_append]
    rw [indentGo_blank (skips_begin (q_string hq) _) ha, indent_lit (step_quote hq _) (by decide), indentGo_run (ht _),
      indentGo_blank (skips_end _ _) hb, indent_colon (s1 := ⟨.beginValue, .val :: st⟩) rfl,
      indentGo_blank (skips_begin (by decide) _) hc, ih _ _ _ (.inl rfl) (delim_blank hd (delim_cons (by decide) _)),
      indentGo_blank (skips_end _ _) hd, indent_comma (s1 := ⟨.beginString, .key :: st⟩) (op := .objectValue) rfl (.inl rfl),
      ih' st r .beginString (.inl rfl), Option.map_map, Option.map_map, Option.map_map, Option.map_map, Option.map_map]
    congr 1

/-- `Indent` of a JSON text without white space behind it is a JSON text with the same meaning. -/
theorem indent_value (hN : ∀ t n, N t n → Number t) (hS : ∀ k s, S k s → IsKey k) {t : Str} {j : Json} (h : Means N S (.value j) t) :
    ∃ w, indent t = some w ∧ Means N S (.value j) w := by
  obtain ⟨w', hm', hw⟩ := indent_piece hN hS h 0
  refine ⟨w', ?_, hm'⟩
  have := hw [] [] .beginValue (.inl rfl) delim_nil
  rw [List.append_nil] at this
  unfold indent
  rw [start, this]
  have e : indentGo false 0 ⟨.endValue, []⟩ [] = some [] := by decide
  rw [e]
  simp
end

end Oapi.JsonText
