import Verif.Proofs.Regex

/-! Proofs about whole patterns: what is in front of the last text, the alternatives, and the agreement with `Route.parseRe`. -/
namespace Oapi.Regex
open Oapi Spec Route

/-- The items `hd` (the last one first) in front of `acc`. -/
def before (hd : List (Re × Bool)) (acc : Re) : Re := hd.foldl (fun acc x => .cat x.1 acc) acc

theorem concat_append (its hd : List (Re × Bool)) : concat (its ++ hd) = before hd (concat its) := by
  simp [concat, before]

theorem before_append (a b : List (Re × Bool)) (acc : Re) : before (a ++ b) acc = before b (before a acc) := by
  simp [before]

/-- Items of a text, the last one first. -/
def chars (s : Runes) : List (Re × Bool) := (s.map fun c => (Re.chr c, false)).reverse

theorem chars_cons (c : Nat) (s : Runes) : chars (c :: s) = chars s ++ [(.chr c, false)] := by simp [chars]

theorem lang_chars (s : Runes) (acc : Re) (q : Runes) : Lang (before (chars s) acc) q ↔ ∃ v, q = s ++ v ∧ Lang acc v := by
  induction s generalizing q with
  | nil => simp [chars, before]
  | cons c s ih =>
    rw [chars_cons, before_append]
    show Lang (.cat (.chr c) (before (chars s) acc)) q ↔ _
    rw [lang_cat_iff]
    constructor
    · rintro ⟨u, v, rfl, h1, h2⟩
      cases h1
      obtain ⟨w, rfl, h⟩ := (ih v).1 h2
      exact ⟨w, rfl, h⟩
    · rintro ⟨v, rfl, h⟩
      exact ⟨[c], s ++ v, rfl, .chr, (ih _).2 ⟨v, rfl, h⟩⟩

theorem run_quote (s : Runes) : ∀ (f : Frame) (st : List Frame) (r : Runes),
    run 0 f st (quoteMeta s ++ r) = run 0 { f with cur := chars s ++ f.cur } st r := by
  induction s with
  | nil => intro f st r; rfl
  | cons c s ih =>
    intro f st r
    have e : quoteMeta (c :: s) ++ r = (if special c then [92, c] else [c]) ++ (quoteMeta s ++ r) := by simp [quoteMeta]
    have : run 0 f st (quoteMeta (c :: s) ++ r) = run 0 (f.push (.chr c, false)) st (quoteMeta s ++ r) := by
      rw [e]
      by_cases h : special c = true
      · rw [if_pos h]; exact run_esc h f st _
      · rw [if_neg h]; exact run_chr (by simpa using h) f st _
    rw [this, ih, chars_cons]
    simp [Frame.push]

theorem lang_notSlash {q : Runes} : Lang (.cls true [(47, 47)]) q ↔ ∃ c, c ≠ 47 ∧ q = [c] := by
  have : ∀ c, inRanges c [(47, 47)] = true ↔ c = 47 := by intro c; simp [inRanges]; omega
  constructor
  · intro h; cases h with | cls h => exact ⟨_, fun e => h ((this _).2 e), rfl⟩
  · rintro ⟨c, hc, rfl⟩; exact .cls fun e => hc ((this c).1 e)

theorem lang_seg' {q : Runes} : Lang (.plus (.cls true [(47, 47)])) q ↔ q ≠ [] ∧ 47 ∉ q := by
  constructor
  · intro h
    have key : ∀ {r : Re} {q : Runes}, Lang r q → r = .plus (.cls true [(47, 47)]) → q ≠ [] ∧ 47 ∉ q := by
      intro r q h
      induction h with
      | once h _ => intro e; cases e; obtain ⟨c, hc, rfl⟩ := lang_notSlash.1 h; exact ⟨by simp, by simpa using fun e => hc e.symm⟩
      | again h _ _ i =>
        intro e; cases e
        obtain ⟨c, hc, rfl⟩ := lang_notSlash.1 h
        exact ⟨by simp, by simpa using ⟨fun e => hc e.symm, (i rfl).2⟩⟩
      | _ => intro e; cases e
    exact key h rfl
  · rintro ⟨h1, h2⟩
    induction q with
    | nil => exact absurd rfl h1
    | cons c t ih =>
      have hc : c ≠ 47 := by rintro rfl; exact h2 (by simp)
      cases t with
      | nil => exact .once (lang_notSlash.2 ⟨c, hc, rfl⟩)
      | cons d t => exact Lang.again (u := [c]) (lang_notSlash.2 ⟨c, hc, rfl⟩) (ih (by simp) (fun h => h2 (by simp [h])))

theorem lang_seg {q : Runes} : Lang seg q ↔ q ≠ [] ∧ 47 ∉ q := by
  rw [← lang_seg', seg, lang_cat_iff]
  constructor
  · rintro ⟨u, v, rfl, h, hv⟩; cases hv; simpa using h
  · intro h; exact ⟨q, [], by simp, h, .eps⟩

theorem lang_star {q : Runes} : Lang (.opt (.plus .dot)) q ↔ 10 ∉ q := by
  constructor
  · intro h
    have key : ∀ {r : Re} {q : Runes}, Lang r q → r = .plus .dot → 10 ∉ q := by
      intro r q h
      induction h with
      | once h _ => intro e; cases e; cases h with | dot hc => simpa using fun e => hc e.symm
      | again h _ _ i =>
        intro e; cases e
        cases h with | dot hc => simpa using ⟨fun e => hc e.symm, i rfl⟩
      | _ => intro e; cases e
    cases h with
    | without => simp
    | with_ h => exact key h rfl
  · intro h
    induction q with
    | nil => exact .without
    | cons c t ih =>
      have hc : c ≠ 10 := by rintro rfl; exact h (by simp)
      have h' := ih (fun hm => h (by simp [hm]))
      refine .with_ ?_
      cases h' with
      | without => exact .once (.dot hc)
      | with_ h' => exact Lang.again (u := [c]) (.dot hc) h'

/-- The items of tokens, the last one first. -/
def itemsOf : List Tok → List (Re × Bool)
  | [] => []
  | .text s :: ts => itemsOf ts ++ chars s
  | .var _ :: ts => itemsOf ts ++ [(seg, false)]
  | .any :: ts => itemsOf ts ++ [(.opt (.plus .dot), false)]

theorem lang_items (ts : List Tok) (acc : Re) : ∀ q, Lang (before (itemsOf ts) acc) q ↔ ∃ u v, q = u ++ v ∧ Describes ts u ∧ Lang acc v := by
  induction ts with
  | nil =>
    intro q
    constructor
    · intro h; exact ⟨[], q, rfl, .nil, h⟩
    · rintro ⟨u, v, rfl, hu, h⟩; cases hu; exact h
  | cons t ts ih =>
    intro q
    cases t with
    | text s =>
      rw [itemsOf, before_append, lang_chars]
      constructor
      · rintro ⟨v, rfl, h⟩
        obtain ⟨u, w, rfl, hu, hw⟩ := (ih v).1 h
        exact ⟨s ++ u, w, by simp, .text hu, hw⟩
      · rintro ⟨u, v, rfl, hu, hv⟩
        cases hu with
        | @text _ _ r hr => exact ⟨r ++ v, by simp, (ih _).2 ⟨r, v, rfl, hr, hv⟩⟩
    | var n =>
      rw [itemsOf, before_append]
      show Lang (.cat seg (before (itemsOf ts) acc)) q ↔ _
      rw [lang_cat_iff]
      constructor
      · rintro ⟨a, b, rfl, ha, hb⟩
        obtain ⟨u, w, rfl, hu, hw⟩ := (ih b).1 hb
        exact ⟨a ++ u, w, by simp, .var (lang_seg.1 ha).1 (lang_seg.1 ha).2 hu, hw⟩
      · rintro ⟨u, v, rfl, hu, hv⟩
        cases hu with
        | @var _ _ a r h1 h2 hr => exact ⟨a, r ++ v, by simp, lang_seg.2 ⟨h1, h2⟩, (ih _).2 ⟨r, v, rfl, hr, hv⟩⟩
    | any =>
      rw [itemsOf, before_append]
      show Lang (.cat (.opt (.plus .dot)) (before (itemsOf ts) acc)) q ↔ _
      rw [lang_cat_iff]
      constructor
      · rintro ⟨a, b, rfl, ha, hb⟩
        obtain ⟨u, w, rfl, hu, hw⟩ := (ih b).1 hb
        exact ⟨a ++ u, w, by simp, .any (lang_star.1 ha) hu, hw⟩
      · rintro ⟨u, v, rfl, hu, hv⟩
        cases hu with
        | @any _ a r h1 hr => exact ⟨a, r ++ v, by simp, lang_star.2 h1, (ih _).2 ⟨r, v, rfl, hr, hv⟩⟩

theorem lastText_tail {a b : Tok} {ts : List Tok} (h : ts ≠ []) {l : Runes} (hl : LastText (a :: b :: ts) l) : LastText ts l := by
  cases ts with
  | nil => exact absurd rfl h
  | cons c ts => cases a <;> cases b <;> exact hl

/-- What is in front of the last text of a pattern. -/
theorem run_head {p : Runes} {ts : List Tok} (h : Reads p ts) : ∀ {l : Runes}, LastText ts l → ∀ (f : Frame),
    run 0 f [] (rexp ts) = run 0 { f with cur := itemsOf ts.dropLast ++ f.cur } [] l := by
  induction h with
  | last hs => intro l hl; cases hl; intro f; rfl
  | @var s n r ts hs hn hr ih =>
    intro l hl f
    have hne := reads_ne_nil hr
    have e : rexp (.text s :: .var n :: ts) = quoteMeta s ++ (ascii b!"([^/]+)" ++ rexp ts) := by
      cases ts with
      | nil => exact absurd rfl hne
      | cons a ts => rfl
    have e2 : (Tok.text s :: Tok.var n :: ts).dropLast = .text s :: .var n :: ts.dropLast := by
      cases ts with
      | nil => exact absurd rfl hne
      | cons a ts => rfl
    rw [e, run_quote, run_seg _ _ _ (by decide), ih (lastText_tail hne hl), e2]
    simp [Frame.push, itemsOf]
  | @any s r ts hs hr ih =>
    intro l hl f
    have hne := reads_ne_nil hr
    have e : rexp (.text s :: .any :: ts) = quoteMeta s ++ (ascii b!"(.*)" ++ rexp ts) := by
      cases ts with
      | nil => exact absurd rfl hne
      | cons a ts => rfl
    have e2 : (Tok.text s :: Tok.any :: ts).dropLast = .text s :: .any :: ts.dropLast := by
      cases ts with
      | nil => exact absurd rfl hne
      | cons a ts => rfl
    rw [e, run_quote, run_star, ih (lastText_tail hne hl), e2]
    simp [Frame.push, itemsOf]

theorem run_choices {n : Nat} {s : Runes} {es : List Expr} (h : Choices n s es) (hn : n ≤ limit) : ∃ its e es', es = e :: es' ∧ concat its = tr e ∧
    ∀ f : Frame, run 0 f [] s = some (f.alts ++ concat (its ++ f.cur) :: es'.map tr) := by
  induction h with
  | one hw =>
    obtain ⟨its, hc, h⟩ := reads_as hw
    refine ⟨its, _, [], rfl, hc, fun f => ?_⟩
    have := h f [] [] (by simpa using hn)
    rw [List.append_nil] at this
    rw [this]; rfl
  | more hw _ ih =>
    obtain ⟨its, hc, h⟩ := reads_as hw
    obtain ⟨its', e', es', rfl, hc', h'⟩ := ih
    refine ⟨its, _, e' :: es', rfl, hc, fun f => ?_⟩
    rw [h f [] _ (by simpa using hn), run_bar, h']
    simp [Frame.close, hc']

theorem getLast?_map_some {α β : Type} (f : α → β) {l : List α} {z : β} : (l.map f).getLast? = some z ↔ ∃ x, l.getLast? = some x ∧ f x = z := by
  rw [List.getLast?_map]
  cases l.getLast? with
  | none => simp
  | some x => simp

/-- What the alternatives at the end of a pattern accept. -/
theorem anchored_iff {hd : List Tok} {its : List (Re × Bool)} {e : Expr} {es : List Expr} (hc : concat its = tr e) (q : Runes) :
    anchored (concat (its ++ itemsOf hd) :: es.map tr) q = true ↔ Accepts hd (e :: es) q := by
  have hl : ∀ q, Lang (concat (its ++ itemsOf hd)) q ↔ ∃ u v, q = u ++ v ∧ Describes hd u ∧ StandsFor e v := by
    intro q; rw [concat_append, lang_items, hc]; simp only [lang_tr]
  cases es with
  | nil => show full _ q = true ↔ _; rw [full_iff, hl]; rfl
  | cons e2 es =>
    show (pre _ q || later (_ :: _) q) = true ↔ _
    rw [Bool.or_eq_true, pre_iff, later_iff]
    have e1 : tr e2 :: List.map tr es = (e2 :: es).map tr := rfl
    rw [e1, ← List.map_dropLast]
    simp only [hl, List.mem_map, getLast?_map_some, Accepts]
    constructor
    · rintro (⟨a, w, rfl, u, v, rfl, h1, h2⟩ | ⟨m, ⟨x, hx, rfl⟩, u, v, w, rfl, h⟩ | ⟨z, ⟨x, hx, rfl⟩, u, v, rfl, h⟩)
      · exact .inl ⟨u, v, w, rfl, h1, h2⟩
      · exact .inr (.inl ⟨x, hx, u, v, w, rfl, lang_tr.1 h⟩)
      · exact .inr (.inr ⟨x, hx, u, v, rfl, lang_tr.1 h⟩)
    · rintro (⟨u, v, w, rfl, h1, h2⟩ | ⟨x, hx, u, v, w, rfl, h⟩ | ⟨x, hx, u, v, rfl, h⟩)
      · exact .inl ⟨u ++ v, w, rfl, u, v, rfl, h1, h2⟩
      · exact .inr (.inl ⟨_, ⟨x, hx, rfl⟩, u, v, w, rfl, lang_tr.2 h⟩)
      · exact .inr (.inr ⟨_, ⟨x, hx, rfl⟩, u, v, rfl, lang_tr.2 h⟩)

/-! ### Agreement with `Route.parseRe` -/

/-- A piece as an item. -/
def itemOf : Piece → Re × Bool
  | .lit c => (.chr c, false)
  | .seg => (seg, false)
  | .star => (.opt (.plus .dot), false)
  | .dot => (.dot, false)

theorem run_pieces (t : Runes) : ∀ (k : Nat) (ps : List Piece), parseRe k t = some ps → ∀ f : Frame,
    run k f [] t = some (f.alts ++ [concat ((ps.map itemOf).reverse ++ f.cur)]) := by
  induction t with
  | nil =>
    intro k ps h f
    have : parseRe k [] = some [] := by cases k <;> rfl
    rw [this] at h; cases h
    cases k <;> rfl
  | cons c t ih =>
    intro k ps h f
    cases k with
    | succ k => exact ih k ps h f
    | zero =>
      have step : ∀ (k : Nat) (p : Piece), (parseRe k t).map (p :: ·) = some ps →
          run k (f.push (itemOf p)) [] t = some (f.alts ++ [concat ((ps.map itemOf).reverse ++ f.cur)]) := by
        intro k p h
        obtain ⟨ps', h1, rfl⟩ := Option.map_eq_some_iff.1 h
        rw [ih k ps' h1]
        simp [Frame.push]
      rw [parseRe_cons] at h
      by_cases h1 : (ascii b!"([^/]+)").isPrefixOf (c :: t) = true
      · rw [if_pos h1] at h
        obtain ⟨r, hr⟩ := List.isPrefixOf_iff_prefix.1 h1
        rw [← hr, run_seg _ _ _ (by decide), ← step 6 .seg h]
        have : t = ascii b!"[^/]+)" ++ r := (List.cons.inj hr).2.symm
        rw [this]
        exact (run_skip _ [] (ascii b!"[^/]+)") r).symm
      rw [if_neg h1] at h
      rw [run_cons]
      by_cases h2 : (ascii b!"(.*)").isPrefixOf (c :: t) = true
      · rw [if_pos h2] at h ⊢; exact step 3 .star h
      rw [if_neg h2] at h ⊢
      by_cases h3 : c = 92
      · rw [if_pos h3] at h ⊢
        cases t with
        | nil => cases h
        | cons d t =>
          dsimp only at h ⊢
          by_cases h4 : (decide (d < 128) && !isAlnum d) = true
          · rw [if_pos h4] at h ⊢; exact step 1 (.lit d) h
          · rw [if_neg h4] at h; cases h
      rw [if_neg h3] at h ⊢
      by_cases h4 : c = 46
      · rw [if_pos h4] at h ⊢; exact step 0 .dot h
      rw [if_neg h4] at h ⊢
      by_cases h5 : special c = true
      · rw [if_pos h5] at h; cases h
      rw [if_neg h5] at h
      have e2 := run_cons f [] c t
      rw [if_neg h2, if_neg h3, if_neg h4] at e2
      rw [← e2, run_chr (by simpa using h5)]
      exact step 0 (.lit c) h

theorem lang_pieces (ps : List Piece) : ∀ q, matchRe ps q = true ↔ Lang (concat (ps.map itemOf).reverse) q := by
  induction ps with
  | nil =>
    intro q
    show q.isEmpty = true ↔ Lang .eps q
    constructor
    · intro h; rw [List.isEmpty_iff] at h; subst h; exact .eps
    · intro h; cases h; rfl
  | cons p ps ih =>
    intro q
    have e : concat ((p :: ps).map itemOf).reverse = .cat (itemOf p).1 (concat (ps.map itemOf).reverse) := by
      rw [List.map_cons, List.reverse_cons, concat_snoc]
    rw [e, lang_cat_iff]
    cases p with
    | lit c =>
      constructor
      · intro h
        cases q with
        | nil => cases h
        | cons d q =>
          simp only [matchRe, Bool.and_eq_true, beq_iff_eq] at h
          obtain ⟨rfl, h⟩ := h
          exact ⟨[d], q, rfl, .chr, (ih q).1 h⟩
      · rintro ⟨u, v, rfl, h1, h2⟩
        cases h1
        simp [matchRe, (ih v).2 h2]
    | dot =>
      constructor
      · intro h
        cases q with
        | nil => cases h
        | cons d q =>
          simp only [matchRe, Bool.and_eq_true, bne_iff_ne] at h
          exact ⟨[d], q, rfl, .dot h.1, (ih q).1 h.2⟩
      · rintro ⟨u, v, rfl, h1, h2⟩
        cases h1 with | dot hc => simp [matchRe, (ih v).2 h2, hc]
    | seg =>
      show segGo _ q = true ↔ _
      rw [segGo_iff]
      constructor
      · rintro ⟨u, r, rfl, h1, h2, h3⟩; exact ⟨u, r, rfl, lang_seg.2 ⟨h1, h2⟩, (ih r).1 h3⟩
      · rintro ⟨u, r, rfl, h1, h3⟩; exact ⟨u, r, rfl, (lang_seg.1 h1).1, (lang_seg.1 h1).2, (ih r).2 h3⟩
    | star =>
      show starGo _ q = true ↔ _
      rw [starGo_iff]
      constructor
      · rintro ⟨u, r, rfl, h1, h3⟩; exact ⟨u, r, rfl, lang_star.2 h1, (ih r).1 h3⟩
      · rintro ⟨u, r, rfl, h1, h3⟩; exact ⟨u, r, rfl, lang_star.1 h1, (ih r).2 h3⟩

/-- An expression that is read here behaves as the alternatives say, whether or not `parseRe` reads it too. -/
theorem compile_run (rest : Runes → Option Regexp) {re : Runes} {l : List Re} (h : run 0 {} [] re = some l) :
    ∃ g, compile (behaviour rest) re = some g ∧ ∀ path, g path = anchored l (runes path) := by
  cases hp : parseRe 0 re with
  | none => exact ⟨_, by simp only [compile, hp, behaviour, h], fun _ => rfl⟩
  | some ps =>
    refine ⟨_, by simp only [compile, hp]; rfl, fun path => ?_⟩
    have := run_pieces re 0 ps hp {}
    rw [h] at this
    cases this
    rw [Bool.eq_iff_iff, lang_pieces]
    show _ ↔ full _ _ = true
    rw [full_iff]
    simp

end Oapi.Regex
