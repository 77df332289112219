import Verif.Props.Cmds

/-! Commands in terms of the text of comments (C47, C77). -/
namespace Oapi.Cmds
open Spec

theorem comment_iff {t body : Str} : commentText t = some body ↔ CommandIn t body := by
  constructor
  · intro h
    unfold commentText at h
    simp only at h
    split at h
    · rename_i hp
      cases h
      obtain ⟨r, e⟩ := hasPrefix_iff.1 hp
      match t, e with
      | [], e => cases e
      | [_], e => cases e
      | c₁ :: c₂ :: rest, e =>
        simp only [List.drop_succ_cons, List.drop_zero] at e
        subst e
        obtain ⟨tail, e1, e2, e3⟩ := trimRight_spec [32, 10] r
        refine ⟨c₁, c₂, tail, ?_, fun c hc => by simpa using e2 c hc, ?_⟩
        · have : ((c₁ :: c₂ :: (b!"openapi" ++ r)).drop 2).drop 7 = r := rfl
          rw [this, List.append_assoc, ← e1]
        · intro c hc
          have : ((c₁ :: c₂ :: (b!"openapi" ++ r)).drop 2).drop 7 = r := rfl
          rw [this] at hc
          simpa using e3 c hc
    · cases h
  · rintro ⟨c₁, c₂, tail, rfl, h1, h2⟩
    exact (Props.C47_comment c₁ c₂ _).1 body tail rfl h1 h2

theorem words_of (body : Str) : ∃ w args, body = Str.join 32 (w :: args) ∧ Word w ∧ ∀ x ∈ args, Word x := by
  have h1 := Str.join_split 32 body
  have h2 := Str.mem_split_no_sep 32 body
  cases e : Str.split 32 body with
  | nil => exact absurd e (Str.split_ne_nil 32 body)
  | cons w args =>
    rw [e] at h1 h2
    exact ⟨w, args, h1.symm, h2 w (by simp), fun x hx => h2 x (by simp [hx])⟩

theorem words_inj {a b : List Str} (ha : a ≠ []) (hb : b ≠ []) (h1 : ∀ x ∈ a, Word x) (h2 : ∀ x ∈ b, Word x)
    (h : Str.join 32 a = Str.join 32 b) : a = b := by
  rw [← Str.split_join 32 a ha h1, h, Str.split_join 32 b hb h2]

theorem makePtr_eq (pkg t : Str) : (PointerLike t → makePtr pkg t = Pointer.parseLoose t) ∧
    (¬ PointerLike t → makePtr pkg t = Pointer.parseLoose (b!"go://" ++ pkg ++ b!"#/" ++ t)) := by
  unfold makePtr
  by_cases h : PointerLike t
  · rw [if_pos (pointerLike_iff.2 h)]; exact ⟨fun _ => rfl, fun h' => absurd h h'⟩
  · rw [if_neg (fun e => h (pointerLike_iff.1 e))]; exact ⟨fun h' => absurd h' h, fun _ => rfl⟩

theorem parse_export_iff {pkg body name : Str} {ptr : Pointer} : (∃ args, parse pkg body = .ok (.schema args name ptr)) ↔ ExportText pkg body name ptr := by
  have word_schema : Word b!":schema" := by unfold Word; decide
  constructor
  · rintro ⟨args', h⟩
    obtain ⟨w, args, rfl, hw, ha⟩ := words_of body
    rw [parse_words hw ha] at h
    split at h
    · rename_i e
      subst e
      match args, ha, h with
      | [], _, h => cases h
      | [a], ha, h =>
        change (if a = [] then _ else _) = _ at h
        split at h
        · cases h
        · rename_i hne
          cases h
          exact ⟨name, .inl ⟨rfl, rfl⟩, ha name (by simp), ha name (by simp), hne, hne, (makePtr_eq pkg name).1, (makePtr_eq pkg name).2⟩
      | [a, b], ha, h =>
        change (if a = [] then _ else if b = [] then _ else _) = _ at h
        split at h
        · cases h
        · rename_i hne
          split at h
          · cases h
          · rename_i hne'
            cases h
            refine ⟨b, .inr ?_, ha name (by simp), ha b (by simp), hne, hne', (makePtr_eq pkg b).1, (makePtr_eq pkg b).2⟩
            simp [Str.join]
      | _ :: _ :: _ :: _, _, h => cases h
    · split at h <;> cases h
  · rintro ⟨t, hb, h1, h2, h3, h4, h5, h6⟩
    have hp : ptr = makePtr pkg t := by
      by_cases hl : PointerLike t
      · rw [h5 hl, (makePtr_eq pkg t).1 hl]
      · rw [h6 hl, (makePtr_eq pkg t).2 hl]
    rcases hb with ⟨rfl, rfl⟩ | rfl
    · refine ⟨[t], ?_⟩
      rw [show b!":schema " ++ t = Str.join 32 [b!":schema", t] from rfl, parse_words word_schema (by simpa using h1), if_pos rfl, newSchema, if_neg h3, hp]
    · refine ⟨[name, t], ?_⟩
      rw [show b!":schema " ++ name ++ b!" " ++ t = Str.join 32 [b!":schema", name, t] by simp [Str.join],
        parse_words word_schema (by simp [h1, h2]), if_pos rfl, newSchema, if_neg h3, if_neg h4, hp]

theorem parse_root_iff {pkg body : Str} : (∃ args, parse pkg body = .ok (.root args)) ↔ RootText body := by
  constructor
  · rintro ⟨args', h⟩
    obtain ⟨w, args, rfl, hw, ha⟩ := words_of body
    rw [parse_words hw ha] at h
    split at h
    · unfold newSchema at h
      split at h
      · split at h <;> cases h
      · split at h
        · cases h
        · split at h <;> cases h
      · cases h
    · split at h
      · rename_i hr
        refine ⟨w, hr, ?_⟩
        cases args with
        | nil => left; simp [Str.join]
        | cons a l => right; exact ⟨Str.join 32 (a :: l), by simp [Str.join]⟩
      · cases h
  · rintro ⟨w, hw, hb⟩
    have hww : Word w := by rcases hw with rfl | rfl <;> (unfold Word; decide)
    have hns : w ≠ b!":schema" := by rcases hw with rfl | rfl <;> decide
    rcases hb with rfl | ⟨rest, rfl⟩
    · refine ⟨[], ?_⟩
      rw [show parse pkg body = parse pkg (Str.join 32 [body]) by simp [Str.join], parse_words hww (by simp), if_neg hns, if_pos hw]
    · obtain ⟨v, args, rfl, hv, ha⟩ := words_of rest
      refine ⟨v :: args, ?_⟩
      rw [show w ++ b!" " ++ Str.join 32 (v :: args) = Str.join 32 (w :: v :: args) by simp [Str.join],
        parse_words hww (by intro x hx; rcases List.mem_cons.1 hx with rfl | hx; exact hv; exact ha x hx), if_neg hns, if_pos hw]

theorem parse_ok_iff {pkg body : Str} : (∃ c, parse pkg body = .ok c) ↔ (∃ name ptr, ExportText pkg body name ptr) ∨ RootText body := by
  constructor
  · rintro ⟨c, h⟩
    cases c with
    | root args => exact .inr (parse_root_iff.1 ⟨args, h⟩)
    | schema args n p => exact .inl ⟨n, p, parse_export_iff.1 ⟨args, h⟩⟩
  · rintro (⟨n, p, h⟩ | h)
    · obtain ⟨a, h⟩ := parse_export_iff.2 h; exact ⟨_, h⟩
    · obtain ⟨a, h⟩ := (parse_root_iff (pkg := pkg)).2 h; exact ⟨_, h⟩

/-- The place of the `i`-th element among those kept. -/
def place {α β : Type} (f : α → Option β) (l : List α) (i : Nat) : Nat := ((l.take i).filterMap f).length

theorem filterMap_place {α β : Type} {f : α → Option β} : ∀ {l : List α} {i : Nat} {x : α} {y : β}, l[i]? = some x → f x = some y →
    (l.filterMap f)[place f l i]? = some y
  | [], i, x, y, h, _ => by simp at h
  | a :: l, 0, x, y, h, hy => by
    simp only [List.getElem?_cons_zero, Option.some.injEq] at h
    subst h
    simp [place, hy]
  | a :: l, i + 1, x, y, h, hy => by
    have ih := filterMap_place (l := l) (i := i) (by simpa using h) hy
    unfold place at ih ⊢
    rw [List.take_succ_cons]
    cases hf : f a with
    | none => simp only [List.filterMap_cons, hf]; exact ih
    | some b => simp only [List.filterMap_cons, hf, List.length_cons, List.getElem?_cons_succ]; exact ih

theorem filterMap_back {α β : Type} {f : α → Option β} : ∀ {l : List α} {j : Nat} {y : β}, (l.filterMap f)[j]? = some y →
    ∃ (i : Nat) (x : α), l[i]? = some x ∧ f x = some y ∧ place f l i = j
  | [], j, y, h => by simp at h
  | a :: l, j, y, h => by
    cases hf : f a with
    | none =>
      rw [List.filterMap_cons, hf] at h
      obtain ⟨i, x, h1, h2, h3⟩ := filterMap_back h
      exact ⟨i + 1, x, by simpa using h1, h2, by unfold place at h3 ⊢; rw [List.take_succ_cons, List.filterMap_cons, hf]; exact h3⟩
    | some b =>
      rw [List.filterMap_cons, hf] at h
      cases j with
      | zero => exact ⟨0, a, rfl, by rw [hf]; simpa using h, rfl⟩
      | succ j =>
        obtain ⟨i, x, h1, h2, h3⟩ := filterMap_back (by simpa using h)
        exact ⟨i + 1, x, by simpa using h1, h2, by unfold place at h3 ⊢; rw [List.take_succ_cons, List.filterMap_cons, hf]; simp [h3]⟩

theorem place_lt {α β : Type} {f : α → Option β} {l : List α} {i j : Nat} {x : α} {y : β} (h : l[i]? = some x) (hy : f x = some y)
    (hij : i < j) : place f l i < place f l j := by
  unfold place
  obtain ⟨hl, e⟩ := List.getElem?_eq_some_iff.1 h
  have h1 : l.take (i + 1) = l.take i ++ [x] := by rw [List.take_add_one, h]; rfl
  have h2 : (l.take (i + 1)).filterMap f = (l.take i).filterMap f ++ [y] := by rw [h1, List.filterMap_append]; simp [hy]
  have h3 : ((l.take (i + 1)).filterMap f).length ≤ ((l.take j).filterMap f).length := by
    have : l.take j = l.take (i + 1) ++ (l.drop (i + 1)).take (j - (i + 1)) := by
      rw [← List.take_add]; congr 1; omega
    rw [this, List.filterMap_append, List.length_append]
    omega
  rw [h2] at h3
  simp at h3
  omega

theorem place_inj {α β : Type} {f : α → Option β} {l : List α} {i j : Nat} {x x' : α} {y y' : β} (h : l[i]? = some x) (hy : f x = some y)
    (h' : l[j]? = some x') (hy' : f x' = some y') (e : place f l i = place f l j) : i = j := by
  rcases Nat.lt_trichotomy i j with hl | hl | hl
  · have := place_lt h hy hl; omega
  · exact hl
  · have := place_lt h' hy' hl; omega

/-- Scanning the comments of a package succeeds exactly if every command in them is one of the two kinds. -/
theorem scan_ok_iff {pkg : Str} {groups : List (List Str)} : (∃ cs, Cmds.scan pkg groups = .ok cs) ↔
    ∀ t body, t ∈ groups.flatten → CommandIn t body → (∃ name ptr, ExportText pkg body name ptr) ∨ RootText body := by
  constructor
  · rintro ⟨cs, h⟩ t body ht hb
    refine parse_ok_iff.1 ?_
    have hm : body ∈ Props.commandTexts groups := List.mem_filterMap.2 ⟨t, ht, comment_iff.2 hb⟩
    by_cases hx : ∃ c, parse pkg body = .ok c
    · exact hx
    · obtain ⟨e, he⟩ := Props.C47_package_fails pkg groups body hm fun x hx' => hx ⟨x, hx'⟩
      rw [he] at h; cases h
  · intro h
    have hall : ∀ body ∈ Props.commandTexts groups, ∃ c, parse pkg body = .ok c := by
      intro body hb
      obtain ⟨t, ht, e⟩ := List.mem_filterMap.1 hb
      exact parse_ok_iff.2 (h t body ht (comment_iff.1 e))
    unfold Cmds.scan
    rw [Props.groups_texts]
    generalize Props.commandTexts groups = l at hall
    induction l with
    | nil => exact ⟨[], rfl⟩
    | cons a l ih =>
      obtain ⟨c, hc⟩ := hall a (by simp)
      obtain ⟨cs, hcs⟩ := ih fun b hb => hall b (by simp [hb])
      exact ⟨c :: cs, by simp only [parseAll, hc, hcs]⟩

/-- And the schema commands it gives are those in the comments, in order. -/
theorem scan_commands {pkg : Str} {groups : List (List Str)} {cs : List Cmd} (h : Cmds.scan pkg groups = .ok cs) {j : Nat} {name : Str} {ptr : Pointer} :
    (∃ args, cs[j]? = some (.schema args name ptr)) ↔
    ∃ i t body, groups.flatten[i]? = some t ∧ CommandIn t body ∧ ExportText pkg body name ptr ∧ place commentText groups.flatten i = j := by
  obtain ⟨hl, hc⟩ := (Props.C47_package pkg groups cs).1 h
  constructor
  · rintro ⟨args, hj⟩
    obtain ⟨hlt, e⟩ := List.getElem?_eq_some_iff.1 hj
    have := hc j (by omega) hlt
    rw [e] at this
    have hb : (Props.commandTexts groups)[j]? = some (Props.commandTexts groups)[j] := List.getElem?_eq_getElem (by omega)
    obtain ⟨i, t, h1, h2, h3⟩ := filterMap_back hb
    exact ⟨i, t, _, h1, comment_iff.1 h2, parse_export_iff.1 ⟨args, this⟩, h3⟩
  · rintro ⟨i, t, body, h1, h2, h3, rfl⟩
    have hb := filterMap_place h1 (comment_iff.2 h2)
    obtain ⟨hlt, e⟩ := List.getElem?_eq_some_iff.1 hb
    have hlt' : place commentText groups.flatten i < cs.length := by rw [hl]; exact hlt
    obtain ⟨args, hp⟩ := parse_export_iff.2 h3
    refine ⟨args, ?_⟩
    rw [List.getElem?_eq_getElem hlt']
    have e' : (Props.commandTexts groups)[place commentText groups.flatten i] = body := e
    have h5 := hc _ hlt hlt'
    rw [e', hp] at h5
    simpa using h5.symm

end Oapi.Cmds
