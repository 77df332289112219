import Verif.Proofs.JsonStr
import Verif.Proofs.JsonIndent
import Verif.Proofs.Json

/- Decoding gives exactly the meaning of a JSON text. -/
namespace Oapi.JsonText
open Spec Spec.JsonText

/-! ### White space -/

theorem skipSpaces_blank {a : Str} (ha : Blank a) (s : Str) : skipSpaces (a ++ s) = skipSpaces s := by
  induction a with
  | nil => rfl
  | cons c t ih =>
    have hc := (isSpace_iff c).2 (ha c (by simp))
    simp only [List.cons_append, skipSpaces, hc, if_true]
    exact ih fun c h => ha c (by simp [h])

theorem skipSpaces_cons {c : UInt8} (h : isSpace c = false) (t : Str) : skipSpaces (c :: t) = c :: t := by simp [skipSpaces, h]

theorem skipSpaces_inv (s : Str) : ∃ a, Blank a ∧ s = a ++ skipSpaces s ∧ ∀ c t, skipSpaces s = c :: t → isSpace c = false := by
  induction s with
  | nil => exact ⟨[], blank_none, rfl, nofun⟩
  | cons c t ih =>
    by_cases hc : isSpace c = true
    · obtain ⟨a, h1, h2, h3⟩ := ih
      have e : skipSpaces (c :: t) = skipSpaces t := by simp [skipSpaces, hc]
      rw [e]
      refine ⟨c :: a, ?_, by rw [List.cons_append, ← h2], h3⟩
      intro x hx
      rcases List.mem_cons.1 hx with rfl | hx
      · exact (isSpace_iff _).1 hc
      · exact h1 x hx
    · simp only [Bool.not_eq_true] at hc
      rw [skipSpaces_cons hc]
      exact ⟨[], blank_none, rfl, fun c' t' e => by cases e; exact hc⟩

/-! ### Members -/

theorem foldl_lookup (ms : List (Str × Json)) (o : Obj) (k : Str) :
    Obj.lookup k (ms.foldl (fun o e => assign e.1 e.2 o) o) = match lastOf ms k with
      | some j => some j
      | none => Obj.lookup k o := by
  induction ms generalizing o with
  | nil => rfl
  | cons e t ih =>
    rw [List.foldl_cons, ih]
    have : lastOf (e :: t) k = match lastOf t k with
        | some j => some j
        | none => if e.1 = k then some e.2 else none := by
      unfold lastOf
      rw [List.reverse_cons, List.find?_append]
      cases h : t.reverse.find? fun e => decide (e.1 = k) with
      | some x => rfl
      | none =>
        simp only [Option.none_or, List.find?_cons, List.find?_nil, Option.map_none]
        by_cases hk : e.1 = k <;> simp [hk]
    rw [this]
    cases lastOf t k with
    | some j => rfl
    | none =>
      simp only [assign, Obj.lookup_insert]
      by_cases hk : e.1 = k
      · rw [if_pos hk, if_pos hk.symm]
      · rw [if_neg hk, if_neg fun h => hk h.symm]

theorem foldl_sorted (ms : List (Str × Json)) {o : Obj} (h : Obj.Sorted o) : Obj.Sorted (ms.foldl (fun o e => assign e.1 e.2 o) o) := by
  induction ms generalizing o with
  | nil => exact h
  | cons e t ih => exact ih (Obj.insert_sorted _ _ _ h)

theorem collect_iff (ms : List (Str × Json)) (o : Obj) : Collect ms o ↔ o = ms.foldl (fun o e => assign e.1 e.2 o) [] := by
  have hl : ∀ k, Obj.lookup k (ms.foldl (fun o e => assign e.1 e.2 o) []) = lastOf ms k := by
    intro k
    rw [foldl_lookup]
    cases lastOf ms k <;> rfl
  constructor
  · rintro ⟨h1, h2⟩
    exact Obj.ext_lookup h1 (foldl_sorted ms trivial) fun k => by rw [h2, hl]
  · rintro rfl
    exact ⟨foldl_sorted ms trivial, hl⟩

/-! ### Completeness -/

theorem takeWhile_all {p : UInt8 → Bool} {a r : Str} (ha : ∀ c ∈ a, p c = true) (hr : ∀ c t, r = c :: t → p c = false) :
    (a ++ r).takeWhile p = a ∧ (a ++ r).dropWhile p = r := by
  induction a with
  | nil =>
    cases r with
    | nil => exact ⟨rfl, rfl⟩
    | cons c t => simp [List.takeWhile_cons, List.dropWhile_cons, hr c t rfl]
  | cons c t ih =>
    obtain ⟨h1, h2⟩ := ih fun c h => ha c (by simp [h])
    simp [List.takeWhile_cons, List.dropWhile_cons, ha c (by simp), h1, h2]

section
variable {numOf : Str → Option Int}

/-- What the decoder makes of a piece. -/
def DecPiece (numOf : Str → Option Int) (w : Str) : What → Prop
  | .value j => ∀ fuel r, w.length ≤ fuel → Delim r → value numOf fuel (w ++ r) = some (j, r)
  | .elems l => ∀ fuel r, w.length + 1 ≤ fuel → elems numOf fuel (w ++ 93 :: r) = some (l, r)
  | .members ms => ∀ fuel r o, w.length + 1 ≤ fuel → members numOf fuel o (w ++ 125 :: r) = some (ms.foldl (fun o e => assign e.1 e.2 o) o, r)

theorem numByte_first {c : UInt8} (h : isNumByte c = true) : c ≠ 123 ∧ c ≠ 91 ∧ c ≠ 34 ∧ c ≠ 116 ∧ c ≠ 102 ∧ c ≠ 110 := by
  refine ⟨?_, ?_, ?_, ?_, ?_, ?_⟩ <;> (rintro rfl; exact absurd h (by decide))

/-- Values do not start with white space or a bracket. -/
theorem first_byte {N : Str → Int → Prop} {S : Str → Str → Prop} (hN : ∀ t n, N t n → Number t) (hS : ∀ k s, S k s → IsKey k) {j : Json} {w : Str}
    (h : Means N S (.value j) w) : ∃ c t, w = c :: t ∧ isSpace c = false ∧ c ≠ 93 := by
  obtain ⟨c, t, rfl, h'⟩ := value_first hN hS h
  obtain ⟨s1, op, h1, h2⟩ := h' []
  refine ⟨c, t, rfl, ?_, ?_⟩
  · cases hs : isSpace c with
    | false => rfl
    | true => rw [step_space (by simp) [] hs] at h1; cases h1; exact absurd rfl (opens_plain h2).1
  · rintro rfl
    exact (opens_plain h2).2 (congrArg Prod.snd h1).symm

theorem hN_text : ∀ t n, NumberText numOf t n → Number t := fun _ _ h => h.1
theorem hS_go : ∀ k s, GoString k s → IsKey k := fun _ _ h => key_go h

theorem dec_piece {x : What} {w : Str} (h : Means (NumberText numOf) GoString x w) : DecPiece numOf w x := by
  induction h with
  | null =>
    intro fuel r hf _
    obtain ⟨f, rfl⟩ : ∃ f, fuel = f + 1 := ⟨fuel - 1, by simp at hf; omega⟩
    rfl
  | true_ =>
    intro fuel r hf _
    obtain ⟨f, rfl⟩ : ∃ f, fuel = f + 1 := ⟨fuel - 1, by simp at hf; omega⟩
    rfl
  | false_ =>
    intro fuel r hf _
    obtain ⟨f, rfl⟩ : ∃ f, fuel = f + 1 := ⟨fuel - 1, by simp at hf; omega⟩
    rfl
  | num h =>
    rename_i t n
    intro fuel r hf hr
    obtain ⟨c, t', e, _⟩ := run_number h.1
    obtain ⟨f, rfl⟩ : ∃ f, fuel = f + 1 := ⟨fuel - 1, by rw [e] at hf; simp at hf; omega⟩
    have hb := number_bytes h.1
    obtain ⟨h1, h2⟩ := takeWhile_all hb hr
    obtain ⟨a1, a2, a3, a4, a5, a6⟩ := numByte_first (hb c (by rw [e]; simp))
    have e' : t ++ r = c :: (t' ++ r) := by rw [e]; rfl
    rw [e']
    simp only [value, if_neg a1, if_neg a2, if_neg a3, if_neg a4, if_neg a5, if_neg a6]
    rw [← e', h1, h2, h.2]
    rfl
  | str h =>
    intro fuel r hf _
    obtain ⟨b, hb, rfl⟩ := h
    obtain ⟨f, rfl⟩ : ∃ f, fuel = f + 1 := ⟨fuel - 1, by simp at hf; omega⟩
    simp only [List.cons_append, List.append_assoc, List.nil_append, value]
    rw [if_neg (by decide), if_neg (by decide), if_pos trivial, strGo_body hb]
    rfl
  | arr0 hw =>
    intro fuel r hf _
    obtain ⟨f, rfl⟩ : ∃ f, fuel = f + 1 := ⟨fuel - 1, by simp at hf; omega⟩
    simp only [List.cons_append, List.append_assoc, List.nil_append, value]
    rw [if_neg (by decide), if_pos trivial, skipSpaces_blank hw, skipSpaces_cons (by decide)]
    rfl
  | arr hm ih =>
    rename_i l t
    intro fuel r hf _
    obtain ⟨f, rfl⟩ : ∃ f, fuel = f + 1 := ⟨fuel - 1, by simp at hf; omega⟩
    have ih := ih f r (by simp at hf; omega)
    have hfirst : ∃ d x, skipSpaces (t ++ 93 :: r) = d :: x ∧ d ≠ 93 := by
      have go : ∀ {j : Json} {a t x : Str}, Blank a → Means (NumberText numOf) GoString (.value j) t → ∃ d y, skipSpaces (a ++ (t ++ x)) = d :: y ∧ d ≠ 93 := by
        intro j a t x ha ht
        obtain ⟨c, t', rfl, h1, h2⟩ := first_byte hN_text hS_go ht
        rw [skipSpaces_blank ha, List.cons_append, skipSpaces_cons h1]
        exact ⟨_, _, rfl, h2⟩
      cases hm with
      | elem h1 h2 h3 => simp only [List.append_assoc]; exact go h1 h2
      | elems h1 h2 h3 h4 => simp only [List.append_assoc]; exact go h1 h2
    obtain ⟨d, x, h1, h2⟩ := hfirst
    simp only [List.cons_append, List.append_assoc, List.nil_append, value]
    rw [if_neg (by decide), if_pos trivial, h1]
    simp only [if_neg h2]
    rw [ih]
    rfl
  | obj0 hw =>
    intro fuel r hf _
    obtain ⟨f, rfl⟩ : ∃ f, fuel = f + 1 := ⟨fuel - 1, by simp at hf; omega⟩
    simp only [List.cons_append, List.append_assoc, List.nil_append, value]
    rw [if_pos trivial, skipSpaces_blank hw, skipSpaces_cons (by decide)]
    rfl
  | obj hm hcol ih =>
    rename_i ms o t
    intro fuel r hf _
    obtain ⟨f, rfl⟩ : ∃ f, fuel = f + 1 := ⟨fuel - 1, by simp at hf; omega⟩
    have ih := ih f r [] (by simp at hf; omega)
    have hfirst : ∃ d x, skipSpaces (t ++ 125 :: r) = d :: x ∧ d ≠ 125 := by
      have go : ∀ {s a t x : Str}, Blank a → GoString t s → ∃ d y, skipSpaces (a ++ (t ++ x)) = d :: y ∧ d ≠ 125 := by
        rintro s a t x ha ⟨b, _, rfl⟩
        rw [skipSpaces_blank ha, List.cons_append, skipSpaces_cons (by decide)]
        exact ⟨_, _, rfl, by decide⟩
      cases hm with
      | member h1 h2 _ _ _ _ => simp only [List.append_assoc]; exact go h1 h2
      | members h1 h2 _ _ _ _ _ => simp only [List.append_assoc]; exact go h1 h2
    obtain ⟨d, x, h1, h2⟩ := hfirst
    simp only [List.cons_append, List.append_assoc, List.nil_append, value]
    rw [if_pos trivial, h1]
    simp only [if_neg h2]
    rw [ih, (collect_iff ms o).1 hcol]
    rfl
  | elem ha hm hb ih =>
    intro fuel r hf
    obtain ⟨f, rfl⟩ : ∃ f, fuel = f + 1 := ⟨fuel - 1, by omega⟩
    rename_i j a t b
    obtain ⟨c, t', e, h1, _⟩ := first_byte hN_text hS_go hm
    have ih := ih f (b ++ 93 :: r) (by simp at hf; omega) (delim_blank hb (delim_cons (c := 93) (by decide) _))
    simp only [List.append_assoc, elems]
    have hs : skipSpaces (a ++ (t ++ (b ++ 93 :: r))) = t ++ (b ++ 93 :: r) := by
      rw [skipSpaces_blank ha, e, List.cons_append, skipSpaces_cons h1]
    rw [hs, ih]
    simp only
    rw [skipSpaces_blank hb, skipSpaces_cons (by decide)]
    rfl
  | elems ha hm hb _hw ih ih' =>
    intro fuel r hf
    obtain ⟨f, rfl⟩ : ∃ f, fuel = f + 1 := ⟨fuel - 1, by omega⟩
    rename_i j l a t b w
    obtain ⟨c, t', e, h1, _⟩ := first_byte hN_text hS_go hm
    have ih := ih f (b ++ 44 :: (w ++ 93 :: r)) (by simp at hf; omega) (delim_blank hb (delim_cons (c := 44) (by decide) _))
    have ih' := ih' f r (by simp at hf; omega)
    simp only [List.append_assoc, List.cons_append, elems]
    have hs : skipSpaces (a ++ (t ++ (b ++ 44 :: (w ++ 93 :: r)))) = t ++ (b ++ 44 :: (w ++ 93 :: r)) := by
      rw [skipSpaces_blank ha, e, List.cons_append, skipSpaces_cons h1]
    rw [hs, ih]
    simp only
    rw [skipSpaces_blank hb, skipSpaces_cons (by decide)]
    simp only [if_true]
    rw [ih']
    rfl
  | member ha hk hb hc hm hd ih =>
    intro fuel r o hf
    obtain ⟨f, rfl⟩ : ∃ f, fuel = f + 1 := ⟨fuel - 1, by omega⟩
    rename_i key j a k b c t d
    obtain ⟨x, t', e, h1, _⟩ := first_byte hN_text hS_go hm
    have ih := ih f (d ++ 125 :: r) (by simp at hf; omega) (delim_blank hd (delim_cons (c := 125) (by decide) _))
    obtain ⟨y, hy, rfl⟩ := hk
    have hs : skipSpaces (c ++ (t ++ (d ++ 125 :: r))) = t ++ (d ++ 125 :: r) := by
      rw [skipSpaces_blank hc, e, List.cons_append, skipSpaces_cons h1]
    simp only [List.append_assoc, List.cons_append, List.nil_append, members]
    rw [skipSpaces_blank ha, skipSpaces_cons (by decide)]
    simp only [if_true]
    rw [strGo_body hy]
    simp only
    rw [skipSpaces_blank hb, skipSpaces_cons (by decide)]
    simp only [if_true]
    rw [hs, ih]
    simp only
    rw [skipSpaces_blank hd, skipSpaces_cons (by decide)]
    rfl
  | members ha hk hb hc hm hd _hw ih ih' =>
    intro fuel r o hf
    obtain ⟨f, rfl⟩ : ∃ f, fuel = f + 1 := ⟨fuel - 1, by omega⟩
    rename_i key j l a k b c t d w
    obtain ⟨x, t', e, h1, _⟩ := first_byte hN_text hS_go hm
    have ih := ih f (d ++ 44 :: (w ++ 125 :: r)) (by simp at hf; omega) (delim_blank hd (delim_cons (c := 44) (by decide) _))
    have ih' := ih' f r (assign key j o) (by simp at hf; omega)
    obtain ⟨y, hy, rfl⟩ := hk
    have hs : skipSpaces (c ++ (t ++ (d ++ 44 :: (w ++ 125 :: r)))) = t ++ (d ++ 44 :: (w ++ 125 :: r)) := by
      rw [skipSpaces_blank hc, e, List.cons_append, skipSpaces_cons h1]
    simp only [List.append_assoc, List.cons_append, List.nil_append, members]
    rw [skipSpaces_blank ha, skipSpaces_cons (by decide)]
    simp only [if_true]
    rw [strGo_body hy]
    simp only
    rw [skipSpaces_blank hb, skipSpaces_cons (by decide)]
    simp only [if_true]
    rw [hs, ih]
    simp only
    rw [skipSpaces_blank hd, skipSpaces_cons (by decide)]
    simp only [if_true]
    rw [ih']
    rfl

theorem dec_doc {t : Str} {j : Json} (h : Doc (NumberText numOf) GoString t j) : unmarshal numOf t = some j := by
  have hv := valid_doc hN_text hS_go h
  obtain ⟨a, w, b, ha, hb, rfl, hm⟩ := h
  unfold unmarshal
  rw [if_pos hv]
  obtain ⟨c, t', e, h1, _⟩ := first_byte hN_text hS_go hm
  have hs : skipSpaces (a ++ (w ++ b)) = w ++ b := by
    rw [skipSpaces_blank ha, e, List.cons_append, skipSpaces_cons h1]
  have := dec_piece hm ((a ++ (w ++ b)).length + 1) b (by simp; omega) (by have := delim_blank hb delim_nil; simpa using this)
  rw [hs, this]
  rfl
end

end Oapi.JsonText
