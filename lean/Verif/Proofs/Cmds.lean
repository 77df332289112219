import Verif.Spec.Cmds
import Verif.Proofs.Resolver2
import Verif.Proofs.Pointer
import Verif.Proofs.Specs

/-! Lemmas about comment commands. -/
namespace Oapi.Cmds
open Spec

theorem hasPrefix_iff {s p : Str} : Str.hasPrefix s p = true ↔ ∃ t, s = p ++ t := by
  rw [Str.hasPrefix, List.isPrefixOf_iff_prefix]
  constructor
  · rintro ⟨t, rfl⟩; exact ⟨t, rfl⟩
  · rintro ⟨t, rfl⟩; exact ⟨t, rfl⟩

theorem contains_iff {s sub : Str} : Str.contains s sub = true ↔ ∃ a b, s = a ++ sub ++ b := by
  induction s with
  | nil =>
    simp only [Str.contains, List.isEmpty_iff]
    constructor
    · rintro rfl; exact ⟨[], [], rfl⟩
    · rintro ⟨a, b, h⟩
      have := congrArg List.length h
      simp at this
      exact List.eq_nil_of_length_eq_zero (by omega)
  | cons c t ih =>
    simp only [Str.contains, Bool.or_eq_true, hasPrefix_iff, ih]
    constructor
    · rintro (⟨u, h⟩ | ⟨a, b, h⟩)
      · exact ⟨[], u, by simpa using h⟩
      · exact ⟨c :: a, b, by simp [h]⟩
    · rintro ⟨a, b, h⟩
      cases a with
      | nil => exact Or.inl ⟨b, by simpa using h⟩
      | cons d a =>
        simp only [List.cons_append] at h
        injection h with _ h
        exact Or.inr ⟨a, b, h⟩

theorem pointerLike_iff {a : Str} : (Str.contains a b!"://" || Str.contains a b!"#") = true ↔ PointerLike a := by
  rw [Bool.or_eq_true, contains_iff, contains_iff, PointerLike]
  have : (∃ x y, a = x ++ b!"#" ++ y) ↔ (35 : UInt8) ∈ a := by
    constructor
    · rintro ⟨x, y, rfl⟩; simp
    · intro h
      obtain ⟨s, t, h⟩ := List.append_of_mem h
      exact ⟨s, t, by simp [h]⟩
  rw [this]

theorem parseLoose_ok {x : Str} {p : Pointer} (h : Pointer.parse x = .ok p) : Pointer.parseLoose x = p := by
  unfold Pointer.parse at h
  unfold Pointer.parseLoose
  split at h
  · rename_i hx; rw [if_pos hx]; cases h; rfl
  · rename_i hx
    rw [if_neg hx]
    cases hu : Url.Parse x with
    | none => rw [hu] at h; cases h
    | some u =>
      rw [hu] at h
      simp only at h ⊢
      cases hf : Fragment.new u.fragment with
      | ok f => rw [hf] at h; cases h; rfl
      | err e => rw [hf] at h; cases h
      | panic => rw [hf] at h; cases h

theorem parseLoose_err {x : Str} {e : Err} (h : Pointer.parse x = .err e) : (Pointer.parseLoose x).fragment = [] := by
  unfold Pointer.parse at h
  unfold Pointer.parseLoose
  split at h
  · cases h
  · rename_i hx
    rw [if_neg hx]
    cases hu : Url.Parse x with
    | none => rfl
    | some u =>
      rw [hu] at h
      simp only at h ⊢
      cases hf : Fragment.new u.fragment with
      | ok f => rw [hf] at h; cases h
      | err e => rfl
      | panic => rfl

theorem trim_word {w : Str} (h : Word w) : trim w = w := by
  have h1 : ∀ s : Str, (32 : UInt8) ∉ s → s.dropWhile (· ∈ [(32 : UInt8)]) = s := by
    intro s hs
    cases s with
    | nil => rfl
    | cons c t =>
      have : c ≠ 32 := fun e => hs (by simp [e])
      simp [List.dropWhile, this]
  unfold trim trimRight
  rw [h1 w h, h1 _ (by rw [List.mem_reverse]; exact h), List.reverse_reverse]

theorem newArguments_words {l : List Str} (h : ∀ w ∈ l, Word w) : newArguments l = l := by
  unfold newArguments
  conv => rhs; rw [← List.map_id l]
  exact List.map_congr_left fun w hw => trim_word (h w hw)

theorem parse_words {pkg c : Str} {args : List Str} (hc : Word c) (h : ∀ w ∈ args, Word w) :
    parse pkg (Str.join 32 (c :: args)) =
      if c = b!":schema" then newSchema pkg args
      else if c = [] ∨ c = b!":root" then .ok (.root args)
      else .err .syntaxErr := by
  unfold parse
  rw [Str.split_join 32 (c :: args) (by simp) (by
    intro x hx
    rcases List.mem_cons.1 hx with rfl | hx
    · exact hc
    · exact h x hx)]
  simp only [trim_word hc, newArguments_words h]

theorem trimRight_spec (cut : List UInt8) (s : Str) : ∃ t, s = trimRight cut s ++ t ∧ (∀ c ∈ t, c ∈ cut) ∧
    ∀ c, (trimRight cut s).getLast? = some c → c ∉ cut := by
  unfold trimRight
  refine ⟨(s.reverse.takeWhile (· ∈ cut)).reverse, ?_, ?_, ?_⟩
  · rw [← List.reverse_append, List.takeWhile_append_dropWhile, List.reverse_reverse]
  · intro c hc
    rw [List.mem_reverse] at hc
    have := List.all_takeWhile (l := s.reverse) (p := fun x => decide (x ∈ cut))
    rw [List.all_eq_true] at this
    simpa using this c hc
  · intro c hc
    rw [List.getLast?_reverse] at hc
    intro hm
    have : ∀ l : Str, (l.dropWhile (fun x => decide (x ∈ cut))).head? = some c → False := by
      intro l
      induction l with
      | nil => intro h; simp at h
      | cons a l ih =>
        intro h
        rw [List.dropWhile_cons] at h
        split at h
        · exact ih h
        · rename_i hn
          simp at h
          subst h
          simp [hm] at hn
    exact this _ hc

theorem trimRight_unique (cut : List UInt8) {b t : Str} (ht : ∀ c ∈ t, c ∈ cut) (hb : ∀ c, b.getLast? = some c → c ∉ cut) :
    trimRight cut (b ++ t) = b := by
  have h1 : ∀ (t r : Str), (∀ c ∈ t, c ∈ cut) → (t ++ r).dropWhile (fun x => decide (x ∈ cut)) = r.dropWhile (fun x => decide (x ∈ cut)) := by
    intro t
    induction t with
    | nil => intro r _; rfl
    | cons a t ih =>
      intro r h
      rw [List.cons_append, List.dropWhile_cons, if_pos (by simpa using h a (by simp))]
      exact ih r fun c hc => h c (by simp [hc])
  unfold trimRight
  rw [List.reverse_append, h1 _ _ (by simpa using ht)]
  have h2 : ∀ r : Str, (∀ c, r.head? = some c → c ∉ cut) → r.dropWhile (fun x => decide (x ∈ cut)) = r := by
    intro r h
    cases r with
    | nil => rfl
    | cons a r => rw [List.dropWhile_cons, if_neg (by simpa using h a rfl)]
  rw [h2 _ (by intro c hc; rw [List.head?_reverse] at hc; exact hb c hc), List.reverse_reverse]

/-! ### Exports -/

theorem get_none {exp : List Resolver.Export} {p : Pointer} : Resolver.get exp p = none ↔ ∀ e ∈ exp, e.ptr.toStr ≠ p.toStr := by
  unfold Resolver.get
  rw [List.find?_eq_none]
  simp

theorem exportLoop_spec (cs : List Cmd) : ∀ (acc : List Resolver.Export), (acc.map fun e => e.ptr.toStr).Nodup →
    exportLoop acc cs = if (acc.map (fun e => e.ptr.toStr) ++ (schemaPtrs cs).map fun t => t.2.toStr).Nodup
      then .ok (acc ++ (schemaPtrs cs).map fun t => ⟨.schema, t.1, t.2⟩) else .err .duplicate := by
  induction cs with
  | nil => intro acc h; simp [exportLoop, schemaPtrs, h]
  | cons c cs ih =>
    intro acc h
    cases c with
    | root a => rw [exportLoop, ih acc h]; rfl
    | schema a n p =>
      rw [exportLoop]
      have hsp : schemaPtrs (.schema a n p :: cs) = (n, p) :: schemaPtrs cs := rfl
      rw [hsp, List.map_cons, List.map_cons]
      cases hg : Resolver.get acc p with
      | some e =>
        simp only
        rw [if_neg]
        intro hn
        rw [List.nodup_append] at hn
        obtain ⟨hm, he⟩ := Resolver.get_mem hg
        exact hn.2.2 _ (List.mem_map.2 ⟨e, hm, rfl⟩) _ (List.mem_cons_self ..) he
      | none =>
        simp only
        have hn : (List.map (fun e => e.ptr.toStr) (acc ++ [(⟨.schema, n, p⟩ : Resolver.Export)])).Nodup := by
          rw [List.map_append, List.nodup_append]
          refine ⟨h, by simp, ?_⟩
          intro x hx y hy
          simp only [List.map_cons, List.map_nil, List.mem_singleton] at hy
          subst hy
          obtain ⟨e, he, rfl⟩ := List.mem_map.1 hx
          exact get_none.1 hg e he
        rw [ih _ hn]
        simp only [List.map_append, List.map_cons, List.map_nil, List.append_assoc, List.cons_append, List.nil_append]

end Oapi.Cmds
