import Verif.Spec.Cli
import Verif.Proofs.Str

/-! Lemmas about paths and log level names. -/
namespace Oapi.Cli
open Spec

theorem isAbs_iff {p : Str} : isAbs p = true ↔ AbsPath p := by
  unfold isAbs Str.hasPrefix AbsPath
  rw [List.isPrefixOf_iff_prefix]
  constructor
  · rintro ⟨t, rfl⟩; exact ⟨t, rfl⟩
  · rintro ⟨t, rfl⟩; exact ⟨t, rfl⟩

/-- A name of a file or directory. -/
def Name (c : Str) : Prop := c ≠ [] ∧ c ≠ b!"." ∧ c ≠ b!".." ∧ (47 : UInt8) ∉ c

theorem fold_follow : ∀ (cs st : List Str), (∀ c ∈ st, Name c) → (∀ c ∈ cs, (47 : UInt8) ∉ c) →
    Follow st cs (cs.foldl (cleanStep true) st) ∧ ∀ c ∈ cs.foldl (cleanStep true) st, Name c := by
  intro cs
  induction cs with
  | nil => intro st h _; exact ⟨.done, h⟩
  | cons c cs ih =>
    intro st h hc
    have hcs : ∀ c ∈ cs, (47 : UInt8) ∉ c := fun x hx => hc x (by simp [hx])
    rw [List.foldl_cons]
    by_cases h1 : c = [] ∨ c = b!"."
    · have e : cleanStep true st c = st := by rw [cleanStep, if_pos h1]
      rw [e]
      exact ⟨.stay h1 (ih st h hcs).1, (ih st h hcs).2⟩
    by_cases h2 : c = b!".."
    · have e : cleanStep true st c = st.dropLast := by
        rw [cleanStep, if_neg h1, if_pos h2]
        by_cases h3 : st = []
        · rw [if_pos h3, h3]; rfl
        · rw [if_neg h3, if_neg]
          intro h4
          exact (h _ (List.mem_of_getLast? h4)).2.2.1 rfl
      rw [e]
      have h' : ∀ x ∈ st.dropLast, Name x := fun x hx => h x (List.dropLast_subset _ hx)
      subst h2
      exact ⟨.up (ih _ h' hcs).1, (ih _ h' hcs).2⟩
    · have e : cleanStep true st c = st ++ [c] := by rw [cleanStep, if_neg h1, if_neg h2]
      rw [e]
      rw [not_or] at h1
      have h' : ∀ x ∈ st ++ [c], Name x := by
        intro x hx
        rcases List.mem_append.1 hx with hx | hx
        · exact h x hx
        · rw [List.mem_singleton] at hx; subst hx
          exact ⟨h1.1, h1.2, h2, hc x (by simp)⟩
      exact ⟨.down h1.1 h1.2 h2 (ih _ h' hcs).1, (ih _ h' hcs).2⟩

theorem follow_names : ∀ (l st : List Str), (∀ c ∈ l, Name c) → Follow st l (st ++ l) := by
  intro l
  induction l with
  | nil => intro st _; rw [List.append_nil]; exact .done
  | cons c l ih =>
    intro st h
    have hc := h c (by simp)
    have := ih (st ++ [c]) fun x hx => h x (by simp [hx])
    rw [List.append_assoc] at this
    exact .down hc.1 hc.2.1 hc.2.2.1 this

theorem follow_append {a b c : List Str} {s t : List Str} (h : Follow a s b) (h' : Follow b t c) : Follow a (s ++ t) c := by
  induction h with
  | done => exact h'
  | stay h1 _ ih => exact .stay h1 (ih h')
  | up _ ih => exact .up (ih h')
  | down h1 h2 h3 _ ih => exact .down h1 h2 h3 (ih h')

theorem follow_det {d s r r' : List Str} (h : Follow d s r) (h' : Follow d s r') : r = r' := by
  induction h with
  | done => cases h'; rfl
  | stay h1 _ ih =>
    cases h' with
    | stay _ h' => exact ih h'
    | up h' => rcases h1 with h1 | h1 <;> exact absurd h1 (by decide)
    | down h2 h3 _ _ => rcases h1 with h1 | h1 <;> contradiction
  | up _ ih =>
    cases h' with
    | stay h1 _ => rcases h1 with h1 | h1 <;> exact absurd h1 (by decide)
    | up h' => exact ih h'
    | down _ _ h3 _ => exact absurd rfl h3
  | down h1 h2 h3 _ ih =>
    cases h' with
    | stay h4 _ => rcases h4 with h4 | h4 <;> contradiction
    | up _ => exact absurd rfl h3
    | down _ _ _ h' => exact ih h'

theorem follow_total : ∀ (s d : List Str), ∃ r, Follow d s r := by
  intro s
  induction s with
  | nil => intro d; exact ⟨d, .done⟩
  | cons c s ih =>
    intro d
    by_cases h1 : c = [] ∨ c = b!"."
    · obtain ⟨r, hr⟩ := ih d; exact ⟨r, .stay h1 hr⟩
    by_cases h2 : c = b!".."
    · obtain ⟨r, hr⟩ := ih d.dropLast; subst h2; exact ⟨r, .up hr⟩
    · rw [not_or] at h1
      obtain ⟨r, hr⟩ := ih (d ++ [c]); exact ⟨r, .down h1.1 h1.2 h2 hr⟩

theorem clean_abs {p : Str} (h : AbsPath p) : ∃ d, LeadsTo p d ∧ LeadsTo (clean p) d := by
  obtain ⟨h1, h2⟩ := fold_follow (Str.split 47 p) [] (by simp) (Str.mem_split_no_sep 47 p)
  refine ⟨_, ⟨h, h1⟩, ?_⟩
  have hc : clean p = 47 :: Str.join 47 ((Str.split 47 p).foldl (cleanStep true) []) := by
    have := isAbs_iff.2 h
    simp only [clean, this, if_true]
  rw [hc]
  generalize (Str.split 47 p).foldl (cleanStep true) [] = l at h2
  refine ⟨⟨_, rfl⟩, ?_⟩
  have hs : ∀ t, Str.split 47 (47 :: t) = [] :: Str.split 47 t := by intro t; simp [Str.split]
  rw [hs]
  refine .stay (Or.inl rfl) ?_
  cases l with
  | nil => exact .stay (Or.inl rfl) .done
  | cons a l =>
    rw [Str.split_join 47 (a :: l) (by simp) (fun x hx => (h2 x hx).2.2.2)]
    exact follow_names _ [] h2

theorem split_append (a b : Str) : Str.split 47 (a ++ 47 :: b) = Str.split 47 a ++ Str.split 47 b := by
  induction a with
  | nil => simp [Str.split]
  | cons c t ih =>
    rw [List.cons_append, Str.split, Str.split]
    split
    · rw [ih]; rfl
    · rw [ih]
      obtain ⟨x, l, hx⟩ := List.exists_cons_of_ne_nil (Str.split_ne_nil 47 t)
      rw [hx]; rfl

theorem toAbsPath_abs {p base : Str} (h : AbsPath base) : AbsPath (toAbsPath p base) := by
  unfold toAbsPath
  split
  · rename_i hp; exact isAbs_iff.1 hp
  · obtain ⟨t, rfl⟩ := h
    rw [join2, if_pos (by simp)]
    exact (clean_abs ⟨t ++ 47 :: p, rfl⟩).choose_spec.2.1

theorem toAbsPath_means {p base : Str} (h : AbsPath base) : ∃ d, MeansIn base p d ∧ LeadsTo (toAbsPath p base) d := by
  by_cases hp : AbsPath p
  · obtain ⟨d, hd, _⟩ := clean_abs hp
    refine ⟨d, Or.inl ⟨hp, hd⟩, ?_⟩
    rw [toAbsPath, if_pos (isAbs_iff.2 hp)]
    exact hd
  · obtain ⟨t, rfl⟩ := h
    have hab : AbsPath (47 :: t ++ 47 :: p) := ⟨t ++ 47 :: p, rfl⟩
    obtain ⟨d, h1, h2⟩ := clean_abs hab
    obtain ⟨b, hb, _⟩ := clean_abs (p := 47 :: t) ⟨t, rfl⟩
    obtain ⟨r, hr⟩ := follow_total (Str.split 47 p) b
    have h3 := follow_append hb.2 hr
    rw [← split_append] at h3
    rw [follow_det h3 h1.2] at hr
    refine ⟨d, Or.inr ⟨hp, b, hb, hr⟩, ?_⟩
    rw [toAbsPath, if_neg (fun e => hp (isAbs_iff.1 e)), join2, if_pos (by simp)]
    exact h2

theorem upToSlash_spec {a b : Str} (h : (47 : UInt8) ∉ b) : upToSlash (a ++ 47 :: b) = a ++ [47] := by
  unfold upToSlash
  rw [List.reverse_append, List.reverse_cons, List.append_assoc]
  have : ∀ (l r : Str), (47 : UInt8) ∉ l → (l ++ ([47] ++ r)).dropWhile (fun x => decide (x ≠ 47)) = 47 :: r := by
    intro l
    induction l with
    | nil => intro r _; simp [List.dropWhile]
    | cons c l ih =>
      intro r hl
      simp only [List.mem_cons, not_or] at hl
      rw [List.cons_append, List.dropWhile_cons, if_pos (by simpa using fun e => hl.1 e.symm)]
      exact ih r hl.2
  rw [this _ _ (by rw [List.mem_reverse]; exact h)]
  simp

/-- The directory of a file. -/
theorem dirOf_spec {p : Str} (h : AbsPath p) : ∃ a b, p = a ++ 47 :: b ∧ (47 : UInt8) ∉ b ∧
    ∃ d, LeadsTo (a ++ [47]) d ∧ LeadsTo (dirOf p) d := by
  have hsp : ∀ s : Str, (47 : UInt8) ∈ s → ∃ a b, s = a ++ 47 :: b ∧ (47 : UInt8) ∉ b := by
    intro s
    induction s with
    | nil => intro h; cases h
    | cons c t ih =>
      intro hm
      by_cases ht : (47 : UInt8) ∈ t
      · obtain ⟨a, b, rfl, hb⟩ := ih ht; exact ⟨c :: a, b, rfl, hb⟩
      · rcases List.mem_cons.1 hm with rfl | hm
        · exact ⟨[], t, rfl, ht⟩
        · exact absurd hm ht
  obtain ⟨t, ht⟩ := h
  obtain ⟨a, b, rfl, hb⟩ := hsp p (by rw [ht]; simp)
  refine ⟨a, b, rfl, hb, ?_⟩
  unfold dirOf
  rw [upToSlash_spec hb]
  apply clean_abs
  cases a with
  | nil => exact ⟨[], rfl⟩
  | cons c a => injection ht with h1 h2; exact ⟨a ++ [47], by rw [h1]; rfl⟩

theorem dirOf_abs {p : Str} (h : AbsPath p) : AbsPath (dirOf p) := by
  obtain ⟨_, _, _, _, d, _, hd⟩ := dirOf_spec h
  exact hd.1

/-! ### Relative paths -/

/-- What is kept of a relative path. -/
def Kept (st : List Str) : Prop := ∀ c ∈ st, c = b!".." ∨ Name c

theorem follow_snoc {d st x : List Str} {c : Str} (h : Follow d (st ++ [c]) x) : ∃ z, Follow d st z ∧ Follow z [c] x := by
  obtain ⟨z, hz⟩ := follow_total st d
  obtain ⟨y, hy⟩ := follow_total [c] z
  have := follow_det (follow_append hz hy) h
  subst this
  exact ⟨z, hz, hy⟩

theorem step_rel {st : List Str} {c : Str} (h : Kept st) (hc : (47 : UInt8) ∉ c) : Kept (cleanStep false st c) ∧
    ∀ d x y, Follow d st x → Follow x [c] y → Follow d (cleanStep false st c) y := by
  unfold cleanStep
  split
  · rename_i h1
    refine ⟨h, fun d x y hx hy => ?_⟩
    cases follow_det hy (.stay h1 .done)
    exact hx
  · rename_i h1
    split
    · rename_i h2
      split
      · rename_i h3
        subst h3 h2
        refine ⟨fun c hc => .inl (by simpa using hc), fun d x y hx hy => ?_⟩
        cases hx
        exact hy
      · rename_i h3
        split
        · subst h2
          refine ⟨fun c hc => ?_, fun d x y hx hy => follow_append hx hy⟩
          rcases List.mem_append.1 hc with hc | hc
          · exact h c hc
          · exact .inl (by simpa using hc)
        · rename_i h4
          refine ⟨fun c hc => h c (List.dropLast_subset _ hc), fun d x y hx hy => ?_⟩
          have hl : st.getLast? = some (st.getLast h3) := List.getLast?_eq_some_getLast h3
          have hn : Name (st.getLast h3) := by
            rcases h _ (List.getLast_mem h3) with e | hn
            · rw [hl, e] at h4; exact absurd rfl h4
            · exact hn
          rw [← List.dropLast_concat_getLast h3] at hx
          obtain ⟨z, hz, hzx⟩ := follow_snoc hx
          cases follow_det hzx (.down hn.1 hn.2.1 hn.2.2.1 .done)
          subst h2
          cases follow_det hy (.up .done)
          rw [List.dropLast_concat]
          exact hz
    · rename_i h2
      rw [not_or] at h1
      refine ⟨fun x hx => ?_, fun d x y hx hy => follow_append hx hy⟩
      rcases List.mem_append.1 hx with hx | hx
      · exact h x hx
      · rw [List.mem_singleton] at hx; subst hx; exact .inr ⟨h1.1, h1.2, h2, hc⟩

theorem fold_rel : ∀ (cs st : List Str), Kept st → (∀ c ∈ cs, (47 : UInt8) ∉ c) → Kept (cs.foldl (cleanStep false) st) ∧
    ∀ d x y, Follow d st x → Follow x cs y → Follow d (cs.foldl (cleanStep false) st) y := by
  intro cs
  induction cs with
  | nil => intro st h _; exact ⟨h, fun d x y hx hy => by cases hy; exact hx⟩
  | cons c cs ih =>
    intro st h hc
    rw [List.foldl_cons]
    obtain ⟨h1, h2⟩ := step_rel h (hc c (by simp))
    obtain ⟨h3, h4⟩ := ih _ h1 fun x hx => hc x (by simp [hx])
    refine ⟨h3, fun d x y hx hy => ?_⟩
    obtain ⟨z, hz⟩ := follow_total [c] x
    obtain ⟨w, hw⟩ := follow_total cs z
    cases follow_det hy (follow_append hz hw)
    exact h4 d z _ (h2 d x z hx hz) hw

theorem abs_of_split {p : Str} (h : AbsPath p) : ∃ t, Str.split 47 p = [] :: t ∧ p ≠ [] := by
  obtain ⟨t, rfl⟩ := h
  exact ⟨Str.split 47 t, by simp [Str.split], by simp⟩

theorem clean_reaches {d : List Str} {p : Str} {r : List Str} (h : Reaches d p r) : Reaches d (clean p) r := by
  rcases h with ⟨ha, h⟩ | ⟨ha, h⟩
  · obtain ⟨e, h1, h2⟩ := clean_abs ha
    cases follow_det h.2 h1.2
    exact .inl ⟨h2.1, h2⟩
  · have hb : isAbs p = false := by
      cases hb : isAbs p with
      | false => rfl
      | true => exact absurd (isAbs_iff.1 hb) ha
    obtain ⟨h1, h2⟩ := fold_rel (Str.split 47 p) [] (by intro c hc; cases hc) (Str.mem_split_no_sep 47 p)
    have h3 := h2 d d r .done h
    have hc : clean p = if (Str.split 47 p).foldl (cleanStep false) [] = [] then b!"." else
        Str.join 47 ((Str.split 47 p).foldl (cleanStep false) []) := by
      unfold clean
      simp only [hb]
      rfl
    rw [hc]
    generalize (Str.split 47 p).foldl (cleanStep false) [] = l at h1 h3
    cases l with
    | nil =>
      cases h3
      refine .inr ⟨?_, .stay (.inr rfl) .done⟩
      rintro ⟨t, ht⟩; cases ht
    | cons a l =>
      rw [if_neg (by simp)]
      have hns : ∀ x ∈ a :: l, (47 : UInt8) ∉ x := by
        intro x hx
        rcases h1 x hx with e | e
        · rw [e]; decide
        · exact e.2.2.2
      have hs := Str.split_join 47 (a :: l) (by simp) hns
      refine .inr ⟨?_, by rw [hs]; exact h3⟩
      intro hab
      obtain ⟨t, ht, _⟩ := abs_of_split hab
      rw [hs] at ht
      injection ht with e1 e2
      rcases h1 a (by simp) with e | e
      · rw [e] at e1; cases e1
      · exact e.1 e1

theorem clean_ne_nil (p : Str) : clean p ≠ [] := by
  intro h
  have h1 : ¬ AbsPath (clean p) := by rw [h]; rintro ⟨t, ht⟩; cases ht
  by_cases ha : AbsPath p
  · obtain ⟨e, _, h2⟩ := clean_abs ha
    exact h1 h2.1
  · have hb : isAbs p = false := by
      cases hb : isAbs p with
      | false => rfl
      | true => exact absurd (isAbs_iff.1 hb) ha
    obtain ⟨h2, _⟩ := fold_rel (Str.split 47 p) [] (by intro c hc; cases hc) (Str.mem_split_no_sep 47 p)
    unfold clean at h
    simp only [hb] at h
    generalize (Str.split 47 p).foldl (cleanStep false) [] = l at h h2
    cases l with
    | nil => cases h
    | cons a l =>
      have ha : a ≠ [] := by
        rcases h2 a (by simp) with e | e
        · rw [e]; decide
        · exact e.1
      cases l with
      | nil => exact ha (by simpa [Str.join] using h)
      | cons b l => simp [Str.join] at h

theorem reaches_append {d : List Str} {a b : Str} {x r : List Str} (hne : a ≠ []) (ha : Reaches d a x) (hb : Follow x (Str.split 47 b) r) :
    Reaches d (a ++ 47 :: b) r := by
  rcases ha with ⟨h1, h2⟩ | ⟨h1, h2⟩
  · refine .inl ?_
    obtain ⟨t, rfl⟩ := h1
    refine ⟨⟨t ++ 47 :: b, rfl⟩, ⟨t ++ 47 :: b, rfl⟩, ?_⟩
    rw [split_append]
    exact follow_append h2.2 hb
  · refine .inr ⟨?_, by rw [split_append]; exact follow_append h2 hb⟩
    rintro ⟨t, ht⟩
    cases a with
    | nil => exact hne rfl
    | cons c a => injection ht with e _; subst e; exact h1 ⟨a, rfl⟩

theorem toAbsPath_reaches {d : List Str} {p base : Str} {x r : List Str} (hne : base ≠ []) (hb : Reaches d base x) (hp : Reaches x p r) :
    Reaches d (toAbsPath p base) r := by
  unfold toAbsPath
  rcases hp with ⟨h1, h2⟩ | ⟨h1, h2⟩
  · rw [if_pos (isAbs_iff.2 h1)]; exact .inl ⟨h1, h2⟩
  · rw [if_neg (fun e => h1 (isAbs_iff.1 e)), join2, if_pos hne]
    exact clean_reaches (reaches_append hne hb h2)

theorem dirOf_reaches {d : List Str} {file : Str} {x : List Str} (h : DirReaches d file x) : Reaches d (dirOf file) x := by
  unfold dirOf
  apply clean_reaches
  rcases h with ⟨a, b, rfl, hb, h⟩ | ⟨h, rfl⟩
  · rw [upToSlash_spec hb]; exact h
  · have : upToSlash file = [] := by
      unfold upToSlash
      have : ∀ l : Str, (47 : UInt8) ∉ l → l.dropWhile (fun x => decide (x ≠ 47)) = [] := by
        intro l
        induction l with
        | nil => intro _; rfl
        | cons c l ih =>
          intro hl
          simp only [List.mem_cons, not_or] at hl
          rw [List.dropWhile_cons, if_pos (by simpa using fun e => hl.1 e.symm)]
          exact ih hl.2
      rw [this _ (by simpa using h)]; rfl
    rw [this]
    refine .inr ⟨?_, .stay (.inl rfl) .done⟩
    rintro ⟨t, ht⟩; cases ht

/-! ### Level names -/

theorem decode1_ascii {s : Str} {n w : Nat} (h : Route.decode1 s = some (n, w)) (hn : n < 128) :
    ∃ a t, s = a :: t ∧ w = 1 ∧ n = a.toNat := by
  cases s with
  | nil => cases h
  | cons a t =>
    unfold Route.decode1 at h
    simp only at h
    by_cases h1 : a.toNat < 0x80
    · rw [if_pos h1] at h; simp at h; exact ⟨a, t, rfl, h.2.symm, h.1.symm⟩
    rw [if_neg h1] at h
    exfalso
    split at h
    · split at h
      · split at h
        · rename_i hc; simp at h; omega
        · cases h
      · cases h
    · split at h
      · split at h
        · split at h
          · rename_i hc; simp at h; omega
          · cases h
        · cases h
      · split at h
        · split at h
          · split at h
            · rename_i hc; simp at h; omega
            · cases h
          · cases h
        · cases h

theorem decode1_130 {s : Str} {w : Nat} (h : Route.decode1 s = some (0x130, w)) :
    ∃ t, s = 0xC4 :: 0xB0 :: t ∧ w = 2 := by
  cases s with
  | nil => cases h
  | cons a t =>
    unfold Route.decode1 at h
    simp only at h
    by_cases h1 : a.toNat < 0x80
    · rw [if_pos h1] at h; simp at h; omega
    rw [if_neg h1] at h
    split at h
    · split at h
      · rename_i b t'
        split at h
        · rename_i hr hc
          simp only [Option.some.injEq, Prod.mk.injEq] at h
          have hb : 0x80 ≤ b.toNat ∧ b.toNat ≤ 0xBF := by simpa [Route.cont] using hc.1
          have ha : a.toNat = 0xC4 := by omega
          have hb' : b.toNat = 0xB0 := by omega
          have ea : a = 0xC4 := UInt8.toNat_inj.1 ha
          have eb : b = 0xB0 := UInt8.toNat_inj.1 hb'
          exact ⟨t', by rw [ea, eb], h.2.symm⟩
        · cases h
      · cases h
    · split at h
      · split at h
        · split at h
          · rename_i hc; simp at h; omega
          · cases h
        · cases h
      · split at h
        · split at h
          · split at h
            · rename_i hc; simp at h; omega
            · cases h
          · cases h
        · cases h

def lowerLetter (c : UInt8) : Prop := 97 ≤ c.toNat ∧ c.toNat ≤ 122 ∧ c.toNat ≠ 107

theorem forms_runes {c : UInt8} (hc : lowerLetter c) {f : Str} (h : f ∈ letterForms c) (s : Str) :
    ∃ r, Route.runesGo 0 (f ++ s) = some r :: Route.runesGo 0 s ∧ Route.lowerRune r = c.toNat := by
  have h1 : ∀ a : UInt8, a.toNat < 128 → Route.runesGo 0 ([a] ++ s) = some a.toNat :: Route.runesGo 0 s := by
    intro a ha
    show Route.runesGo 0 (a :: s) = _
    have hd : Route.decode1 (a :: s) = some (a.toNat, 1) := by
      unfold Route.decode1; simp only; rw [if_pos (by omega)]
    rw [Route.runesGo, hd]
  obtain ⟨h97, h122, _⟩ := hc
  have hsub : (c - 32).toNat = c.toNat - 32 := by
    rw [UInt8.toNat_sub_of_le]
    · rfl
    · rw [UInt8.le_iff_toNat_le]; show 32 ≤ _; omega
  have hor : f = [c] ∨ f = [c - 32] ∨ (c = 105 ∧ f = [0xC4, 0xB0]) := by
    unfold letterForms at h
    split at h
    · simp at h; rename_i e; rcases h with h | h | h
      · exact Or.inl h
      · exact Or.inr (Or.inl h)
      · exact Or.inr (Or.inr ⟨e, h⟩)
    · simp at h; rcases h with h | h
      · exact Or.inl h
      · exact Or.inr (Or.inl h)
  rcases hor with rfl | rfl | ⟨rfl, rfl⟩
  · refine ⟨_, h1 c (by omega), ?_⟩
    unfold Route.lowerRune
    rw [if_neg (by omega), if_neg (by omega), if_neg (by omega)]
  · refine ⟨_, h1 _ (by omega), ?_⟩
    unfold Route.lowerRune
    rw [if_pos (by omega)]; omega
  · exact ⟨0x130, rfl, rfl⟩

theorem lowerIs_iff : ∀ (name s : Str), (∀ c ∈ name, lowerLetter c) →
    ((Route.runes s).map Route.lowerRune = Route.ascii name ↔ Spells name s) := by
  intro name
  induction name with
  | nil =>
    intro s _
    constructor
    · intro h
      cases s with
      | nil => exact .nil
      | cons a t =>
        exfalso
        unfold Route.runes Route.runesGo at h
        split at h <;> simp [Route.ascii] at h
    · intro h; cases h; rfl
  | cons c name ih =>
    intro s hn
    have hc := hn c (by simp)
    have ih := fun s => ih s fun x hx => hn x (by simp [hx])
    constructor
    · intro h
      cases s with
      | nil => simp [Route.runes, Route.runesGo, Route.ascii] at h
      | cons a t =>
        unfold Route.runes at h
        rw [Route.runesGo] at h
        cases hd : Route.decode1 (a :: t) with
        | none =>
          rw [hd] at h
          simp only [List.map_cons, Option.getD_none, Route.ascii] at h
          injection h with h1 _
          have : Route.lowerRune 0xFFFD = 0xFFFD := by decide
          obtain ⟨_, h3, _⟩ := hc
          omega
        | some nw =>
          obtain ⟨n, w⟩ := nw
          rw [hd] at h
          simp only [List.map_cons, Option.getD_some, Route.ascii] at h
          injection h with h1 h2
          obtain ⟨h97, h122, h107⟩ := hc
          have hcase : (n < 128 ∧ (n = c.toNat ∨ n + 32 = c.toNat)) ∨ (n = 0x130 ∧ c = 105) := by
            unfold Route.lowerRune at h1
            split at h1
            · left; omega
            · split at h1
              · right; refine ⟨by assumption, UInt8.toNat_inj.1 (by rw [← h1]; rfl)⟩
              · split at h1
                · omega
                · left; omega
          rcases hcase with ⟨hlt, hor⟩ | ⟨rfl, rfl⟩
          · obtain ⟨a', t', e, rfl, rfl⟩ := decode1_ascii hd hlt
            injection e with e1 e2
            subst e1 e2
            have hf : [a] ∈ letterForms c := by
              have : a = c ∨ a = c - 32 := by
                rcases hor with h | h
                · exact Or.inl (UInt8.toNat_inj.1 h)
                · right
                  apply UInt8.toNat_inj.1
                  rw [UInt8.toNat_sub_of_le]
                  · show _ = c.toNat - 32; omega
                  · rw [UInt8.le_iff_toNat_le]; show 32 ≤ _; omega
              unfold letterForms
              rcases this with rfl | rfl
              · split <;> simp
              · split <;> simp
            exact Spells.cons hf ((ih t).1 (by unfold Route.runes; exact h2))
          · obtain ⟨t', e, rfl⟩ := decode1_130 hd
            injection e with e1 e2
            subst e1 e2
            exact Spells.cons (f := [0xC4, 0xB0]) (by decide) ((ih t').1 (by unfold Route.runes; exact h2))
    · intro h
      cases h with
      | cons hf hs =>
        obtain ⟨r, h1, h2⟩ := forms_runes hc hf (s := _)
        unfold Route.runes
        rw [h1]
        simp only [List.map_cons, Option.getD_some, h2, Route.ascii]
        congr 1
        exact (ih _).2 hs

end Oapi.Cli
