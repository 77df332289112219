import Verif.Base.Str

/-! Lemmas about byte strings. -/
namespace Oapi.Str

theorem split_ne_nil (sep : UInt8) (s : Str) : split sep s ≠ [] := by
  induction s with
  | nil => simp [split]
  | cons c t ih =>
    unfold split; split
    · simp
    · split <;> simp

theorem split_no_sep (sep : UInt8) (s : Str) (h : sep ∉ s) : split sep s = [s] := by
  induction s with
  | nil => rfl
  | cons c t ih =>
    have hc : c ≠ sep := fun e => h (by simp [e])
    have ht : sep ∉ t := fun e => h (by simp [e])
    simp [split, hc, ih ht]

theorem split_append_sep (sep : UInt8) (a s : Str) (h : sep ∉ a) :
    split sep (a ++ sep :: s) = a :: split sep s := by
  induction a with
  | nil => simp [split]
  | cons c t ih =>
    have hc : c ≠ sep := fun e => h (by simp [e])
    have ht : sep ∉ t := fun e => h (by simp [e])
    simp [split, hc, ih ht]

theorem split_join (sep : UInt8) (xs : List Str) (hne : xs ≠ []) (h : ∀ x ∈ xs, sep ∉ x) :
    split sep (join sep xs) = xs := by
  induction xs with
  | nil => contradiction
  | cons x r ih =>
    cases r with
    | nil => simp [join, split_no_sep sep x (h x (by simp))]
    | cons y r =>
      rw [join, split_append_sep sep x _ (h x (by simp)), ih (by simp) (fun z hz => h z (by simp_all))]

theorem join_split (sep : UInt8) (s : Str) : join sep (split sep s) = s := by
  induction s with
  | nil => rfl
  | cons c t ih =>
    unfold split
    split
    · rename_i h
      cases hs : split sep t with
      | nil => exact absurd hs (split_ne_nil sep t)
      | cons y r => rw [join, ← hs, ih, h]; rfl
    · cases hs : split sep t with
      | nil => exact absurd hs (split_ne_nil sep t)
      | cons y r =>
        rw [hs] at ih
        cases r with
        | nil => simp only [join] at *; rw [ih]
        | cons z r => simp only [join] at *; rw [← ih]; rfl

theorem mem_split_no_sep (sep : UInt8) (s : Str) : ∀ x ∈ split sep s, sep ∉ x := by
  induction s with
  | nil => simp [split]
  | cons c t ih =>
    unfold split
    split
    · simp_all
    · cases hs : split sep t with
      | nil => exact absurd hs (split_ne_nil sep t)
      | cons y r =>
        rw [hs] at ih
        intro x hx
        simp at hx ih
        rcases hx with rfl | hx
        · simp; exact ⟨fun e => by simp_all, ih.1⟩
        · exact ih.2 x hx

/-- Replacing a one-byte pattern is a concatenation of per-byte images. -/
theorem replaceAll_byte (b : UInt8) (new s : Str) :
    replaceAll s [b] new = s.flatMap fun c => if c = b then new else [c] := by
  unfold replaceAll
  induction s with
  | nil => rfl
  | cons c t ih =>
    unfold replaceGo hasPrefix
    by_cases h : c = b
    · subst h; simpa using ih
    · simp [h, Ne.symm h, ih]

end Oapi.Str
