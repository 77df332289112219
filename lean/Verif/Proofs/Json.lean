import Verif.Base.Json

/-! Lemmas about maps and canonical documents. -/
namespace Oapi

namespace Str
theorem lt_irrefl (s : Str) : lt s s = false := by
  induction s with
  | nil => rfl
  | cons c t ih => simp [lt, ih]

theorem lt_trans {a b c : Str} : lt a b = true → lt b c = true → lt a c = true := by
  induction a generalizing b c with
  | nil => cases b <;> cases c <;> simp [lt]
  | cons x a ih =>
    cases b with
    | nil => simp [lt]
    | cons y b =>
      cases c with
      | nil => simp [lt]
      | cons z c =>
        simp only [lt]
        intro h1 h2
        by_cases hxy : x < y
        · by_cases hyz : y < z
          · have : x < z := UInt8.lt_trans hxy hyz
            simp [this]
          · simp only [hyz, if_false] at h2
            split at h2
            · rename_i e; subst e; simp [hxy]
            · simp at h2
        · simp only [hxy, if_false] at h1
          split at h1
          · rename_i e; subst e
            by_cases hyz : x < z
            · simp [hyz]
            · simp only [hyz, if_false] at h2 ⊢
              split at h2
              · rename_i e; rw [if_pos e]; exact ih h1 h2
              · simp at h2
          · simp at h1

theorem lt_tri {a b : Str} (h : a ≠ b) (h2 : lt a b = false) : lt b a = true := by
  induction a generalizing b with
  | nil => cases b <;> simp_all [lt]
  | cons x a ih =>
    cases b with
    | nil => simp [lt]
    | cons y b =>
      simp only [lt] at h2 ⊢
      by_cases hxy : x < y
      · simp [hxy] at h2
      · simp only [hxy, if_false] at h2
        by_cases e : x = y
        · subst e
          simp only [if_true] at h2
          simp only [hxy, if_false, if_true]
          exact ih (fun e => h (by rw [e])) h2
        · have : y < x := by
            rcases UInt8.lt_or_lt_of_ne e with h | h
            · exact absurd h hxy
            · exact h
          simp [this]

theorem lt_ne {a b : Str} (h : lt a b = true) : a ≠ b := by
  rintro rfl; rw [lt_irrefl] at h; cases h

theorem lt_asymm {a b : Str} (h : lt a b = true) : lt b a = false := by
  cases h2 : lt b a
  · rfl
  · have := lt_trans h h2; rw [lt_irrefl] at this; exact absurd this (by simp)
end Str

namespace Obj

@[simp] theorem lookup_nil (k : Str) : lookup k [] = none := rfl
@[simp] theorem keys_nil : keys [] = [] := rfl
@[simp] theorem keys_cons (k : Str) (v : Json) (t : Obj) : keys ((k, v) :: t) = k :: keys t := rfl

theorem lookup_cons (k k' : Str) (v : Json) (t : Obj) :
    lookup k ((k', v) :: t) = if k = k' then some v else lookup k t := rfl

@[simp] theorem lookup_insert_self (k : Str) (v : Json) (m : Obj) : lookup k (insert k v m) = some v := by
  induction m with
  | nil => simp [insert, lookup]
  | cons p t ih =>
    obtain ⟨k', v'⟩ := p
    unfold insert
    split
    · simp [lookup]
    · split
      · simp [lookup]
      · simp [lookup, *]

theorem lookup_insert_ne {k k' : Str} (v : Json) (m : Obj) (h : k ≠ k') :
    lookup k (insert k' v m) = lookup k m := by
  induction m with
  | nil => simp [insert, lookup, h]
  | cons p t ih =>
    obtain ⟨k2, v2⟩ := p
    unfold insert
    split
    · rename_i e; subst e; simp [lookup, h]
    · split
      · simp [lookup, h]
      · simp [lookup, ih]

theorem lookup_insert (k k' : Str) (v : Json) (m : Obj) :
    lookup k (insert k' v m) = if k = k' then some v else lookup k m := by
  by_cases h : k = k'
  · subst h; simp
  · simp [h, lookup_insert_ne v m h]

theorem mem_keys_iff (k : Str) (m : Obj) : k ∈ keys m ↔ ∃ v, lookup k m = some v := by
  induction m with
  | nil => simp
  | cons p t ih =>
    obtain ⟨k', v'⟩ := p
    by_cases h : k = k'
    · simp [lookup, h]
    · simp [lookup, h, ih]

theorem lookup_none_iff (k : Str) (m : Obj) : lookup k m = none ↔ k ∉ keys m := by
  rw [mem_keys_iff]; cases lookup k m <;> simp

theorem lookup_mem {k : Str} {v : Json} {m : Obj} (h : lookup k m = some v) : (k, v) ∈ m := by
  induction m with
  | nil => simp at h
  | cons p t ih =>
    obtain ⟨k', v'⟩ := p
    simp only [lookup] at h
    split at h
    · rename_i e; cases h; simp [e]
    · simp [ih h]

theorem mem_keys_insert (k k' : Str) (v : Json) (m : Obj) :
    k ∈ keys (insert k' v m) ↔ k = k' ∨ k ∈ keys m := by
  rw [mem_keys_iff, lookup_insert, mem_keys_iff]
  by_cases h : k = k' <;> simp [h]

theorem insert_sorted (k : Str) (v : Json) (m : Obj) (h : Sorted m) : Sorted (insert k v m) := by
  induction m with
  | nil => simp [insert, Sorted]
  | cons p t ih =>
    obtain ⟨k', v'⟩ := p
    unfold insert
    split
    · rename_i e; subst e; exact h
    · rename_i hne
      split
      · rename_i hlt
        refine ⟨?_, h⟩
        intro x hx
        simp at hx
        rcases hx with rfl | hx
        · exact hlt
        · exact Str.lt_trans hlt (h.1 x hx)
      · rename_i hlt
        refine ⟨?_, ih h.2⟩
        intro x hx
        rw [mem_keys_insert] at hx
        rcases hx with rfl | hx
        · exact Str.lt_tri hne (by simpa using hlt)
        · exact h.1 x hx

theorem sorted_nodup {m : Obj} (h : Sorted m) : (keys m).Nodup := by
  induction m with
  | nil => simp
  | cons p t ih =>
    obtain ⟨k, v⟩ := p
    simp only [keys_cons, List.nodup_cons]
    refine ⟨fun hk => ?_, ih h.2⟩
    exact Str.lt_ne (h.1 k hk) rfl

theorem lookup_of_mem {k : Str} {v : Json} {m : Obj} (hn : (keys m).Nodup) (h : (k, v) ∈ m) :
    lookup k m = some v := by
  induction m with
  | nil => simp at h
  | cons p t ih =>
    obtain ⟨k', v'⟩ := p
    simp only [keys_cons, List.nodup_cons] at hn
    simp only [List.mem_cons, Prod.mk.injEq] at h
    rcases h with ⟨rfl, rfl⟩ | h
    · simp [lookup]
    · have : k ∈ keys t := by
        rw [mem_keys_iff]; exact ⟨v, ih hn.2 h⟩
      have : k ≠ k' := fun e => hn.1 (e ▸ this)
      simp [lookup, this, ih hn.2 h]

/-- Canonical objects with the same bindings are equal. -/
theorem ext_lookup {a b : Obj} (ha : Sorted a) (hb : Sorted b) (h : ∀ k, lookup k a = lookup k b) : a = b := by
  induction a generalizing b with
  | nil =>
    cases b with
    | nil => rfl
    | cons p t => obtain ⟨k, v⟩ := p; have := h k; simp [lookup] at this
  | cons p s ih =>
    obtain ⟨k, v⟩ := p
    cases b with
    | nil => have := h k; simp [lookup] at this
    | cons q t =>
      obtain ⟨k', v'⟩ := q
      have hk : k = k' := by
        apply Classical.byContradiction
        intro hne
        have h1 := h k
        have h2 := h k'
        simp only [lookup, if_pos, hne, if_false] at h1
        simp only [lookup, if_pos, Ne.symm hne, if_false] at h2
        have m1 : k ∈ keys t := (mem_keys_iff k t).2 ⟨v, h1.symm⟩
        have m2 : k' ∈ keys s := (mem_keys_iff k' s).2 ⟨v', h2⟩
        have l1 := hb.1 k m1
        have l2 := ha.1 k' m2
        rw [Str.lt_asymm l1] at l2; cases l2
      subst hk
      have hv : v = v' := by have := h k; simpa [lookup] using this
      subst hv
      congr 1
      apply ih ha.2 hb.2
      intro x
      by_cases hx : x = k
      · subst hx
        have n1 : x ∉ keys s := fun hm => Str.lt_ne (ha.1 x hm) rfl
        have n2 : x ∉ keys t := fun hm => Str.lt_ne (hb.1 x hm) rfl
        rw [(lookup_none_iff x s).2 n1, (lookup_none_iff x t).2 n2]
      · have := h x; simpa [lookup, hx] using this

theorem lookup_erase (k k' : Str) (m : Obj) :
    lookup k (erase k' m) = if k = k' then none else lookup k m := by
  induction m with
  | nil => simp [erase]
  | cons p t ih =>
    obtain ⟨k2, v2⟩ := p
    unfold erase
    by_cases h : k' = k2
    · subst h
      simp only [if_true, ih]
      by_cases h2 : k = k' <;> simp [h2, lookup]
    · simp only [h, if_false, lookup, ih]
      by_cases h2 : k = k2
      · subst h2
        simp [Ne.symm h]
      · simp [h2]

theorem mem_keys_erase (k k' : Str) (m : Obj) : k ∈ keys (erase k' m) ↔ k ≠ k' ∧ k ∈ keys m := by
  rw [mem_keys_iff, lookup_erase, mem_keys_iff]
  by_cases h : k = k' <;> simp [h]

theorem erase_sorted (k : Str) (m : Obj) (h : Sorted m) : Sorted (erase k m) := by
  induction m with
  | nil => exact h
  | cons p t ih =>
    obtain ⟨k2, v2⟩ := p
    unfold erase
    split
    · exact ih h.2
    · refine ⟨fun x hx => h.1 x ((mem_keys_erase _ _ _).1 hx).2, ih h.2⟩

theorem ofList_sorted (l : List (Str × Json)) : Sorted (ofList l) := by
  induction l with
  | nil => simp [ofList, Sorted]
  | cons p t ih =>
    obtain ⟨k, v⟩ := p
    unfold ofList; split
    · exact ih
    · exact insert_sorted _ _ _ ih

theorem lookup_ofList {l : List (Str × Json)} (h : (keys l).Nodup) (k : Str) :
    lookup k (ofList l) = lookup k l := by
  induction l with
  | nil => rfl
  | cons p t ih =>
    obtain ⟨k', v⟩ := p
    simp only [keys_cons, List.nodup_cons] at h
    unfold ofList
    rw [if_neg h.1, lookup_insert, lookup, ih h.2]

theorem keys_perm {a b : Obj} (h : a.Perm b) : (keys a).Perm (keys b) := h.map _

theorem lookup_perm {a b : Obj} (h : a.Perm b) (hn : (keys a).Nodup) (k : Str) : lookup k a = lookup k b := by
  have hn' : (keys b).Nodup := (keys_perm h).nodup_iff.1 hn
  cases hb : lookup k b with
  | none =>
    rw [lookup_none_iff] at hb ⊢
    exact fun hm => hb ((keys_perm h).mem_iff.1 hm)
  | some v => exact lookup_of_mem hn (h.mem_iff.2 (lookup_mem hb))

theorem ofList_eq_self {m : Obj} (h : Sorted m) : ofList m = m :=
  ext_lookup (ofList_sorted m) h (lookup_ofList (sorted_nodup h))

end Obj

namespace Json

theorem WFL_iff (xs : List Json) : WFL xs ↔ ∀ x ∈ xs, WF x := by
  induction xs with
  | nil => simp [WFL]
  | cons x t ih => simp [WFL, ih]

theorem WFO_iff (m : Obj) : WFO m ↔ ∀ p ∈ m, WF p.2 := by
  induction m with
  | nil => simp [WFO]
  | cons p t ih => obtain ⟨k, v⟩ := p; simp [WFO, ih]

@[simp] theorem WF_obj (m : Obj) : WF (.obj m) ↔ Obj.Sorted m ∧ WFO m := by simp [WF]
@[simp] theorem WF_arr (xs : List Json) : WF (.arr xs) ↔ WFL xs := by simp [WF]
@[simp] theorem WF_null : WF .null := by simp [WF]
@[simp] theorem WF_bool (b : Bool) : WF (.bool b) := by simp [WF]
@[simp] theorem WF_num (n : Int) : WF (.num n) := by simp [WF]
@[simp] theorem WF_str (s : Str) : WF (.str s) := by simp [WF]
@[simp] theorem WFO_nil : WFO [] := by simp [WFO]

theorem WFO_insert {m : Obj} {v : Json} (k : Str) (h : WFO m) (hv : WF v) : WFO (Obj.insert k v m) := by
  induction m with
  | nil => simp [Obj.insert, WFO, hv]
  | cons p t ih =>
    obtain ⟨k', v'⟩ := p
    simp only [WFO] at h
    unfold Obj.insert
    split
    · exact ⟨hv, h.2⟩
    · split
      · exact ⟨hv, h⟩
      · exact ⟨h.1, ih h.2⟩

theorem WF_insert {m : Obj} {v : Json} (k : Str) (h : WF (.obj m)) (hv : WF v) : WF (.obj (Obj.insert k v m)) := by
  rw [WF_obj] at h ⊢
  exact ⟨Obj.insert_sorted _ _ _ h.1, WFO_insert k h.2 hv⟩

theorem WFO_lookup {m : Obj} (h : WFO m) {k : Str} {v : Json} (hl : Obj.lookup k m = some v) : WF v :=
  (WFO_iff m).1 h _ (Obj.lookup_mem hl)

theorem WF_lookup {m : Obj} (h : WF (.obj m)) {k : Str} {v : Json} (hl : Obj.lookup k m = some v) : WF v :=
  WFO_lookup ((WF_obj m).1 h).2 hl

theorem keys_canonO (m : Obj) : Obj.keys (canonO m) = Obj.keys m := by
  induction m with
  | nil => rfl
  | cons p t ih => obtain ⟨k, v⟩ := p; simp [canonO, ih]

theorem lookup_canonO (k : Str) (m : Obj) : Obj.lookup k (canonO m) = (Obj.lookup k m).map canon := by
  induction m with
  | nil => rfl
  | cons p t ih =>
    obtain ⟨k', v⟩ := p
    simp only [canonO, Obj.lookup, ih]
    split <;> simp

theorem WFO_ofList {l : Obj} (h : WFO l) : WFO (Obj.ofList l) := by
  induction l with
  | nil => simp [Obj.ofList]
  | cons p t ih =>
    obtain ⟨k, v⟩ := p
    simp only [WFO] at h
    unfold Obj.ofList; split
    · exact ih h.2
    · exact WFO_insert k (ih h.2) h.1

mutual
theorem canon_WF (j : Json) : WF (canon j) := by
  match j with
  | .null | .bool _ | .num _ | .str _ => simp [canon]
  | .arr xs => simp only [canon, WF_arr]; exact canonL_WF xs
  | .obj kvs => simp only [canon, WF_obj]; exact ⟨Obj.ofList_sorted _, WFO_ofList (canonO_WF kvs)⟩
termination_by structural j
theorem canonL_WF (xs : List Json) : WFL (canonL xs) := by
  match xs with
  | [] => simp [canonL, WFL]
  | x :: t => exact ⟨canon_WF x, canonL_WF t⟩
termination_by structural xs
theorem canonO_WF (kvs : List (Str × Json)) : WFO (canonO kvs) := by
  match kvs with
  | [] => simp [canonO]
  | (k, v) :: t => exact ⟨canon_WF v, canonO_WF t⟩
termination_by structural kvs
end

mutual
theorem canon_of_WF (j : Json) (h : WF j) : canon j = j := by
  match j with
  | .null | .bool _ | .num _ | .str _ => simp [canon]
  | .arr xs => simp only [canon]; rw [canonL_of_WF xs ((WF_arr xs).1 h)]
  | .obj kvs =>
    have h := (WF_obj kvs).1 h
    simp only [canon]; rw [canonO_of_WF kvs h.2, Obj.ofList_eq_self h.1]
termination_by structural j
theorem canonL_of_WF (xs : List Json) (h : WFL xs) : canonL xs = xs := by
  match xs with
  | [] => simp [canonL]
  | x :: t => simp only [canonL]; rw [canon_of_WF x h.1, canonL_of_WF t h.2]
termination_by structural xs
theorem canonO_of_WF (kvs : List (Str × Json)) (h : WFO kvs) : canonO kvs = kvs := by
  match kvs with
  | [] => simp [canonO]
  | (k, v) :: t => simp only [canonO]; rw [canon_of_WF v h.1, canonO_of_WF t h.2]
termination_by structural kvs
end

end Json
end Oapi
