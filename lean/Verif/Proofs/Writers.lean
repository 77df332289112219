import Verif.Model.Writers

/-! Proofs about several writers: one invariant for all executions. -/
namespace Oapi.Writers
open Process (overwrite)

/-- Process `i` has opened file `k`. -/
def Opened (s : State) (i k : Nat) : Prop := (∃ n, s.pc i = .copying k n) ∨ s.pc i = .done k

/-- The invariant; `old` is what was there at the start. -/
structure Inv (text : Nat → Str) (old : Option Str) (s : State) : Prop where
  base : old.toList.length ≤ s.store.length
  kept : ∀ k, k < old.toList.length → s.store[k]? = old.toList[k]?
  copying : ∀ i k n, s.pc i = .copying k n → old.toList.length ≤ k ∧ ∃ c, s.store[k]? = some c ∧ n ≤ c.length
  done : ∀ i k, s.pc i = .done k → old.toList.length ≤ k ∧ ∃ c, s.store[k]? = some c ∧ (text i).length ≤ c.length
  bytes : ∀ (k : Nat) (c : Str), old.toList.length ≤ k → s.store[k]? = some c → ∀ (j : Nat) (b : UInt8), c[j]? = some b → ∃ i, Opened s i k ∧ (text i)[j]? = some b
  opener : ∀ k, old.toList.length ≤ k → k < s.store.length → ∃ i, Opened s i k
  named : ∀ k, s.name = some k → k < s.store.length ∧ (old.toList.length ≤ k ∨ ∀ i, s.pc i = .ready)
  unnamed : s.name = none → (old = none ∧ ∀ i, s.pc i = .ready) ∨ ∃ i, s.pc i = .removed

variable {text : Nat → Str} {old : Option Str} {s s' : State}

theorem inv_start : Inv text old (start old) := by
  refine ⟨Nat.le_refl _, fun _ _ => rfl, ?_, ?_, ?_, ?_, ?_, ?_⟩
  · intro i k n h; cases h
  · intro i k h; cases h
  · intro k c hk h
    have : (start old).store[k]? = none := List.getElem?_eq_none hk
    rw [this] at h; cases h
  · intro k hk h; exact absurd h (Nat.not_lt.2 hk)
  · intro k h
    cases old with
    | none => cases h
    | some c => cases h; exact ⟨Nat.zero_lt_one, .inr fun _ => rfl⟩
  · intro h
    cases old with
    | none => exact .inl ⟨rfl, fun _ => rfl⟩
    | some c => cases h

theorem update_same {α : Type} {f : Nat → α} {i : Nat} {a : α} : update f i a i = a := by simp [update]
theorem update_ne {α : Type} {f : Nat → α} {i j : Nat} {a : α} (h : j ≠ i) : update f i a j = f j := by simp [update, h]

theorem overwrite_length {c : Str} {n : Nat} {b : UInt8} (h : n ≤ c.length) : (overwrite c n b).length = max c.length (n + 1) := by
  simp [overwrite]; omega

theorem overwrite_get {c : Str} {n : Nat} {b : UInt8} (h : n ≤ c.length) (j : Nat) : (overwrite c n b)[j]? = if j = n then some b else c[j]? := by
  unfold overwrite
  have hl : (c.take n).length = n := by simp; omega
  by_cases h1 : j < n
  · rw [List.getElem?_append_left (by omega), if_neg (by omega), List.getElem?_take_of_lt h1]
  · rw [List.getElem?_append_right (by omega), hl]
    by_cases h2 : j = n
    · subst h2; simp
    · rw [if_neg h2]
      obtain ⟨d, hd⟩ : ∃ d, j - n = d + 1 := ⟨j - n - 1, by omega⟩
      rw [hd, List.getElem?_cons_succ, List.getElem?_drop]
      congr 1; omega

theorem inv_step {i : Nat} (h : Inv text old s) (hs : Step text i s s') : Inv text old s' := by
  cases hs with
  | stop => exact ⟨h.base, h.kept, h.copying, h.done, h.bytes, h.opener, h.named, h.unnamed⟩
  | remove _ hp =>
    have key : ∀ j k, Opened s j k → Opened { s with name := none, pc := update s.pc i .removed } j k := by
      intro j k ho
      have : j ≠ i := by rintro rfl; rcases ho with ⟨n, e⟩ | e <;> rw [hp] at e <;> cases e
      unfold Opened; simp only [update_ne this]; exact ho
    refine ⟨h.base, h.kept, ?_, ?_, ?_, ?_, ?_, ?_⟩
    · intro j k n e
      by_cases hj : j = i
      · subst hj; simp only [update_same] at e; cases e
      · simp only [update_ne hj] at e; exact h.copying j k n e
    · intro j k e
      by_cases hj : j = i
      · subst hj; simp only [update_same] at e; cases e
      · simp only [update_ne hj] at e; exact h.done j k e
    · intro k c hk hc j b hb
      obtain ⟨x, hx, hb⟩ := h.bytes k c hk hc j b hb
      exact ⟨x, key x k hx, hb⟩
    · intro k hk hl
      obtain ⟨x, hx⟩ := h.opener k hk hl
      exact ⟨x, key x k hx⟩
    · intro k e; cases e
    · intro _; exact .inr ⟨i, update_same⟩
  | @finish k₀ n₀ _ hp hn =>
    have key : ∀ j k, Opened s j k → Opened { s with pc := update s.pc i (.done k₀) } j k := by
      intro j k ho
      unfold Opened
      by_cases hj : j = i
      · subst hj
        rcases ho with ⟨n, e⟩ | e <;> rw [hp] at e <;> cases e
        exact .inr update_same
      · simp only [update_ne hj]; exact ho
    refine ⟨h.base, h.kept, ?_, ?_, ?_, ?_, ?_, ?_⟩
    · intro j k n e
      by_cases hj : j = i
      · subst hj; simp only [update_same] at e; cases e
      · simp only [update_ne hj] at e; exact h.copying j k n e
    · intro j k e
      by_cases hj : j = i
      · subst hj; simp only [update_same] at e; cases e
        obtain ⟨h1, c, h2, h3⟩ := h.copying _ _ _ hp
        exact ⟨h1, c, h2, by omega⟩
      · simp only [update_ne hj] at e; exact h.done j k e
    · intro k c hk hc j b hb
      obtain ⟨x, hx, hb⟩ := h.bytes k c hk hc j b hb
      exact ⟨x, key x k hx, hb⟩
    · intro k hk hl
      obtain ⟨x, hx⟩ := h.opener k hk hl
      exact ⟨x, key x k hx⟩
    · intro k e
      obtain ⟨h1, h2⟩ := h.named k e
      refine ⟨h1, h2.imp id fun hr => ?_⟩
      rw [hr i] at hp; cases hp
    · intro e
      rcases h.unnamed e with ⟨_, hr⟩ | ⟨x, hx⟩
      · rw [hr i] at hp; cases hp
      · refine .inr ⟨x, ?_⟩
        have : x ≠ i := by rintro rfl; rw [hp] at hx; cases hx
        simp only [update_ne this]; exact hx
  | @write k₀ n₀ c₀ b₀ _ hp hc hb =>
    obtain ⟨hk₀, c₁, hc₁, hn₀⟩ := h.copying _ _ _ hp
    rw [hc] at hc₁; cases hc₁
    have hlt : k₀ < s.store.length := (List.getElem?_eq_some_iff.1 hc).1
    have get : ∀ k, (s.store.set k₀ (overwrite c₀ n₀ b₀))[k]? = if k = k₀ then some (overwrite c₀ n₀ b₀) else s.store[k]? := by
      intro k
      by_cases e : k = k₀
      · subst e; simp [hlt]
      · rw [if_neg e, List.getElem?_set_ne (fun x => e x.symm)]
    have hlen := overwrite_length (b := b₀) hn₀
    have grow : ∀ (k : Nat) (c : Str), s.store[k]? = some c → ∃ c' : Str, (s.store.set k₀ (overwrite c₀ n₀ b₀))[k]? = some c' ∧ c.length ≤ c'.length := by
      intro k c e
      rw [get]
      by_cases e' : k = k₀
      · subst e'; rw [hc] at e; cases e; rw [if_pos rfl]; exact ⟨_, rfl, by omega⟩
      · rw [if_neg e']; exact ⟨c, e, Nat.le_refl _⟩
    have key : ∀ j k, Opened s j k →
        Opened { s with store := s.store.set k₀ (overwrite c₀ n₀ b₀), pc := update s.pc i (.copying k₀ (n₀ + 1)) } j k := by
      intro j k ho
      unfold Opened
      by_cases hj : j = i
      · subst hj
        rcases ho with ⟨n, e⟩ | e <;> rw [hp] at e <;> cases e
        exact .inl ⟨_, update_same⟩
      · simp only [update_ne hj]; exact ho
    refine ⟨by simpa using h.base, ?_, ?_, ?_, ?_, ?_, ?_, ?_⟩
    · intro k hk
      dsimp only
      rw [get, if_neg (by omega)]; exact h.kept k hk
    · intro j k n e
      by_cases hj : j = i
      · subst hj; simp only [update_same] at e; cases e
        dsimp only
        rw [get, if_pos rfl]
        exact ⟨hk₀, _, rfl, by omega⟩
      · simp only [update_ne hj] at e
        obtain ⟨h1, c, h2, h3⟩ := h.copying j k n e
        obtain ⟨c', h4, h5⟩ := grow k c h2
        exact ⟨h1, c', h4, by omega⟩
    · intro j k e
      by_cases hj : j = i
      · subst hj; simp only [update_same] at e; cases e
      · simp only [update_ne hj] at e
        obtain ⟨h1, c, h2, h3⟩ := h.done j k e
        obtain ⟨c', h4, h5⟩ := grow k c h2
        exact ⟨h1, c', h4, by omega⟩
    · intro k c hk he j b hjb
      dsimp only at he
      rw [get] at he
      by_cases e : k = k₀
      · subst e
        rw [if_pos rfl] at he; cases he
        rw [overwrite_get hn₀] at hjb
        by_cases e : j = n₀
        · subst e; rw [if_pos rfl] at hjb; cases hjb
          exact ⟨i, .inl ⟨_, update_same⟩, hb⟩
        · rw [if_neg e] at hjb
          obtain ⟨x, hx, hxb⟩ := h.bytes k c₀ hk hc j b hjb
          exact ⟨x, key x k hx, hxb⟩
      · rw [if_neg e] at he
        obtain ⟨x, hx, hxb⟩ := h.bytes k c hk he j b hjb
        exact ⟨x, key x k hx, hxb⟩
    · intro k hk hl
      obtain ⟨x, hx⟩ := h.opener k hk (by simpa using hl)
      exact ⟨x, key x k hx⟩
    · intro k e
      obtain ⟨h1, h2⟩ := h.named k e
      refine ⟨by simpa using h1, h2.imp id fun hr => ?_⟩
      rw [hr i] at hp; cases hp
    · intro e
      rcases h.unnamed e with ⟨_, hr⟩ | ⟨x, hx⟩
      · rw [hr i] at hp; cases hp
      · refine .inr ⟨x, ?_⟩
        have : x ≠ i := by rintro rfl; rw [hp] at hx; cases hx
        simp only [update_ne this]; exact hx
  | opens _ hp =>
    have hne : ¬ ∀ j, s.pc j = .ready := by intro hr; rw [hr i] at hp; cases hp
    cases hname : s.name with
    | some k₀ =>
      have eo : openFile s = (s, k₀) := by unfold openFile; rw [hname]
      rw [eo]
      dsimp only
      obtain ⟨hl₀, hk₀⟩ := h.named k₀ hname
      have hk₀ : old.toList.length ≤ k₀ := hk₀.resolve_right hne
      have key : ∀ j k, Opened s j k → Opened { s with pc := update s.pc i (.copying k₀ 0) } j k := by
        intro j k ho
        have : j ≠ i := by rintro rfl; rcases ho with ⟨n, e⟩ | e <;> rw [hp] at e <;> cases e
        unfold Opened; simp only [update_ne this]; exact ho
      refine ⟨h.base, h.kept, ?_, ?_, ?_, ?_, ?_, ?_⟩
      · intro j k n e
        by_cases hj : j = i
        · subst hj; simp only [update_same] at e; cases e
          exact ⟨hk₀, _, List.getElem?_eq_getElem hl₀, Nat.zero_le _⟩
        · simp only [update_ne hj] at e; exact h.copying j k n e
      · intro j k e
        by_cases hj : j = i
        · subst hj; simp only [update_same] at e; cases e
        · simp only [update_ne hj] at e; exact h.done j k e
      · intro k c hk hc j b hb
        obtain ⟨x, hx, hb⟩ := h.bytes k c hk hc j b hb
        exact ⟨x, key x k hx, hb⟩
      · intro k hk hl
        obtain ⟨x, hx⟩ := h.opener k hk hl
        exact ⟨x, key x k hx⟩
      · intro k e
        obtain ⟨h1, h2⟩ := h.named k e
        exact ⟨h1, .inl (h2.resolve_right hne)⟩
      · intro e; dsimp only at e; rw [hname] at e; cases e
    | none =>
      have eo : openFile s = ({ s with name := some s.store.length, store := s.store ++ [[]] }, s.store.length) := by unfold openFile; rw [hname]
      rw [eo]
      dsimp only
      have key : ∀ j k, Opened s j k →
          Opened { s with name := some s.store.length, store := s.store ++ [[]], pc := update s.pc i (.copying s.store.length 0) } j k := by
        intro j k ho
        have : j ≠ i := by rintro rfl; rcases ho with ⟨n, e⟩ | e <;> rw [hp] at e <;> cases e
        unfold Opened; simp only [update_ne this]; exact ho
      have old_get : ∀ (k : Nat) (c : Str), s.store[k]? = some c → (s.store ++ [[]])[k]? = some c := by
        intro k c e
        rw [List.getElem?_append_left (List.getElem?_eq_some_iff.1 e).1]; exact e
      refine ⟨by have := h.base; simp; omega, ?_, ?_, ?_, ?_, ?_, ?_, ?_⟩
      · intro k hk
        dsimp only
        rw [List.getElem?_append_left (by have := h.base; omega)]; exact h.kept k hk
      · intro j k n e
        by_cases hj : j = i
        · subst hj; simp only [update_same] at e; cases e
          exact ⟨h.base, [], by simp, Nat.zero_le _⟩
        · simp only [update_ne hj] at e
          obtain ⟨h1, c, h2, h3⟩ := h.copying j k n e
          exact ⟨h1, c, old_get k c h2, h3⟩
      · intro j k e
        by_cases hj : j = i
        · subst hj; simp only [update_same] at e; cases e
        · simp only [update_ne hj] at e
          obtain ⟨h1, c, h2, h3⟩ := h.done j k e
          exact ⟨h1, c, old_get k c h2, h3⟩
      · intro k c hk hc j b hb
        by_cases hkl : k < s.store.length
        · dsimp only at hc
          rw [List.getElem?_append_left hkl] at hc
          obtain ⟨x, hx, hb⟩ := h.bytes k c hk hc j b hb
          exact ⟨x, key x k hx, hb⟩
        · dsimp only at hc
          have : k = s.store.length := by
            have := (List.getElem?_eq_some_iff.1 hc).1
            simp at this; omega
          subst this
          simp at hc; subst hc; cases hb
      · intro k hk hl
        by_cases hkl : k < s.store.length
        · obtain ⟨x, hx⟩ := h.opener k hk hkl
          exact ⟨x, key x k hx⟩
        · have : k = s.store.length := by simp at hl; omega
          subst this
          exact ⟨i, .inl ⟨0, update_same⟩⟩
      · intro k e
        cases e
        exact ⟨by simp, .inl h.base⟩
      · intro e; cases e

theorem inv_steps (h : Inv text old s) (hs : Steps text s s') : Inv text old s' := by
  induction hs with
  | refl => exact h
  | step _ h2 ih => exact inv_step ih h2

/-- What is at the output's name, at any time. -/
theorem content_of (h : Inv text old s) : (s.content = old ∧ ∀ i, s.pc i = .ready) ∨
    (s.content = none ∧ ∃ i, s.pc i = .removed) ∨
    ∃ k c, s.content = some c ∧ s.name = some k ∧ s.store[k]? = some c ∧ old.toList.length ≤ k ∧
      ∀ (j : Nat) (b : UInt8), c[j]? = some b → ∃ i, Opened s i k ∧ (text i)[j]? = some b := by
  cases hn : s.name with
  | none =>
    have hc : s.content = none := by simp [State.content, hn]
    rcases h.unnamed hn with ⟨h1, h2⟩ | h1
    · exact .inl ⟨by rw [hc, h1], h2⟩
    · exact .inr (.inl ⟨hc, h1⟩)
  | some k =>
    obtain ⟨h1, h2⟩ := h.named k hn
    have hc : s.content = s.store[k]? := by simp [State.content, hn]
    by_cases hk : old.toList.length ≤ k
    · have hx : s.store[k]? = some s.store[k] := List.getElem?_eq_getElem h1
      exact .inr (.inr ⟨k, s.store[k], hc.trans hx, rfl, hx, hk, h.bytes k _ hk hx⟩)
    · refine .inl ⟨?_, h2.resolve_left hk⟩
      rw [hc, h.kept k (by omega)]
      cases old with
      | none => exact absurd (Nat.zero_le k) hk
      | some c =>
        have : k = 0 := by simp at hk; exact hk
        subst this; rfl

/-- All that have begun have finished. -/
theorem content_end (h : Inv text old s) (he : ∀ i, s.pc i = .ready ∨ ∃ k, s.pc i = .done k) (hd : ∃ i k, s.pc i = .done k) :
    ∃ k c, s.content = some c ∧ (∃ i, s.pc i = .done k) ∧ (∀ i, s.pc i = .done k → (text i).length ≤ c.length) ∧
      ∀ (j : Nat) (b : UInt8), c[j]? = some b → ∃ i, s.pc i = .done k ∧ (text i)[j]? = some b := by
  have hop : ∀ i k, Opened s i k → s.pc i = .done k := by
    rintro i k (⟨n, e⟩ | e)
    · rcases he i with e' | ⟨k', e'⟩ <;> rw [e] at e' <;> cases e'
    · exact e
  rcases content_of h with ⟨_, hr⟩ | ⟨_, i, hi⟩ | ⟨k, c, h1, h2, h3, h4, h5⟩
  · obtain ⟨i, k, e⟩ := hd; rw [hr i] at e; cases e
  · rcases he i with e | ⟨k, e⟩ <;> rw [hi] at e <;> cases e
  · obtain ⟨x, hx⟩ := h.opener k h4 (List.getElem?_eq_some_iff.1 h3).1
    refine ⟨k, c, h1, ⟨x, hop _ _ hx⟩, fun i e => ?_, fun j b hb => ?_⟩
    · obtain ⟨_, c', e1, e2⟩ := h.done i k e
      rw [h3] at e1; cases e1; exact e2
    · obtain ⟨y, hy, hb⟩ := h5 j b hb
      exact ⟨y, hop _ _ hy, hb⟩

/-! ### An execution -/

theorem steps_trans {s s' s'' : State} (h : Steps text s s') (h' : Steps text s' s'') : Steps text s s'' := by
  induction h' with
  | refl => exact h
  | step _ h2 ih => exact .step ih h2

theorem steps_one {i : Nat} (h : Step text i s s') : Steps text s s' := .step .refl h

theorem update_update {α : Type} (f : Nat → α) (i : Nat) (a b : α) : update (update f i a) i b = update f i b := by
  funext j; by_cases h : j = i
  · subst h; simp [update_same]
  · simp [update_ne h]

theorem update_self {α : Type} (f : Nat → α) (i : Nat) : update f i (f i) = f := by
  funext j; by_cases h : j = i
  · subst h; simp [update_same]
  · simp [update_ne h]

/-- A process writes the rest of its text. -/
theorem copy_all {i k : Nat} (U : Str) : ∀ (s : State) (T A B : Str), s.alive i = true → text i = T ++ U → T.length = A.length →
    s.pc i = .copying k T.length → s.store[k]? = some (A ++ B) →
    Steps text s { s with store := s.store.set k (A ++ U ++ B.drop U.length), pc := update s.pc i (.done k) } := by
  induction U with
  | nil =>
    intro s T A B ha ht hl hp hs
    have e : s.store.set k (A ++ [] ++ B.drop ([] : Str).length) = s.store := by
      obtain ⟨h1, h2⟩ := List.getElem?_eq_some_iff.1 hs
      simp [← h2]
    rw [e]
    exact steps_one (.finish ha hp (by rw [ht]; simp))
  | cons b U ih =>
    intro s T A B ha ht hl hp hs
    have hb : (text i)[T.length]? = some b := by rw [ht]; simp
    have h1 := Step.write ha hp hs hb
    have ho : overwrite (A ++ B) T.length b = (A ++ [b]) ++ B.drop 1 := by
      unfold overwrite
      rw [hl]
      have : (A ++ B).drop (A.length + 1) = B.drop 1 := by
        rw [List.drop_append, List.drop_eq_nil_of_le (by omega)]; simp
      rw [this]; simp
    rw [ho] at h1
    have hlt := (List.getElem?_eq_some_iff.1 hs).1
    have h2 := ih { s with store := s.store.set k ((A ++ [b]) ++ B.drop 1), pc := update s.pc i (.copying k (T.length + 1)) } (T ++ [b]) (A ++ [b])
      (B.drop 1) ha (by rw [ht]; simp) (by simp [hl]) (by simp [update_same]) (by simp [hlt])
    have h3 := steps_trans (steps_one h1) h2
    simp only [update_update, List.set_set] at h3
    have e : A ++ [b] ++ U ++ (B.drop 1).drop U.length = A ++ b :: U ++ B.drop (b :: U).length := by
      rw [List.drop_drop]; simp [Nat.add_comm]
    rw [e] at h3
    exact h3

/-- A process that is not stopped can go on. -/
theorem goes_on (h : Inv text old s) {i : Nat} (ha : s.alive i = true) (hd : ∀ k, s.pc i ≠ .done k) : ∃ s', Step text i s s' ∧ s'.pc i ≠ s.pc i := by
  cases hp : s.pc i with
  | ready => exact ⟨_, .remove ha hp, by simp [update_same]⟩
  | removed => exact ⟨_, .opens ha hp, by simp [update_same]⟩
  | done k => exact absurd hp (hd k)
  | copying k n =>
    obtain ⟨_, c, hc, _⟩ := h.copying i k n hp
    cases hb : (text i)[n]? with
    | none => exact ⟨_, .finish ha hp (List.getElem?_eq_none_iff.1 hb), by simp [update_same]⟩
    | some b => exact ⟨_, .write ha hp hc hb, by simp [update_same]⟩


/-! The run of `Model/Process`, as one of these processes. -/
section
variable {L : Type} {m : Main.Machine L} {ff : Cli.Flags} {nolog : Bool} {p : Str}

/-- A process that writes `w`, alone, over what was there. -/
def Alone (m : Main.Machine L) (p w : Str) (s : Process.State) (ws : State) : Prop :=
  Steps (fun _ => w) (start (m.files p)) ws ∧ ws.content = s.files p ∧ ws.alive 0 = true

/-- What the output can be while the run of `Model/Process` is at a place. -/
def Fits (m : Main.Machine L) (ff : Cli.Flags) (nolog : Bool) (p : Str) (s : Process.State) : Prop :=
  match s.pc with
  | .boot => s.files p = m.files p
  | .config => s.files p = m.files p
  | .loading => s.files p = m.files p
  | .scanning _ => s.files p = m.files p
  | .remove q w => q = p ∧ s.files p = m.files p ∧ ∃ failed, Process.dataFor m ff nolog failed = some w
  | .opening q w => q = p ∧ ∃ failed ws, Process.dataFor m ff nolog failed = some w ∧ Alone m p w s ws ∧ ws.pc 0 = .removed ∧ ws.name = none
  | .copying q w n => q = p ∧ ∃ failed ws k c, Process.dataFor m ff nolog failed = some w ∧ Alone m p w s ws ∧ ws.pc 0 = .copying k n ∧ ws.name = some k ∧
      ws.store[k]? = some c
  | _ => True

/-- Some process that writes what the run may write can leave the output as it is. -/
def Left (m : Main.Machine L) (ff : Cli.Flags) (nolog : Bool) (p : Str) (s : Process.State) : Prop :=
  s.files p = m.files p ∨ ∃ failed w ws, Process.dataFor m ff nolog failed = some w ∧ Steps (fun _ => w) (start (m.files p)) ws ∧ ws.content = s.files p

theorem left_of {s : Process.State} {failed : Bool} {w : Str} {ws : State} (h : Process.dataFor m ff nolog failed = some w) (ha : Alone m p w s ws) :
    Left m ff nolog p s := .inr ⟨failed, w, ws, h, ha.1, ha.2.1⟩

theorem set_self {s : State} {k : Nat} {c c' : Str} (hk : s.store[k]? = some c) : (s.store.set k c')[k]? = some c' := by
  have := (List.getElem?_eq_some_iff.1 hk).1
  simp [this]

theorem fits_main (hr : m.faults.removes = true) (hp : Cli.dest (Main.fullConfig m.wd m.load ff).1.base.output = .file p) {fail : Bool} {s s' : Process.State}
    (h : Fits m ff nolog p s) (hl : Left m ff nolog p s) (hs : Process.mainStep m ff nolog fail s = some s') :
    Fits m ff nolog p s' ∧ Left m ff nolog p s' := by
  obtain ⟨pc, no, pe, wa, ca, so, se, fi⟩ := s
  cases pc with
  | boot => cases hs; exact ⟨h, .inl h⟩
  | config => cases hs; exact ⟨h, .inl h⟩
  | loading => cases hs; exact ⟨h, .inl h⟩
  | scanning failed =>
    simp only [Process.mainStep] at hs
    cases hd : Process.dataFor m ff nolog failed with
    | none => rw [hd] at hs; cases hs; exact ⟨trivial, .inl h⟩
    | some w =>
      rw [hd] at hs; simp only [hp] at hs
      cases hs
      exact ⟨⟨rfl, h, failed, hd⟩, .inl h⟩
  | remove q w =>
    obtain ⟨rfl, h, failed, hd⟩ := h
    simp only [Process.mainStep, hr, if_true] at hs
    cases hs
    have ha : Alone m q w (s := ⟨.opening q w, no, pe, wa, ca, so, se, Process.setFile fi q none⟩) { start (m.files q) with name := none, pc := update (start (m.files q)).pc 0 .removed } :=
      ⟨.step .refl (.remove (i := 0) rfl rfl), by simp [Process.setFile, State.content], rfl⟩
    exact ⟨⟨rfl, failed, _, hd, ha, by simp [update_same], rfl⟩, left_of hd ha⟩
  | opening q w =>
    obtain ⟨rfl, failed, ws, hd, ha, h1, h2⟩ := h
    simp only [Process.mainStep] at hs
    split at hs
    · cases hs
      have hf : fi q = none := ha.2.1.symm.trans (by simp [State.content, h2])
      have ho : openFile ws = ({ ws with name := some ws.store.length, store := ws.store ++ [[]] }, ws.store.length) := by simp [openFile, h2]
      have hst := Step.opens (text := fun _ => w) ha.2.2 h1
      rw [ho] at hst
      have ha' : Alone m q w (s := ⟨.copying q w 0, no, pe, wa, ca, so, se, Process.setFile fi q (some ((fi q).getD []))⟩) _ :=
        ⟨.step ha.1 hst, by simp [Process.setFile, State.content, hf], ha.2.2⟩
      exact ⟨⟨rfl, failed, _, ws.store.length, [], hd, ha', by simp [update_same], rfl, by simp⟩, left_of hd ha'⟩
    · cases hs; exact ⟨trivial, hl⟩
  | copying q w n =>
    obtain ⟨rfl, failed, ws, k, c, hd, ha, h1, h2, h3⟩ := h
    simp only [Process.mainStep] at hs
    have hf : fi q = some c := ha.2.1.symm.trans (by simp [State.content, h2, h3])
    split at hs
    · cases hs; exact ⟨trivial, hl⟩
    · next b hb =>
      split at hs
      · cases hs
        have ha' : Alone m q w (s := ⟨.copying q w (n + 1), no, pe, wa, ca, so, se, Process.setFile fi q (some (Process.overwrite ((fi q).getD []) n b))⟩) _ :=
          ⟨.step ha.1 (.write (i := 0) ha.2.2 h1 h3 hb), by simp [Process.setFile, State.content, hf, h2, set_self h3], ha.2.2⟩
        exact ⟨⟨rfl, failed, _, k, _, hd, ha', by simp [update_same], h2, set_self h3⟩, left_of hd ha'⟩
      · cases hs; exact ⟨trivial, hl⟩
  | leaving => cases hs; exact ⟨trivial, hl⟩
  | stopped => cases hs; exact ⟨trivial, hl⟩
  | ended e => cases hs
  | killed => cases hs

theorem fits_steps (hr : m.faults.removes = true) (hp : Cli.dest (Main.fullConfig m.wd m.load ff).1.base.output = .file p) {acts : List Process.Act}
    {s : Process.State} (h : Process.Steps m ff nolog (Process.start m) acts s) : Fits m ff nolog p s ∧ Left m ff nolog p s := by
  induction h with
  | refl => exact ⟨rfl, .inl rfl⟩
  | step _ h2 ih =>
    obtain ⟨h3, h4⟩ := ih
    cases h2 with
    | main fail hs => exact fits_main hr hp h3 h4 hs
    | watcher _ _ _ => exact ⟨h3, h4⟩
    | caught _ _ => exact ⟨h3, h4⟩
    | uncaught _ _ => exact ⟨trivial, h4⟩
    | kill _ => exact ⟨trivial, h4⟩
end

end Oapi.Writers
