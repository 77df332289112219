import Verif.Spec.Args

/-! The command line (C121). -/
namespace Oapi.Args
open Spec Cli

variable {file : Str → Option (List Tok × Bool)}

theorem valued_plain : ∀ n ∈ valued, (61 : UInt8) ∉ n ∧ n ≠ [] ∧ n ∉ ending ∧ n ≠ b!"help" := by decide

theorem cut_plain {n : Str} (h : (61 : UInt8) ∉ n) : Str.cut 61 n = (n, none) := by
  induction n with
  | nil => rfl
  | cons c n ih =>
    rw [List.mem_cons, not_or] at h
    rw [Str.cut, if_neg (fun e => h.1 e.symm), ih h.2]

theorem cut_joined {n v : Str} (h : (61 : UInt8) ∉ n) : Str.cut 61 (n ++ b!"=" ++ v) = (n, some v) := by
  induction n with
  | nil => simp [Str.cut]
  | cons c n ih =>
    rw [List.mem_cons, not_or] at h
    rw [List.append_assoc, List.cons_append, Str.cut, if_neg (fun e => h.1 e.symm), ← List.append_assoc, ih h.2]

theorem cut_none {n m : Str} (h : Str.cut 61 n = (m, none)) : n = m := by
  induction n generalizing m with
  | nil => cases h; rfl
  | cons c n ih =>
    rw [Str.cut] at h
    split at h
    · cases h
    · obtain ⟨h1, h2⟩ := Prod.mk.inj h
      rw [← h1]
      exact congrArg (c :: ·) (ih (m := (Str.cut 61 n).1) (Prod.ext rfl h2))

theorem cut_some {n m v : Str} (h : Str.cut 61 n = (m, some v)) : n = m ++ b!"=" ++ v := by
  induction n generalizing m with
  | nil => cases h
  | cons c n ih =>
    rw [Str.cut] at h
    split at h
    · rename_i hc
      cases h; subst hc; rfl
    · obtain ⟨h1, h2⟩ := Prod.mk.inj h
      rw [← h1]
      exact congrArg (c :: ·) (ih (m := (Str.cut 61 n).1) (Prod.ext rfl h2))

theorem tokens_joined {n v : Str} (h : n ∈ valued) (t : List Str) :
    tokens file false ((b!"--" ++ n ++ b!"=" ++ v) :: t) = .long n :: .arg v :: tokens file false t := by
  obtain ⟨h1, h2, _⟩ := valued_plain n h
  rw [tokens, if_neg (by cases n with | nil => exact absurd rfl h2 | cons c n => simp), if_pos (by simp [Str.hasPrefix])]
  have : (b!"--" ++ n ++ b!"=" ++ v).drop 2 = n ++ b!"=" ++ v := by simp
  rw [this, cut_joined h1]

theorem tokens_name {n : Str} (h : n ∈ valued) (t : List Str) : tokens file false ((b!"--" ++ n) :: t) = .long n :: tokens file false t := by
  obtain ⟨h1, h2, _⟩ := valued_plain n h
  rw [tokens, if_neg (by cases n with | nil => exact absurd rfl h2 | cons c n => simp), if_pos (by simp [Str.hasPrefix])]
  have : (b!"--" ++ n).drop 2 = n := by simp
  rw [this, cut_plain h1]

theorem tokens_plain {v : Str} (h : ∀ c u, v = c :: u → c ≠ 45 ∧ c ≠ 64) (t : List Str) : tokens file false (v :: t) = .arg v :: tokens file false t := by
  cases v with
  | nil => rw [tokens]; rfl
  | cons c u =>
    obtain ⟨h1, h2⟩ := h c u rfl
    have e1 : (45 == c) = false := by simpa using fun e => h1 e.symm
    have e2 : (64 == c) = false := by simpa using fun e => h2 e.symm
    rw [tokens, if_neg (by simp [h1]), if_neg (by simp [Str.hasPrefix, List.isPrefixOf, e1]), if_neg (by simp [Str.hasPrefix, List.isPrefixOf, e1]),
      if_neg (by simp [Str.hasPrefix, List.isPrefixOf, e2])]

theorem elements_setting {n v : Str} (h : n ∈ valued) (t : List Tok) : elements (.long n :: .arg v :: t) = ((n, v) :: (elements t).1, (elements t).2) := by
  rw [elements, if_pos h]

theorem elements_stuck {n : Str} (h : n ∈ valued) {t : List Tok} (ht : ∀ v u, t ≠ .arg v :: u) : elements (.long n :: t) = ([], false) := by
  rw [elements, if_pos h]
  exact fun v u e => ht v u e

theorem elements_other {n : Str} (h : n ∉ valued) (t : List Tok) :
    elements (.long n :: t) = if n ∈ ending ∨ n = b!"help" then (((n, []) :: (elements t).1), (elements t).2) else ([], false) := by
  rw [elements.eq_def]
  simp only [if_neg h]

/-- The flags are known ones. -/
theorem elements_names : ∀ (k : Nat) (l : List Tok), l.length ≤ k → ∀ e ∈ (elements l).1, e.1 ∈ valued ∨ e.1 ∈ ending ∨ e.1 = b!"help"
  | _, [], _ => by simp [elements]
  | 0, _ :: _, h => by cases h
  | k + 1, .short :: t, _ => by simp [elements]
  | k + 1, .error :: t, _ => by simp [elements]
  | k + 1, .arg v :: t, _ => by simp [elements]
  | k + 1, .long n :: t, h => by
    have ht : t.length ≤ k := by simpa using h
    by_cases hn : n ∈ valued
    · by_cases hv : ∃ v u, t = .arg v :: u
      · obtain ⟨v, u, rfl⟩ := hv
        rw [elements_setting hn]
        exact List.forall_mem_cons.2 ⟨.inl hn, elements_names k u (by simp at ht; omega)⟩
      · rw [elements_stuck hn fun v u e => hv ⟨v, u, e⟩]
        simp
    · rw [elements_other hn]
      split
      · rename_i he
        exact List.forall_mem_cons.2 ⟨.inr he, elements_names k t ht⟩
      · simp

/-- A writing of settings is parsed as these settings. -/
theorem elements_says {args : List Str} {s : List (Str × Str)} (h : Says args s) : elements (tokens file false args) = (s, true) := by
  induction h with
  | nothing => rfl
  | done => rfl
  | joined hn _ ih => rw [tokens_joined hn, elements_setting hn, ih]
  | apart hn hv _ ih => rw [tokens_name hn, tokens_plain hv, elements_setting hn, ih]
  | last hn =>
    rw [tokens_name hn]
    have : ∀ v, tokens file false [b!"--", v] = [.arg v] := fun v => rfl
    rw [this, elements_setting hn]
    rfl

theorem says_valued {args : List Str} {s : List (Str × Str)} (h : Says args s) : ∀ e ∈ s, e.1 ∈ valued := by
  induction h with
  | nothing => simp
  | done => simp
  | joined hn _ ih => exact List.forall_mem_cons.2 ⟨hn, ih⟩
  | apart hn _ _ ih => exact List.forall_mem_cons.2 ⟨hn, ih⟩
  | last hn => intro e he; rw [List.mem_singleton] at he; subst he; exact hn

theorem tokens_true (t : List Str) : tokens file true t = t.map .arg := by
  induction t with
  | nil => rfl
  | cons a t ih => rw [tokens, ih]; rfl

theorem hasPrefix_iff {a p : Str} : Str.hasPrefix a p = true ↔ ∃ t, a = p ++ t := by
  rw [Str.hasPrefix, List.isPrefixOf_iff_prefix]
  exact ⟨fun ⟨t, h⟩ => ⟨t, h.symm⟩, fun ⟨t, h⟩ => ⟨t, h.symm⟩⟩

/-- And only writings of settings are parsed as settings. -/
theorem says_of_elements : ∀ (k : Nat) {args : List Str} {s : List (Str × Str)}, args.length ≤ k → (∀ a ∈ args, Str.hasPrefix a b!"@" = false) →
    elements (tokens file false args) = (s, true) → (∀ e ∈ s, e.1 ∈ valued) → Says args s
  | _, [], s, _, _, h, _ => by cases h; exact .nothing
  | 0, a :: t, s, hk, _, _, _ => by cases hk
  | k + 1, a :: t, s, hk, ha, h, hv => by
    have hk' : t.length ≤ k := by simpa using hk
    have ha' : ∀ b ∈ t, Str.hasPrefix b b!"@" = false := fun b hb => ha b (List.mem_cons_of_mem _ hb)
    rw [tokens] at h
    by_cases h1 : a = b!"--"
    · rw [if_pos h1, tokens_true] at h
      subst h1
      cases t with
      | nil => cases h; exact .done
      | cons b t => cases h
    rw [if_neg h1] at h
    by_cases h2 : Str.hasPrefix a b!"--" = true
    · rw [if_pos h2] at h
      obtain ⟨r, rfl⟩ := hasPrefix_iff.1 h2
      have hd : (b!"--" ++ r).drop 2 = r := by simp
      rw [hd] at h
      cases hc : Str.cut 61 r with
      | mk n w =>
        rw [hc] at h
        cases w with
        | some v =>
          dsimp only at h
          by_cases hn : n ∈ valued
          · rw [elements_setting hn] at h
            obtain ⟨e1, e2⟩ := Prod.mk.inj h
            have := says_of_elements k (args := t) (s := (elements (tokens file false t)).1) hk' ha' (Prod.ext rfl e2) fun e he => hv e (by rw [← e1]; simp [he])
            rw [← e1, cut_some hc, ← List.append_assoc, ← List.append_assoc]
            exact .joined hn this
          · rw [elements_other hn] at h
            split at h
            · have := hv (n, []) (by rw [← (Prod.mk.inj h).1]; simp)
              exact absurd this hn
            · cases h
        | none =>
          dsimp only at h
          have hr := cut_none hc
          subst hr
          by_cases hn : r ∈ valued
          · cases t with
            | nil =>
              rw [tokens, elements_stuck hn (by simp)] at h
              cases h
            | cons b t =>
              have hb := ha' b (by simp)
              by_cases hb1 : b = b!"--"
              · subst hb1
                rw [tokens, if_pos rfl, tokens_true] at h
                cases t with
                | nil => rw [List.map_nil, elements_stuck hn (by simp)] at h; cases h
                | cons v t =>
                  rw [List.map_cons, elements_setting hn] at h
                  cases t with
                  | nil => cases h; exact .last hn
                  | cons w t => cases h
              by_cases hb2 : ∃ c u, b = c :: u ∧ c = 45
              · obtain ⟨c, u, rfl, rfl⟩ := hb2
                rw [tokens, if_neg hb1] at h
                by_cases hb3 : Str.hasPrefix (45 :: u) b!"--" = true
                · rw [if_pos hb3] at h
                  cases hx : Str.cut 61 (List.drop 2 (45 :: u)) with
                  | mk m w =>
                    rw [hx] at h
                    cases w <;> (dsimp only at h; rw [elements_stuck hn (by simp)] at h; cases h)
                · rw [if_neg hb3, if_pos (by simp [Str.hasPrefix, List.isPrefixOf])] at h
                  rw [elements_stuck hn (by simp)] at h
                  cases h
              · have hp : ∀ c u, b = c :: u → c ≠ 45 ∧ c ≠ 64 := by
                  rintro c u rfl
                  refine ⟨fun e => hb2 ⟨c, u, rfl, e⟩, fun e => ?_⟩
                  subst e
                  simp [Str.hasPrefix, List.isPrefixOf] at hb
                rw [tokens_plain hp, elements_setting hn] at h
                obtain ⟨e1, e2⟩ := Prod.mk.inj h
                have hl : t.length ≤ k := by simp at hk'; omega
                have := says_of_elements k (args := t) (s := (elements (tokens file false t)).1) hl (fun b hb => ha' b (List.mem_cons_of_mem _ hb)) (Prod.ext rfl e2)
                  fun e he => hv e (by rw [← e1]; simp [he])
                rw [← e1]
                exact .apart hn hp this
          · rw [elements_other hn] at h
            split at h
            · have := hv (r, []) (by rw [← (Prod.mk.inj h).1]; simp)
              exact absurd this hn
            · cases h
    · rw [if_neg h2] at h
      by_cases h3 : Str.hasPrefix a b!"-" = true
      · rw [if_pos h3] at h; cases h
      · rw [if_neg h3, ha a (by simp)] at h
        cases h

/-- `setValues` takes the proper settings. -/
theorem valuesOk_iff : ∀ {s : List (Str × Str)}, valuesOk s = true ↔ Proper s
  | [] => ⟨fun _ => ⟨by simp, by simp, by simp⟩, fun _ => rfl⟩
  | (n, v) :: t => by
    rw [valuesOk, Bool.and_eq_true, valuesOk_iff (s := t)]
    simp only [Bool.and_eq_true, Bool.not_eq_true', Bool.or_eq_true, bne_iff_ne, ne_eq]
    constructor
    · rintro ⟨⟨⟨h1, h2⟩, h3⟩, h4⟩
      refine ⟨?_, ?_, ?_⟩
      · rw [List.map_cons, List.nodup_cons]
        exact ⟨by simpa using h1, h4.once⟩
      · intro w hw
        rcases List.mem_cons.1 hw with h | h
        · cases h
          rcases h2 with h2 | h2
          · exact absurd rfl h2
          · exact List.contains_iff_mem.1 h2
        · exact h4.level w h
      · intro w hw
        rcases List.mem_cons.1 hw with h | h
        · cases h
          rcases h3 with h3 | h3
          · exact absurd rfl h3
          · exact List.contains_iff_mem.1 h3
        · exact h4.format w h
    · rintro ⟨h1, h2, h3⟩
      rw [List.map_cons, List.nodup_cons] at h1
      refine ⟨⟨⟨by simpa using h1.1, ?_⟩, ?_⟩, h1.2, fun w hw => h2 w (List.mem_cons_of_mem _ hw), fun w hw => h3 w (List.mem_cons_of_mem _ hw)⟩
      · by_cases e : n = b!"loglevel"
        · right; subst e; exact List.contains_iff_mem.2 (h2 v (by simp))
        · exact .inl e
      · by_cases e : n = b!"format"
        · right; subst e; exact List.contains_iff_mem.2 (h3 v (by simp))
        · exact .inl e

theorem value_gives {s : List (Str × Str)} (hs : (s.map Prod.fst).Nodup) {n d v : Str} : Gives s n d v ↔ v = value s n d := by
  unfold Gives value
  induction s with
  | nil => simp
  | cons e s ih =>
    obtain ⟨m, w⟩ := e
    rw [List.map_cons, List.nodup_cons] at hs
    rw [List.lookup_cons]
    by_cases hm : n = m
    · subst hm
      rw [show (n == n) = true by simp]
      constructor
      · rintro (h | ⟨h, _⟩)
        · rcases List.mem_cons.1 h with h | h
          · cases h; rfl
          · exact absurd (List.mem_map_of_mem (f := Prod.fst) h) hs.1
        · exact absurd (by simp) (h w)
      · rintro rfl; left; simp
    · rw [show (n == m) = false by simpa using hm]
      rw [← ih hs.2]
      simp [hm]

/-- The parsing, for command lines without argument files. -/
theorem parse_iff {args : List Str} (ha : ∀ a ∈ args, Str.hasPrefix a b!"@" = false) {ff : Flags} {nolog : Bool} :
    parse file args = .flags ff nolog ↔ ∃ s, Says args s ∧ Proper s ∧ FlagsOf s ff nolog := by
  have hno : ∀ s : List (Str × Str), (∀ e ∈ s, e.1 ∈ valued) → (s.any fun e => ending.contains e.1) = false ∧ (s.any fun e => e.1 == b!"help") = false := by
    intro s hv
    constructor
    · rw [List.any_eq_false]
      intro e he h
      exact (valued_plain _ (hv e he)).2.2.1 (List.contains_iff_mem.1 h)
    · rw [List.any_eq_false]
      intro e he h
      exact (valued_plain _ (hv e he)).2.2.2 (by simpa using h)
  have key : ∀ {s : List (Str × Str)}, (s.map Prod.fst).Nodup → (FlagsOf s ff nolog ↔
      Parsed.flags { config := value s b!"config" [], dir := value s b!"dir" [], format := value s b!"format" [], output := value s b!"output" [] }
        (value s b!"loglevel" b!"nolog" == b!"nolog") = .flags ff nolog) := by
    intro s hs
    constructor
    · rintro ⟨h1, h2, h3, h4, v, h5, h6⟩
      rw [value_gives hs] at h1 h2 h3 h4 h5
      rw [← h1, ← h2, ← h3, ← h4, ← h5]
      congr 1
      cases nolog with
      | true => simpa using h6.1 rfl
      | false => simp only [beq_eq_false_iff_ne]; intro e; cases h6.2 e
    · intro h
      cases h
      exact ⟨(value_gives hs).2 rfl, (value_gives hs).2 rfl, (value_gives hs).2 rfl, (value_gives hs).2 rfl, _, (value_gives hs).2 rfl, by simp⟩
  constructor
  · intro h
    unfold parse at h
    dsimp only at h
    split at h
    · cases h
    rename_i h1
    split at h
    · cases h
    rename_i h2
    split at h
    · cases h
    rename_i h3
    split at h
    · cases h
    rename_i h4
    have h2' : (elements (tokens file false args)).2 = true := by simpa using h2
    have hv : ∀ e ∈ (elements (tokens file false args)).1, e.1 ∈ valued := by
      intro e he
      rcases elements_names _ _ (Nat.le_refl _) e he with h | h | h
      · exact h
      · exact absurd (List.any_eq_true.2 ⟨e, he, (List.contains_iff_mem.2 h : ending.contains e.1 = true)⟩) h1
      · exact absurd (List.any_eq_true.2 ⟨e, he, by simpa using h⟩) h3
    have hp : Proper (elements (tokens file false args)).1 := valuesOk_iff.1 (by simpa using h4)
    exact ⟨_, says_of_elements _ (Nat.le_refl _) ha (Prod.ext rfl h2') hv, hp, (key hp.once).2 h⟩
  · rintro ⟨s, hs, hp, hf⟩
    obtain ⟨h1, h2⟩ := hno s (says_valued hs)
    unfold parse
    dsimp only
    rw [elements_says hs]
    dsimp only
    rw [h1, h2, valuesOk_iff.2 hp]
    exact (key hp.once).1 hf

end Oapi.Args
