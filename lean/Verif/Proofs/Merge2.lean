import Verif.Proofs.Merge
import Verif.Spec.Merge

namespace Oapi.Json

theorem NodupKeysO_iff (m : Obj) : NodupKeysO m ↔ ∀ p ∈ m, NodupKeys p.2 := by
  induction m with
  | nil => simp [NodupKeysO]
  | cons p t ih => obtain ⟨k, v⟩ := p; simp [NodupKeysO, ih]

theorem NodupKeysL_iff (m : List Json) : NodupKeysL m ↔ ∀ p ∈ m, NodupKeys p := by
  induction m with
  | nil => simp [NodupKeysL]
  | cons p t ih => simp [NodupKeysL, ih]

mutual
theorem NodupKeys_of_WF (j : Json) (h : WF j) : NodupKeys j := by
  match j with
  | .arr xs => simp only [NodupKeys]; exact NodupKeysL_of_WF xs ((WF_arr xs).1 h)
  | .obj m =>
    simp only [NodupKeys]
    exact ⟨Obj.sorted_nodup ((WF_obj m).1 h).1, NodupKeysO_of_WF m ((WF_obj m).1 h).2⟩
  | .null | .bool _ | .num _ | .str _ => simp [NodupKeys]
termination_by structural j
theorem NodupKeysL_of_WF (xs : List Json) (h : WFL xs) : NodupKeysL xs := by
  match xs with
  | [] => simp [NodupKeysL]
  | x :: t => simp only [WFL] at h; exact ⟨NodupKeys_of_WF x h.1, NodupKeysL_of_WF t h.2⟩
termination_by structural xs
theorem NodupKeysO_of_WF (m : List (Str × Json)) (h : WFO m) : NodupKeysO m := by
  match m with
  | [] => simp [NodupKeysO]
  | (_, v) :: t => simp only [WFO] at h; exact ⟨NodupKeys_of_WF v h.1, NodupKeysO_of_WF t h.2⟩
termination_by structural m
end

theorem canonL_map (xs : List Json) : canonL xs = xs.map canon := by
  induction xs with
  | nil => rfl
  | cons x t ih => simp [canonL, ih]

theorem canonO_map (m : Obj) : canonO m = m.map fun p => (p.1, canon p.2) := by
  induction m with
  | nil => rfl
  | cons x t ih => obtain ⟨k, v⟩ := x; simp [canonO, ih]

theorem ofList_perm_eq {a b : Obj} (h : a.Perm b) (hn : (Obj.keys a).Nodup) : Obj.ofList a = Obj.ofList b := by
  apply Obj.ext_lookup (Obj.ofList_sorted _) (Obj.ofList_sorted _)
  intro k
  rw [Obj.lookup_ofList hn, Obj.lookup_ofList ((Obj.keys_perm h).nodup_iff.1 hn), Obj.lookup_perm h hn]

theorem canon_reorder {a b : Json} (h : Spec.Reorder a b) (hn : NodupKeys a) : NodupKeys b ∧ canon a = canon b := by
  induction h with
  | refl a => exact ⟨hn, rfl⟩
  | trans _ _ ih1 ih2 =>
    have h1 := ih1 hn; have h2 := ih2 h1.1
    exact ⟨h2.1, h1.2.trans h2.2⟩
  | @shuffle m n hp =>
    simp only [NodupKeys] at hn ⊢
    refine ⟨⟨(Obj.keys_perm hp).nodup_iff.1 hn.1, ?_⟩, ?_⟩
    · rw [NodupKeysO_iff] at hn ⊢; exact fun p h => hn.2 p (hp.mem_iff.2 h)
    · simp only [canon]; congr 1
      apply ofList_perm_eq
      · rw [canonO_map, canonO_map]; exact hp.map _
      · rw [keys_canonO]; exact hn.1
  | @member v w pre post k _ ih =>
    simp only [NodupKeys] at hn ⊢
    rw [NodupKeysO_iff] at hn
    have := ih (hn.2 (k, v) (by simp))
    refine ⟨⟨?_, ?_⟩, ?_⟩
    · have := hn.1; simpa [Obj.keys] using this
    · rw [NodupKeysO_iff]
      intro p hp
      simp only [List.mem_append, List.mem_cons] at hp
      rcases hp with hp | rfl | hp
      · exact hn.2 p (by simp [hp])
      · exact this.1
      · exact hn.2 p (by simp [hp])
    · simp only [canon, canonO_map, List.map_append, List.map_cons, this.2]
  | @elem v w pre post _ ih =>
    simp only [NodupKeys] at hn ⊢
    rw [NodupKeysL_iff] at hn
    have := ih (hn v (by simp))
    refine ⟨?_, ?_⟩
    · rw [NodupKeysL_iff]
      intro p hp
      simp only [List.mem_append, List.mem_cons] at hp
      rcases hp with hp | rfl | hp
      · exact hn p (by simp [hp])
      · exact this.1
      · exact hn p (by simp [hp])
    · simp only [canon, canonL_map, List.map_append, List.map_cons, this.2]

end Oapi.Json

namespace Oapi.Container
open Oapi Spec Json

theorem merge_reorder {f : Merger} (hf : Uniform f) (hk : KeepsWF f) {d s s' : Json} (hd : ∃ m, d = .obj m) (hw : WF d)
    (hn : NodupKeys s) (h : Reorder s s') : merge d s' f = merge d s f := by
  obtain ⟨m, rfl⟩ := hd
  have := canon_reorder h hn
  rw [merge_canon hf hk m hw s hn, merge_canon hf hk m hw s' this.1, this.2]

/-! ### key paths -/

@[simp] theorem nodeAt_obj_nil (m : Obj) : nodeAt (.obj m) [] = some .obj := rfl
theorem nodeAt_obj_cons (m : Obj) (k : Str) (p : List Str) :
    nodeAt (.obj m) (k :: p) = (Obj.lookup k m).bind fun c => nodeAt c p := by
  show (match Obj.lookup k m with | some c => nodeAt c p | none => none) = _
  cases Obj.lookup k m <;> rfl

theorem nodeAt_leaf {j : Json} (h : isObj j = false) : nodeAt j [] = some (.leaf j) := by
  cases j <;> first | rfl | simp [isObj] at h
theorem nodeAt_leaf_cons {j : Json} (h : isObj j = false) (k : Str) (p : List Str) : nodeAt j (k :: p) = none := by
  cases j <;> first | rfl | simp [isObj] at h
theorem nodeAt_nil_some (j : Json) : ∃ n, nodeAt j [] = some n := by
  cases j <;> exact ⟨_, rfl⟩

theorem isObj_cases (j : Json) : isObj j = false ∨ ∃ m, j = .obj m := by
  cases j <;> simp [isObj]

/-- key paths determine a document -/
theorem nodeAt_ext : ∀ (a b : Json), WF a → WF b → (∀ p, nodeAt a p = nodeAt b p) → a = b := by
  intro a
  induction h : sizeOf a using Nat.strongRecOn generalizing a with
  | _ n ih =>
  intro b ha hb hp
  have h0 := hp []
  rcases isObj_cases a with h1 | ⟨m, rfl⟩
  · rcases isObj_cases b with h2 | ⟨m', rfl⟩
    · rw [nodeAt_leaf h1, nodeAt_leaf h2] at h0; simpa using h0
    · rw [nodeAt_leaf h1] at h0; simp at h0
  · rcases isObj_cases b with h2 | ⟨m', rfl⟩
    · rw [nodeAt_leaf h2] at h0; simp at h0
    · congr 1
      apply Obj.ext_lookup ((WF_obj m).1 ha).1 ((WF_obj m').1 hb).1
      intro k
      have hk := fun p => hp (k :: p)
      simp only [nodeAt_obj_cons] at hk
      cases hx : Obj.lookup k m with
      | none =>
        cases hy : Obj.lookup k m' with
        | none => rfl
        | some y =>
          have := hk []
          rw [hx, hy] at this
          obtain ⟨z, hz⟩ := nodeAt_nil_some y
          simp [hz] at this
      | some x =>
        cases hy : Obj.lookup k m' with
        | none =>
          have := hk []
          rw [hx, hy] at this
          obtain ⟨z, hz⟩ := nodeAt_nil_some x
          simp [hz] at this
        | some y =>
          congr 1
          refine ih (sizeOf x) ?_ x rfl y (WF_lookup ha hx) (WF_lookup hb hy) ?_
          · have := List.sizeOf_lt_of_mem (Obj.lookup_mem hx)
            rw [← h]; simp at this ⊢; omega
          · intro p; have := hk p; rw [hx, hy] at this; simpa using this

/-- first one, then the other -/
def firstWins : Json → Json → List Str → Option Node
  | .obj _, _, [] => some .obj
  | j, _, [] => some (.leaf j)
  | .obj a, .obj b, k :: p => match Obj.lookup k a, Obj.lookup k b with
    | some x, some y => firstWins x y p
    | some x, none => nodeAt x p
    | none, some y => nodeAt y p
    | none, none => none
  | .obj a, _, k :: p => nodeAt (.obj a) (k :: p)
  | _, _, _ :: _ => none

theorem firstWins_nil (a b : Json) : firstWins a b [] = nodeAt a [] := by
  cases a <;> simp [firstWins, nodeAt]
theorem firstWins_left {a b : Json} (h : isObj a = false ∨ isObj b = false) (p : List Str) :
    firstWins a b p = nodeAt a p := by
  cases p with
  | nil => exact firstWins_nil a b
  | cons k p => cases a <;> first | rfl | (cases b <;> first | rfl | simp [isObj] at h)

theorem shadowed_leaf {j : Json} (h : isObj j = false) (p : List Str) : Shadowed j p :=
  ⟨[], j, List.nil_prefix, nodeAt_leaf h⟩

theorem shadowed_cons {m : Obj} {k : Str} {p : List Str} :
    Shadowed (.obj m) (k :: p) ↔ ∃ x, Obj.lookup k m = some x ∧ Shadowed x p := by
  constructor
  · rintro ⟨q, j, hq, hn⟩
    cases q with
    | nil => simp at hn
    | cons k' q =>
      rw [List.cons_prefix_cons] at hq
      obtain ⟨rfl, hq⟩ := hq
      rw [nodeAt_obj_cons] at hn
      cases hx : Obj.lookup k' m with
      | none => simp [hx] at hn
      | some x => exact ⟨x, rfl, q, j, hq, by simpa [hx] using hn⟩
  · rintro ⟨x, hx, q, j, hq, hn⟩
    exact ⟨k :: q, j, by simpa using hq, by simp [nodeAt_obj_cons, hx, hn]⟩

theorem firstWins_fills (a b : Json) (p : List Str) :
    (∀ n, nodeAt a p = some n → firstWins a b p = some n) ∧
    (nodeAt a p = none → Shadowed a p → firstWins a b p = none) ∧
    (nodeAt a p = none → ¬ Shadowed a p → (isObj b = true) → firstWins a b p = nodeAt b p) := by
  induction p generalizing a b with
  | nil =>
    rw [firstWins_nil]
    obtain ⟨n, hn⟩ := nodeAt_nil_some a
    simp [hn]
  | cons k p ih =>
    rcases isObj_cases a with h1 | ⟨m, rfl⟩
    · rw [firstWins_left (Or.inl h1), nodeAt_leaf_cons h1]
      simp [shadowed_leaf h1]
    · rcases isObj_cases b with h2 | ⟨m', rfl⟩
      · rw [firstWins_left (Or.inr h2)]
        simp +contextual [h2]
      · rw [nodeAt_obj_cons, nodeAt_obj_cons, shadowed_cons]
        simp only [firstWins]
        cases hx : Obj.lookup k m with
        | none =>
          cases hy : Obj.lookup k m' <;> simp
        | some x =>
          cases hy : Obj.lookup k m' with
          | none =>
            simp only [Option.bind_some, Option.bind_none]
            exact ⟨fun n h => h, fun h _ => h, fun h _ _ => h⟩
          | some y =>
            simp only [Option.bind_some, Option.some.injEq, exists_eq_left']
            refine ⟨(ih x y).1, (ih x y).2.1, fun h1 h2 _ => ?_⟩
            rcases isObj_cases y with h3 | ⟨m'', rfl⟩
            · rw [firstWins_left (Or.inr h3), h1]
              cases p with
              | nil => obtain ⟨n, hn⟩ := nodeAt_nil_some x; simp [hn] at h1
              | cons => rw [nodeAt_leaf_cons h3]
            · exact (ih x _).2.2 h1 h2 rfl

theorem fills_of {a b r : Json} (hb : isObj b = true) (h : ∀ p, nodeAt r p = firstWins a b p) : Fills a b r := by
  intro p
  rw [h p]
  have := firstWins_fills a b p
  exact ⟨this.1, this.2.1, fun h1 h2 => this.2.2 h1 h2 hb⟩

theorem localVal_leaf {f : Merger} {ex v : Json} (h : isObj v = false ∨ isObj ex = false) :
    localVal f (some ex) v = f ex (canon v) := by
  cases v with
  | obj t => cases ex <;> first | simp [isObj] at h; done | simp [localVal]
  | _ => simp [localVal]

theorem localVal_obj (f : Merger) (m t : Obj) : localVal f (some (.obj m)) (.obj t) =
    match localMap f m t with
    | .ok r => .ok (.obj r)
    | .err e => .err e
    | .panic => .panic := by
  simp only [localVal]; cases localMap f m t <;> rfl

theorem isObj_canon (v : Json) : isObj (canon v) = isObj v := by
  cases v <;> simp [canon, isObj]

theorem localVal_default {ex v x : Json} (hn : WF v) (h : localVal mergeDefault (some ex) v = .ok x) (p : List Str) :
    nodeAt x p = firstWins ex v p := by
  induction p generalizing ex v x with
  | nil =>
    rw [firstWins_nil]
    by_cases hc : isObj v = false ∨ isObj ex = false
    · rw [localVal_leaf hc] at h; simp [mergeDefault] at h; rw [h]
    · rcases isObj_cases v with h1 | ⟨t, rfl⟩
      · exact absurd (Or.inl h1) hc
      rcases isObj_cases ex with h1 | ⟨m, rfl⟩
      · exact absurd (Or.inr h1) hc
      rw [localVal_obj] at h
      cases hl : localMap mergeDefault m t with
      | ok r => rw [hl] at h; simp at h; subst h; rfl
      | err e => rw [hl] at h; simp at h
      | panic => rw [hl] at h; simp at h
  | cons k p ih =>
    by_cases hc : isObj v = false ∨ isObj ex = false
    · rw [localVal_leaf hc] at h; simp [mergeDefault] at h; rw [← h, firstWins_left hc.symm]
    · rcases isObj_cases v with h1 | ⟨t, rfl⟩
      · exact absurd (Or.inl h1) hc
      rcases isObj_cases ex with h1 | ⟨m, rfl⟩
      · exact absurd (Or.inr h1) hc
      rw [localVal_obj] at h
      cases hl : localMap mergeDefault m t with
      | err e => rw [hl] at h; simp at h
      | panic => rw [hl] at h; simp at h
      | ok r =>
        rw [hl] at h; simp at h; subst h
        have := localMap_spec t (Obj.sorted_nodup ((WF_obj t).1 hn).1) m r hl k
        rw [nodeAt_obj_cons]
        simp only [firstWins]
        cases hv : Obj.lookup k t with
        | none =>
          rw [hv] at this; rw [this]
          cases Obj.lookup k m <;> rfl
        | some v =>
          rw [hv] at this
          obtain ⟨x, hx, hr⟩ := this
          rw [hr]
          cases hm : Obj.lookup k m with
          | none => rw [hm] at hx; simp [localVal] at hx; simp [← hx, canon_of_WF _ (WF_lookup hn hv)]
          | some e => rw [hm] at hx; exact ih (WF_lookup hn hv) hx

theorem localVal_override {ex v x : Json} (hn : WF v) (h : localVal mergeOverride (some ex) v = .ok x) (p : List Str) :
    nodeAt x p = firstWins v ex p := by
  induction p generalizing ex v x with
  | nil =>
    rw [firstWins_nil]
    by_cases hc : isObj v = false ∨ isObj ex = false
    · rw [localVal_leaf hc] at h; simp [mergeOverride, canon_of_WF _ hn] at h; rw [h]
    · rcases isObj_cases v with h1 | ⟨t, rfl⟩
      · exact absurd (Or.inl h1) hc
      rcases isObj_cases ex with h1 | ⟨m, rfl⟩
      · exact absurd (Or.inr h1) hc
      rw [localVal_obj] at h
      cases hl : localMap mergeOverride m t with
      | ok r => rw [hl] at h; simp at h; subst h; rfl
      | err e => rw [hl] at h; simp at h
      | panic => rw [hl] at h; simp at h
  | cons k p ih =>
    by_cases hc : isObj v = false ∨ isObj ex = false
    · rw [localVal_leaf hc] at h; simp [mergeOverride, canon_of_WF _ hn] at h; rw [← h, firstWins_left hc]
    · rcases isObj_cases v with h1 | ⟨t, rfl⟩
      · exact absurd (Or.inl h1) hc
      rcases isObj_cases ex with h1 | ⟨m, rfl⟩
      · exact absurd (Or.inr h1) hc
      rw [localVal_obj] at h
      cases hl : localMap mergeOverride m t with
      | err e => rw [hl] at h; simp at h
      | panic => rw [hl] at h; simp at h
      | ok r =>
        rw [hl] at h; simp at h; subst h
        have := localMap_spec t (Obj.sorted_nodup ((WF_obj t).1 hn).1) m r hl k
        rw [nodeAt_obj_cons]
        simp only [firstWins]
        cases hv : Obj.lookup k t with
        | none =>
          rw [hv] at this; rw [this]
          cases Obj.lookup k m <;> rfl
        | some v =>
          rw [hv] at this
          obtain ⟨x, hx, hr⟩ := this
          rw [hr]
          cases hm : Obj.lookup k m with
          | none => rw [hm] at hx; simp [localVal] at hx; simp [← hx, canon_of_WF _ (WF_lookup hn hv)]
          | some e => rw [hm] at hx; exact ih (WF_lookup hn hv) hx

mutual
theorem localMap_total {f : Merger} (hf : ∀ a b, ∃ x, f a b = .ok x) (kvs : List (Str × Json)) (m : Obj) :
    ∃ r, localMap f m kvs = .ok r := by
  match kvs with
  | [] => exact ⟨m, rfl⟩
  | (k, v) :: t =>
    simp only [localMap]
    obtain ⟨x, h⟩ := localVal_total hf v (Obj.lookup k m)
    rw [h]; exact localMap_total hf t _
termination_by structural kvs
theorem localVal_total {f : Merger} (hf : ∀ a b, ∃ x, f a b = .ok x) (v : Json) (e : Option Json) :
    ∃ r, localVal f e v = .ok r := by
  cases e with
  | none => exact ⟨Json.canon v, by simp [localVal]⟩
  | some ex =>
    match v with
    | .obj t =>
      cases ex with
      | obj m =>
        rw [localVal_obj]
        obtain ⟨r, h⟩ := localMap_total hf t m
        rw [h]; exact ⟨_, rfl⟩
      | _ => rw [localVal_leaf (Or.inr rfl)]; exact hf _ _
    | .null | .bool _ | .num _ | .str _ | .arr _ => rw [localVal_leaf (Or.inl rfl)]; exact hf _ _
termination_by structural v
end

theorem merge_localVal {f : Merger} (hf : KeepsWF f) {m kvs : Obj} (hw : WF (.obj m)) :
    merge (.obj m) (.obj kvs) f = localVal f (some (.obj m)) (.obj kvs) := by
  rw [merge_local hf m hw, localVal_obj]; cases localMap f m kvs <;> rfl

/-! ### strict -/

theorem localVal_strict_ok {ex v x : Json} (hn : WF v) (h : localVal mergeStrict (some ex) v = .ok x) :
    ∀ p, (∀ a b, nodeAt ex p = some a → nodeAt v p = some b → a = .obj ∧ b = .obj) ∧
      nodeAt x p = (nodeAt ex p).or (nodeAt v p) := by
  intro p
  induction p generalizing ex v x with
  | nil =>
    by_cases hc : isObj v = false ∨ isObj ex = false
    · rw [localVal_leaf hc] at h; simp [mergeStrict] at h
    · rcases isObj_cases v with h1 | ⟨t, rfl⟩
      · exact absurd (Or.inl h1) hc
      rcases isObj_cases ex with h1 | ⟨m, rfl⟩
      · exact absurd (Or.inr h1) hc
      rw [localVal_obj] at h
      cases hl : localMap mergeStrict m t with
      | ok r => rw [hl] at h; simp at h; subst h; simp +contextual
      | err e => rw [hl] at h; simp at h
      | panic => rw [hl] at h; simp at h
  | cons k p ih =>
    by_cases hc : isObj v = false ∨ isObj ex = false
    · rw [localVal_leaf hc] at h; simp [mergeStrict] at h
    · rcases isObj_cases v with h1 | ⟨t, rfl⟩
      · exact absurd (Or.inl h1) hc
      rcases isObj_cases ex with h1 | ⟨m, rfl⟩
      · exact absurd (Or.inr h1) hc
      rw [localVal_obj] at h
      cases hl : localMap mergeStrict m t with
      | err e => rw [hl] at h; simp at h
      | panic => rw [hl] at h; simp at h
      | ok r =>
        rw [hl] at h; simp at h; subst h
        have := localMap_spec t (Obj.sorted_nodup ((WF_obj t).1 hn).1) m r hl k
        simp only [nodeAt_obj_cons]
        cases hv : Obj.lookup k t with
        | none =>
          rw [hv] at this; rw [this]
          simp
        | some v =>
          rw [hv] at this
          obtain ⟨x, hx, hr⟩ := this
          rw [hr]
          cases hm : Obj.lookup k m with
          | none => rw [hm] at hx; simp [localVal] at hx; simp [← hx, canon_of_WF _ (WF_lookup hn hv)]
          | some e => rw [hm] at hx; simpa using ih (WF_lookup hn hv) hx

theorem localVal_strict_of : ∀ (v ex : Json), WF v → ¬ Collide ex v → ∃ x, localVal mergeStrict (some ex) v = .ok x := by
  intro v
  induction h : sizeOf v using Nat.strongRecOn generalizing v with
  | _ n ih =>
  intro ex hw hc
  rcases isObj_cases v with h1 | ⟨t, rfl⟩
  · exfalso; apply hc
    obtain ⟨a, ha⟩ := nodeAt_nil_some ex
    exact ⟨[], a, _, ha, nodeAt_leaf h1, by simp⟩
  rcases isObj_cases ex with h1 | ⟨m, rfl⟩
  · exfalso; apply hc
    exact ⟨[], _, _, nodeAt_leaf h1, rfl, by simp⟩
  rw [localVal_obj]
  obtain ⟨r, hr⟩ := localMap_ok (f := mergeStrict) t (Obj.sorted_nodup ((WF_obj t).1 hw).1) m (by
    intro k v hk
    cases hm : Obj.lookup k m with
    | none => exact ⟨canon v, by simp [localVal]⟩
    | some e =>
      refine ih (sizeOf v) ?_ v rfl e (WF_lookup hw hk) ?_
      · have := List.sizeOf_lt_of_mem (Obj.lookup_mem hk)
        rw [← h]; simp at this ⊢; omega
      · rintro ⟨p, a, b, ha, hb, hne⟩
        exact hc ⟨k :: p, a, b, by simp [nodeAt_obj_cons, hm, ha], by simp [nodeAt_obj_cons, hk, hb], hne⟩)
  rw [hr]; exact ⟨_, rfl⟩

theorem merge_strict {d s : Obj} (hd : WF (.obj d)) (hs : WF (.obj s)) :
    (Collide (.obj d) (.obj s) ∧ merge (.obj d) (.obj s) mergeStrict = .err .collision) ∨
    (¬ Collide (.obj d) (.obj s) ∧ ∃ r, merge (.obj d) (.obj s) mergeStrict = .ok (.obj r) ∧ WF (.obj r) ∧
      Union (.obj d) (.obj s) (.obj r)) := by
  rw [merge_localVal keepsWF_strict hd]
  rcases localVal_uniform uniform_strict (.obj s) (some (.obj d)) with h | ⟨x, h⟩
  · left
    refine ⟨?_, h⟩
    apply Classical.byContradiction
    intro hc
    obtain ⟨x, hx⟩ := localVal_strict_of (.obj s) (.obj d) hs hc
    rw [hx] at h; simp at h
  · right
    have hp := localVal_strict_ok hs h
    refine ⟨?_, ?_⟩
    · rintro ⟨p, a, b, ha, hb, hne⟩
      exact hne ((hp p).1 a b ha hb)
    · have hw := localVal_WF keepsWF_strict (.obj s) (some (.obj d)) x (by intro y hy; cases hy; exact hd) h
      have h0 := (hp []).2
      rcases isObj_cases x with h1 | ⟨r, rfl⟩
      · rw [nodeAt_leaf h1] at h0; simp at h0
      · exact ⟨r, h, hw, fun p => (hp p).2⟩

theorem collide_comm {a b : Json} : Collide a b ↔ Collide b a := by
  constructor <;> (rintro ⟨p, x, y, hx, hy, h⟩; exact ⟨p, y, x, hy, hx, fun e => h e.symm⟩)

/-- if there is no collision the two answers agree where both are bound -/
theorem union_comm {a b r : Json} (hc : ¬ Collide a b) (h : Union a b r) : Union b a r := by
  intro p
  rw [h p]
  cases ha : nodeAt a p with
  | none => cases nodeAt b p <;> rfl
  | some x =>
    cases hb : nodeAt b p with
    | none => rfl
    | some y =>
      have : x = .obj ∧ y = .obj := Classical.byContradiction fun hne => hc ⟨p, x, y, ha, hb, hne⟩
      simp [this.1, this.2]

theorem union_collide {a b r c : Json} (h : Union a b r) (hc : ¬ Collide a b) :
    Collide r c ↔ Collide a c ∨ Collide b c := by
  constructor
  · rintro ⟨p, x, y, hx, hy, hne⟩
    rw [h p] at hx
    cases ha : nodeAt a p with
    | none => rw [ha] at hx; exact Or.inr ⟨p, x, y, by simpa using hx, hy, hne⟩
    | some z => rw [ha] at hx; simp at hx; subst hx; exact Or.inl ⟨p, z, y, ha, hy, hne⟩
  · rintro (⟨p, x, y, hx, hy, hne⟩ | ⟨p, x, y, hx, hy, hne⟩)
    · exact ⟨p, x, y, by rw [h p, hx]; rfl, hy, hne⟩
    · exact ⟨p, x, y, by rw [union_comm hc h p, hx]; rfl, hy, hne⟩

/-- folding a strict merge over documents -/
theorem strict_fold (cc : List Obj) (hw : ∀ d ∈ cc, WF (.obj d)) (a : Obj) (ha : WF (.obj a)) :
    let out := mergeFrom mergeStrict (.obj a) (cc.map Json.obj)
    (((∀ d ∈ cc, ¬ Collide (.obj a) (.obj d)) ∧ cc.Pairwise fun x y => ¬ Collide (.obj x) (.obj y)) ∧
      ∃ r, out = .ok (.obj r) ∧ WF (.obj r) ∧
        ∀ p n, nodeAt (.obj r) p = some n ↔ nodeAt (.obj a) p = some n ∨ ∃ d ∈ cc, nodeAt (.obj d) p = some n) ∨
    (¬ ((∀ d ∈ cc, ¬ Collide (.obj a) (.obj d)) ∧ cc.Pairwise fun x y => ¬ Collide (.obj x) (.obj y)) ∧
      out = .err .collision) := by
  induction cc generalizing a with
  | nil => left; exact ⟨by simp, a, rfl, ha, by simp⟩
  | cons d t ih =>
    simp only [List.map_cons, mergeFrom]
    rcases merge_strict ha (hw d (by simp)) with ⟨hc, he⟩ | ⟨hc, r, hr, hrw, hu⟩
    · right
      rw [he]
      exact ⟨fun h => h.1 d (by simp) hc, rfl⟩
    · rw [hr]
      rcases ih (fun x hx => hw x (by simp [hx])) r hrw with ⟨⟨h1, h2⟩, x, hx, hxw, hxn⟩ | ⟨h, he⟩
      · left
        refine ⟨⟨?_, ?_⟩, x, hx, hxw, ?_⟩
        · intro y hy
          simp only [List.mem_cons] at hy
          rcases hy with rfl | hy
          · exact hc
          · exact fun hh => h1 y hy ((union_collide hu hc).2 (Or.inl hh))
        · rw [List.pairwise_cons]
          exact ⟨fun y hy hh => h1 y hy ((union_collide hu hc).2 (Or.inr hh)), h2⟩
        · intro p n
          rw [hxn p n]
          have h3 : nodeAt (.obj r) p = some n ↔ nodeAt (.obj a) p = some n ∨ nodeAt (.obj d) p = some n := by
            constructor
            · intro h; rw [hu p] at h
              cases hA : nodeAt (.obj a) p with
              | none => rw [hA] at h; right; simpa using h
              | some z => rw [hA] at h; left; simpa using h
            · rintro (h | h)
              · rw [hu p, h]; rfl
              · rw [union_comm hc hu p, h]; rfl
          rw [h3]; simp [or_assoc]
      · right
        refine ⟨?_, he⟩
        rintro ⟨h1, h2⟩
        rw [List.pairwise_cons] at h2
        apply h
        refine ⟨fun y hy hh => ?_, h2.2⟩
        rcases (union_collide hu hc).1 hh with h3 | h3
        · exact h1 y (by simp [hy]) h3
        · exact h2.1 y hy h3

theorem not_collide_empty (d : Obj) : ¬ Collide (.obj []) (.obj d) := by
  rintro ⟨p, x, y, hx, hy, hne⟩
  cases p with
  | nil => simp at hx hy; exact hne ⟨hx.symm, hy.symm⟩
  | cons k p => simp [nodeAt_obj_cons] at hx

end Oapi.Container
