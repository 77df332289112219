import Verif.Spec.GoHeap
import Verif.Proofs.Json

/-! Trees in memory: framing, focusing on a member, and gabs `Set`. -/
namespace Oapi.GoHeap

/-- `h'` has what `h` has at the addresses in `F`. -/
def SameOn (F : List Nat) (h h' : Mem) : Prop := ∀ a ∈ F, h'[a]? = h[a]?

mutual
theorem rep_frame {h h' : Mem} (j : Json) (v : Val) (F : List Nat) (hr : Rep h j v F) (hs : SameOn F h h') : Rep h' j v F := by
  match j with
  | .null | .bool _ | .num _ | .str _ => simpa [Rep] using hr
  | .arr xs =>
    simp only [Rep] at hr ⊢
    obtain ⟨a, len, bs, G, rfl, h1, h2, h3, h4, rfl⟩ := hr
    exact ⟨a, len, bs, G, rfl, by rw [hs a (by simp), h1], h2, repL_frame xs _ _ h3 (fun b hb => hs b (by simp [hb])), h4, rfl⟩
  | .obj m =>
    simp only [Rep] at hr ⊢
    obtain ⟨h0, a, kvs, G, rfl, h1, h3, h4, rfl⟩ := hr
    exact ⟨h0, a, kvs, G, rfl, by rw [hs a (by simp), h1], repO_frame m _ _ h3 (fun b hb => hs b (by simp [hb])), h4, rfl⟩
termination_by structural j
theorem repL_frame {h h' : Mem} (xs : List Json) (vs : List Val) (F : List Nat) (hr : RepL h xs vs F) (hs : SameOn F h h') : RepL h' xs vs F := by
  match xs with
  | [] => simpa [RepL] using hr
  | x :: t =>
    simp only [RepL] at hr ⊢
    obtain ⟨v, vt, A, B, rfl, h1, h2, rfl, h3⟩ := hr
    exact ⟨v, vt, A, B, rfl, rep_frame x _ _ h1 (fun b hb => hs b (by simp [hb])), repL_frame t _ _ h2 (fun b hb => hs b (by simp [hb])), rfl, h3⟩
termination_by structural xs
theorem repO_frame {h h' : Mem} (m : List (Str × Json)) (kvs : GoMap) (F : List Nat) (hr : RepO h m kvs F) (hs : SameOn F h h') : RepO h' m kvs F := by
  match m with
  | [] => simpa [RepO] using hr
  | (k, x) :: t =>
    simp only [RepO] at hr ⊢
    obtain ⟨v, vt, A, B, rfl, h1, h2, rfl, h3⟩ := hr
    exact ⟨v, vt, A, B, rfl, rep_frame x _ _ h1 (fun b hb => hs b (by simp [hb])), repO_frame t _ _ h2 (fun b hb => hs b (by simp [hb])), rfl, h3⟩
termination_by structural m
end

mutual
/-- The addresses are those of memory. -/
theorem rep_lt {h : Mem} (j : Json) (v : Val) (F : List Nat) (hr : Rep h j v F) : ∀ a ∈ F, a < h.length := by
  match j with
  | .null | .bool _ | .num _ | .str _ => simp [Rep] at hr; simp [hr.2]
  | .arr xs =>
    simp only [Rep] at hr
    obtain ⟨a, len, bs, G, rfl, h1, h2, h3, h4, rfl⟩ := hr
    intro b hb
    rcases List.mem_cons.1 hb with rfl | hb
    · exact (List.getElem?_eq_some_iff.1 h1).1
    · exact repL_lt xs _ _ h3 b hb
  | .obj m =>
    simp only [Rep] at hr
    obtain ⟨h0, a, kvs, G, rfl, h1, h3, h4, rfl⟩ := hr
    intro b hb
    rcases List.mem_cons.1 hb with rfl | hb
    · exact (List.getElem?_eq_some_iff.1 h1).1
    · exact repO_lt m _ _ h3 b hb
termination_by structural j
theorem repL_lt {h : Mem} (xs : List Json) (vs : List Val) (F : List Nat) (hr : RepL h xs vs F) : ∀ a ∈ F, a < h.length := by
  match xs with
  | [] => simp [RepL] at hr; simp [hr.2]
  | x :: t =>
    simp only [RepL] at hr
    obtain ⟨v, vt, A, B, rfl, h1, h2, rfl, h3⟩ := hr
    intro b hb
    rcases List.mem_append.1 hb with hb | hb
    · exact rep_lt x _ _ h1 b hb
    · exact repL_lt t _ _ h2 b hb
termination_by structural xs
theorem repO_lt {h : Mem} (m : List (Str × Json)) (kvs : GoMap) (F : List Nat) (hr : RepO h m kvs F) : ∀ a ∈ F, a < h.length := by
  match m with
  | [] => simp [RepO] at hr; simp [hr.2]
  | (k, x) :: t =>
    simp only [RepO] at hr
    obtain ⟨v, vt, A, B, rfl, h1, h2, rfl, h3⟩ := hr
    intro b hb
    rcases List.mem_append.1 hb with hb | hb
    · exact rep_lt x _ _ h1 b hb
    · exact repO_lt t _ _ h2 b hb
termination_by structural m
end

mutual
theorem rep_wf {h : Mem} (j : Json) (v : Val) (F : List Nat) (hr : Rep h j v F) : Json.WF j := by
  match j with
  | .null | .bool _ | .num _ | .str _ => simp
  | .arr xs =>
    simp only [Rep] at hr
    obtain ⟨a, len, bs, G, rfl, h1, h2, h3, h4, rfl⟩ := hr
    simp only [Json.WF]
    exact repL_wf xs _ _ h3
  | .obj m =>
    simp only [Rep] at hr
    obtain ⟨h0, a, kvs, G, rfl, h1, h3, h4, rfl⟩ := hr
    simp only [Json.WF]
    exact ⟨h0, repO_wf m _ _ h3⟩
termination_by structural j
theorem repL_wf {h : Mem} (xs : List Json) (vs : List Val) (F : List Nat) (hr : RepL h xs vs F) : Json.WFL xs := by
  match xs with
  | [] => simp [Json.WFL]
  | x :: t =>
    simp only [RepL] at hr
    obtain ⟨v, vt, A, B, rfl, h1, h2, rfl, h3⟩ := hr
    simp only [Json.WFL]
    exact ⟨rep_wf x _ _ h1, repL_wf t _ _ h2⟩
termination_by structural xs
theorem repO_wf {h : Mem} (m : List (Str × Json)) (kvs : GoMap) (F : List Nat) (hr : RepO h m kvs F) : Json.WFO m := by
  match m with
  | [] => simp
  | (k, x) :: t =>
    simp only [RepO] at hr
    obtain ⟨v, vt, A, B, rfl, h1, h2, rfl, h3⟩ := hr
    simp only [Json.WFO]
    exact ⟨rep_wf x _ _ h1, repO_wf t _ _ h2⟩
termination_by structural m
end

mutual
theorem rep_nodup {h : Mem} (j : Json) (v : Val) (F : List Nat) (hr : Rep h j v F) : F.Nodup := by
  match j with
  | .null | .bool _ | .num _ | .str _ => simp [Rep] at hr; simp [hr.2]
  | .arr xs =>
    simp only [Rep] at hr
    obtain ⟨a, len, bs, G, rfl, h1, h2, h3, h4, rfl⟩ := hr
    exact List.nodup_cons.2 ⟨h4, repL_nodup xs _ _ h3⟩
  | .obj m =>
    simp only [Rep] at hr
    obtain ⟨h0, a, kvs, G, rfl, h1, h3, h4, rfl⟩ := hr
    exact List.nodup_cons.2 ⟨h4, repO_nodup m _ _ h3⟩
termination_by structural j
theorem repL_nodup {h : Mem} (xs : List Json) (vs : List Val) (F : List Nat) (hr : RepL h xs vs F) : F.Nodup := by
  match xs with
  | [] => simp [RepL] at hr; simp [hr.2]
  | x :: t =>
    simp only [RepL] at hr
    obtain ⟨v, vt, A, B, rfl, h1, h2, rfl, h3⟩ := hr
    exact List.nodup_append.2 ⟨rep_nodup x _ _ h1, repL_nodup t _ _ h2, fun a ha b hb e => h3 a ha (e ▸ hb)⟩
termination_by structural xs
theorem repO_nodup {h : Mem} (m : List (Str × Json)) (kvs : GoMap) (F : List Nat) (hr : RepO h m kvs F) : F.Nodup := by
  match m with
  | [] => simp [RepO] at hr; simp [hr.2]
  | (k, x) :: t =>
    simp only [RepO] at hr
    obtain ⟨v, vt, A, B, rfl, h1, h2, rfl, h3⟩ := hr
    exact List.nodup_append.2 ⟨rep_nodup x _ _ h1, repO_nodup t _ _ h2, fun a ha b hb e => h3 a ha (e ▸ hb)⟩
termination_by structural m
end

/-- A member, as a document and as a value. -/
def RepC (h : Mem) (oj : Option Json) (ov : Option Val) (A : List Nat) : Prop :=
  match oj, ov with
  | some j, some v => Rep h j v A
  | none, none => A = []
  | _, _ => False

/-- Looking at one member of a map: it is made of a part `A` of the map's parts, and it can be replaced. -/
theorem repO_focus {h : Mem} (k : Str) : ∀ {m : List (Str × Json)} {kvs : GoMap} {F : List Nat}, Obj.Sorted m → RepO h m kvs F →
    ∃ A, RepC h (Obj.lookup k m) (look k kvs) A ∧ (∀ a ∈ A, a ∈ F) ∧
      ∀ {h' : Mem} {j' : Json} {v' : Val} {A' : List Nat}, Rep h' j' v' A' → (∀ a ∈ F, a ∉ A → h'[a]? = h[a]?) → (∀ a ∈ F, a ∉ A → a ∉ A') →
        ∃ F', RepO h' (Obj.insert k j' m) (put k v' kvs) F' ∧ ∀ a, a ∈ F' ↔ (a ∈ F ∧ a ∉ A) ∨ a ∈ A'
  | [], kvs, F, hs, hr => by
    simp only [RepO] at hr
    obtain ⟨rfl, rfl⟩ := hr
    refine ⟨[], rfl, by simp, ?_⟩
    intro h' j' v' A' hr' _ _
    exact ⟨A' ++ [], ⟨v', [], A', [], rfl, hr', ⟨rfl, rfl⟩, rfl, by simp⟩, by simp⟩
  | (k0, x) :: t, kvs, F, hs, hr => by
    simp only [RepO] at hr
    obtain ⟨v, vt, A, B, rfl, h1, h2, rfl, h3⟩ := hr
    obtain ⟨hs1, hs2⟩ := hs
    by_cases hk : k = k0
    · subst hk
      refine ⟨A, ?_, by simp +contextual, ?_⟩
      · simp only [Obj.lookup, look, if_true]
        exact h1
      · intro h' j' v' A' hr' hsame hdis
        have hB : ∀ a ∈ B, a ∉ A := fun a hb ha => h3 a ha hb
        refine ⟨A' ++ B, ?_, ?_⟩
        · simp only [Obj.insert, put, if_true]
          refine ⟨v', vt, A', B, rfl, hr', repO_frame t _ _ h2 (fun b hb => hsame b (by simp [hb]) (hB b hb)), rfl, ?_⟩
          intro a ha hb
          exact hdis a (by simp [hb]) (hB a hb) ha
        · intro a
          simp only [List.mem_append]
          constructor
          · rintro (ha | hb)
            · exact .inr ha
            · exact .inl ⟨.inr hb, hB a hb⟩
          · rintro (⟨ha | hb, hn⟩ | ha)
            · exact absurd ha hn
            · exact .inr hb
            · exact .inl ha
    · obtain ⟨C, hC, hsub, hput⟩ := repO_focus k hs2 h2
      by_cases hlt : Str.lt k k0 = true
      · have hnone : Obj.lookup k t = none := by
          rw [Obj.lookup_none_iff]
          intro hm
          have := hs1 k hm
          rw [Str.lt_asymm this] at hlt
          cases hlt
        have hC0 : C = [] ∧ look k vt = none := by
          rw [hnone] at hC
          unfold RepC at hC
          split at hC
          · rename_i e _; cases e
          · rename_i e; exact ⟨hC, by first | rfl | assumption⟩
          · exact hC.elim
        refine ⟨[], ?_, by simp, ?_⟩
        · simp only [Obj.lookup, look, if_neg hk, hnone, hC0.2]
          rfl
        · intro h' j' v' A' hr' hsame hdis
          refine ⟨A' ++ (A ++ B), ?_, ?_⟩
          · simp only [Obj.insert, put, if_neg hk, if_pos hlt]
            refine ⟨v', (k0, v) :: vt, A', A ++ B, rfl, hr', ?_, rfl, ?_⟩
            · refine ⟨v, vt, A, B, rfl, rep_frame x _ _ h1 (fun b hb => hsame b (by simp [hb]) (by simp)), repO_frame t _ _ h2 (fun b hb => hsame b (by simp [hb]) (by simp)), rfl, h3⟩
            · intro a ha hb
              exact hdis a hb (by simp) ha
          · intro a
            simp only [List.mem_append, List.not_mem_nil, not_false_eq_true, and_true]
            constructor
            · rintro (ha | ha | ha) <;> simp [ha]
            · rintro ((ha | ha) | ha) <;> simp [ha]
      · refine ⟨C, ?_, fun a ha => by simp [hsub a ha], ?_⟩
        · simp only [Obj.lookup, look, if_neg hk]
          exact hC
        · intro h' j' v' A' hr' hsame hdis
          have hA : ∀ a ∈ A, a ∉ C := fun a ha hc => h3 a ha (hsub a hc)
          obtain ⟨F', hF', hmem⟩ := hput hr' (fun a ha hn => hsame a (by simp [ha]) hn) (fun a ha hn => hdis a (by simp [ha]) hn)
          refine ⟨A ++ F', ?_, ?_⟩
          · simp only [Obj.insert, put, if_neg hk, if_neg hlt]
            refine ⟨v, _, A, F', rfl, rep_frame x _ _ h1 (fun b hb => hsame b (by simp [hb]) (hA b hb)), hF', rfl, ?_⟩
            intro a ha hf
            rcases (hmem a).1 hf with hf | hf
            · exact h3 a ha hf.1
            · exact hdis a (by simp [ha]) (hA a ha) hf
          · intro a
            simp only [List.mem_append, hmem]
            constructor
            · rintro (ha | ⟨ha, hn⟩ | ha)
              · exact .inl ⟨.inl ha, hA a ha⟩
              · exact .inl ⟨.inr ha, hn⟩
              · exact .inr ha
            · rintro (⟨ha | ha, hn⟩ | ha)
              · exact .inl ha
              · exact .inr (.inl ⟨ha, hn⟩)
              · exact .inr (.inr ha)

/-- Looking at one element of a slice. -/
theorem repL_focus {h : Mem} : ∀ {xs : List Json} {vs : List Val} {F : List Nat} (i : Nat), RepL h xs vs F →
    ∃ A, RepC h xs[i]? vs[i]? A ∧ (∀ a ∈ A, a ∈ F) ∧
      ∀ {h' : Mem} {j' : Json} {v' : Val} {A' : List Nat}, i < xs.length → Rep h' j' v' A' → (∀ a ∈ F, a ∉ A → h'[a]? = h[a]?) → (∀ a ∈ F, a ∉ A → a ∉ A') →
        ∃ F', RepL h' (xs.set i j') (vs.set i v') F' ∧ ∀ a, a ∈ F' ↔ (a ∈ F ∧ a ∉ A) ∨ a ∈ A'
  | [], vs, F, i, hr => by
    simp only [RepL] at hr
    obtain ⟨rfl, rfl⟩ := hr
    refine ⟨[], by simp [RepC], by simp, ?_⟩
    intro h' j' v' A' hi
    simp at hi
  | x :: t, vs, F, i, hr => by
    simp only [RepL] at hr
    obtain ⟨v, vt, A, B, rfl, h1, h2, rfl, h3⟩ := hr
    cases i with
    | zero =>
      refine ⟨A, by simpa [RepC] using h1, by simp +contextual, ?_⟩
      intro h' j' v' A' _ hr' hsame hdis
      have hB : ∀ a ∈ B, a ∉ A := fun a hb ha => h3 a ha hb
      refine ⟨A' ++ B, ⟨v', vt, A', B, rfl, hr', repL_frame t _ _ h2 (fun b hb => hsame b (by simp [hb]) (hB b hb)), rfl, ?_⟩, ?_⟩
      · intro a ha hb
        exact hdis a (by simp [hb]) (hB a hb) ha
      · intro a
        simp only [List.mem_append]
        constructor
        · rintro (ha | hb)
          · exact .inr ha
          · exact .inl ⟨.inr hb, hB a hb⟩
        · rintro (⟨ha | hb, hn⟩ | ha)
          · exact absurd ha hn
          · exact .inr hb
          · exact .inl ha
    | succ i =>
      obtain ⟨C, hC, hsub, hput⟩ := repL_focus i h2
      refine ⟨C, by simpa using hC, fun a ha => by simp [hsub a ha], ?_⟩
      intro h' j' v' A' hi hr' hsame hdis
      have hA : ∀ a ∈ A, a ∉ C := fun a ha hc => h3 a ha (hsub a hc)
      obtain ⟨F', hF', hmem⟩ := hput (by simpa using hi) hr' (fun a ha hn => hsame a (by simp [ha]) hn) (fun a ha hn => hdis a (by simp [ha]) hn)
      refine ⟨A ++ F', ⟨v, _, A, F', rfl, rep_frame x _ _ h1 (fun b hb => hsame b (by simp [hb]) (hA b hb)), hF', rfl, ?_⟩, ?_⟩
      · intro a ha hf
        rcases (hmem a).1 hf with hf | hf
        · exact h3 a ha hf.1
        · exact hdis a (by simp [ha]) (hA a ha) hf
      · intro a
        simp only [List.mem_append, hmem]
        constructor
        · rintro (ha | ⟨ha, hn⟩ | ha)
          · exact .inl ⟨.inl ha, hA a ha⟩
          · exact .inl ⟨.inr ha, hn⟩
          · exact .inr ha
        · rintro (⟨ha | ha, hn⟩ | ha)
          · exact .inl ha
          · exact .inr (.inl ⟨ha, hn⟩)
          · exact .inr (.inr ha)

theorem repL_length {h : Mem} : ∀ {xs : List Json} {vs : List Val} {F : List Nat}, RepL h xs vs F → vs.length = xs.length
  | [], vs, F, hr => by simp only [RepL] at hr; simp [hr.1]
  | x :: t, vs, F, hr => by
    simp only [RepL] at hr
    obtain ⟨v, vt, A, B, rfl, h1, h2, rfl, h3⟩ := hr
    simp [repL_length h2]

/-- Appending an element. -/
theorem repL_snoc {h : Mem} {j : Json} {v : Val} {A : List Nat} (hv : Rep h j v A) : ∀ {xs : List Json} {vs : List Val} {F : List Nat}, RepL h xs vs F →
    (∀ a ∈ F, a ∉ A) → ∃ F', RepL h (xs ++ [j]) (vs ++ [v]) F' ∧ ∀ a, a ∈ F' ↔ a ∈ F ∨ a ∈ A
  | [], vs, F, hr, hd => by
    simp only [RepL] at hr
    obtain ⟨rfl, rfl⟩ := hr
    exact ⟨A ++ [], ⟨v, [], A, [], rfl, hv, ⟨rfl, rfl⟩, rfl, by simp⟩, by simp⟩
  | x :: t, vs, F, hr, hd => by
    simp only [RepL] at hr
    obtain ⟨w, vt, C, B, rfl, h1, h2, rfl, h3⟩ := hr
    obtain ⟨F', hF, hm⟩ := repL_snoc hv h2 (fun a ha => hd a (by simp [ha]))
    refine ⟨C ++ F', ⟨w, _, C, F', rfl, h1, hF, rfl, ?_⟩, ?_⟩
    · intro a ha hf
      rcases (hm a).1 hf with hf | hf
      · exact h3 a ha hf
      · exact hd a (by simp [ha]) hf
    · intro a
      simp [hm, or_assoc]

end Oapi.GoHeap
