import Verif.Proofs.GoHeap2
import Verif.Proofs.Pkgs

/-! Reading, copying and searching in memory. -/
namespace Oapi.GoHeap

mutual
theorem alloc_rep (j : Json) (h : Mem) (hw : Json.WF j) : ∃ F, Rep (alloc j h).1 j (alloc j h).2 F ∧ Changes [] h (alloc j h).1 ∧ ∀ a ∈ F, h.length ≤ a := by
  match j with
  | .null => exact ⟨[], ⟨rfl, rfl⟩, Changes.refl _ _, by simp⟩
  | .bool b => exact ⟨[], ⟨rfl, rfl⟩, Changes.refl _ _, by simp⟩
  | .num b => exact ⟨[], ⟨rfl, rfl⟩, Changes.refl _ _, by simp⟩
  | .str b => exact ⟨[], ⟨rfl, rfl⟩, Changes.refl _ _, by simp⟩
  | .arr xs =>
    simp only [Json.WF] at hw
    obtain ⟨F, h1, h2, h3⟩ := allocL_rep xs h hw
    have hlt := repL_lt _ _ _ h1
    simp only [alloc]
    refine ⟨(allocL xs h).1.length :: F, ⟨_, _, (allocL xs h).2, F, rfl, by simp, Nat.le_refl _, ?_, fun hx => absurd (hlt _ hx) (by omega), rfl⟩, ?_, ?_⟩
    · rw [List.take_of_length_le (Nat.le_refl _)]
      exact repL_frame _ _ _ h1 fun b hb => List.getElem?_append_left (hlt b hb)
    · exact h2.trans (Changes.grow [] _ _) (by simp)
    · intro b hb
      rcases List.mem_cons.1 hb with rfl | hb
      · exact h2.le
      · exact h3 b hb
  | .obj m =>
    simp only [Json.WF] at hw
    obtain ⟨F, h1, h2, h3⟩ := allocO_rep m h hw.2
    have hlt := repO_lt _ _ _ h1
    simp only [alloc]
    refine ⟨(allocO m h).1.length :: F, ⟨hw.1, _, (allocO m h).2, F, rfl, by simp, ?_, fun hx => absurd (hlt _ hx) (by omega), rfl⟩, ?_, ?_⟩
    · exact repO_frame _ _ _ h1 fun b hb => List.getElem?_append_left (hlt b hb)
    · exact h2.trans (Changes.grow [] _ _) (by simp)
    · intro b hb
      rcases List.mem_cons.1 hb with rfl | hb
      · exact h2.le
      · exact h3 b hb
termination_by structural j
theorem allocL_rep (xs : List Json) (h : Mem) (hw : Json.WFL xs) : ∃ F, RepL (allocL xs h).1 xs (allocL xs h).2 F ∧ Changes [] h (allocL xs h).1 ∧ ∀ a ∈ F, h.length ≤ a := by
  match xs with
  | [] => exact ⟨[], ⟨rfl, rfl⟩, Changes.refl _ _, by simp⟩
  | x :: t =>
    simp only [Json.WFL] at hw
    obtain ⟨A, h1, h2, h3⟩ := alloc_rep x h hw.1
    obtain ⟨B, g1, g2, g3⟩ := allocL_rep t (alloc x h).1 hw.2
    have hlt := rep_lt _ _ _ h1
    simp only [allocL]
    refine ⟨A ++ B, ⟨_, _, A, B, rfl, g2.frame h1 (by simp), g1, rfl, ?_⟩, h2.trans g2 (by simp), ?_⟩
    · intro a ha hb
      have := hlt a ha
      have := g3 a hb
      omega
    · intro b hb
      rcases List.mem_append.1 hb with hb | hb
      · exact h3 b hb
      · exact Nat.le_trans h2.le (g3 b hb)
termination_by structural xs
theorem allocO_rep (m : List (Str × Json)) (h : Mem) (hw : Json.WFO m) : ∃ F, RepO (allocO m h).1 m (allocO m h).2 F ∧ Changes [] h (allocO m h).1 ∧ ∀ a ∈ F, h.length ≤ a := by
  match m with
  | [] => exact ⟨[], ⟨rfl, rfl⟩, Changes.refl _ _, by simp⟩
  | (k, x) :: t =>
    simp only [Json.WFO] at hw
    obtain ⟨A, h1, h2, h3⟩ := alloc_rep x h hw.1
    obtain ⟨B, g1, g2, g3⟩ := allocO_rep t (alloc x h).1 hw.2
    have hlt := rep_lt _ _ _ h1
    simp only [allocO]
    refine ⟨A ++ B, ⟨_, _, A, B, rfl, g2.frame h1 (by simp), g1, rfl, ?_⟩, h2.trans g2 (by simp), ?_⟩
    · intro a ha hb
      have := hlt a ha
      have := g3 a hb
      omega
    · intro b hb
      rcases List.mem_append.1 hb with hb | hb
      · exact h3 b hb
      · exact Nat.le_trans h2.le (g3 b hb)
termination_by structural m
end

mutual
theorem reads_rep {h : Mem} (j : Json) (v : Val) (F : List Nat) (n : Nat) (hr : Rep h j v F) (hn : F.length < n) : reads n h v = some j := by
  match n with
  | 0 => omega
  | n + 1 =>
  match j with
  | .null => obtain ⟨rfl, rfl⟩ := hr; rfl
  | .bool b => obtain ⟨rfl, rfl⟩ := hr; rfl
  | .num b => obtain ⟨rfl, rfl⟩ := hr; rfl
  | .str b => obtain ⟨rfl, rfl⟩ := hr; rfl
  | .arr xs =>
    simp only [Rep] at hr
    obtain ⟨a, len, bs, G, rfl, h1, h2, h3, h4, rfl⟩ := hr
    simp only [reads, Mem.elems]
    rw [arrAt_of h1, readsL_rep xs _ G n h3 (by simp at hn; omega)]
    rfl
  | .obj m =>
    simp only [Rep] at hr
    obtain ⟨h0, a, kvs, G, rfl, h1, h3, h4, rfl⟩ := hr
    simp only [reads]
    rw [mapAt_of h1, readsO_rep m _ G n h3 (by simp at hn; omega)]
    rfl
termination_by structural j
theorem readsL_rep {h : Mem} (xs : List Json) (vs : List Val) (F : List Nat) (n : Nat) (hr : RepL h xs vs F) (hn : F.length < n) : readsL (reads n h) vs = some xs := by
  match xs with
  | [] => obtain ⟨rfl, rfl⟩ := hr; rfl
  | x :: t =>
    simp only [RepL] at hr
    obtain ⟨v, vt, A, B, rfl, h1, h2, rfl, h3⟩ := hr
    simp only [List.length_append] at hn
    simp only [readsL]
    rw [reads_rep x v A n h1 (by omega), readsL_rep t vt B n h2 (by omega)]
termination_by structural xs
theorem readsO_rep {h : Mem} (m : List (Str × Json)) (kvs : GoMap) (F : List Nat) (n : Nat) (hr : RepO h m kvs F) (hn : F.length < n) : readsO (reads n h) kvs = some m := by
  match m with
  | [] => obtain ⟨rfl, rfl⟩ := hr; rfl
  | (k, x) :: t =>
    simp only [RepO] at hr
    obtain ⟨v, vt, A, B, rfl, h1, h2, rfl, h3⟩ := hr
    simp only [List.length_append] at hn
    simp only [readsO]
    rw [reads_rep x v A n h1 (by omega), readsO_rep t vt B n h2 (by omega)]
termination_by structural m
end

/-- A tree reads as its document. -/
theorem doc_rep {h : Mem} {j : Json} {v : Val} {F : List Nat} (hr : Rep h j v F) : doc h v = some j := by
  refine reads_rep j v F _ hr ?_
  have := Pkgs.nodup_bounded (rep_nodup j v F hr) (rep_lt j v F hr)
  omega

theorem clone_rep {h : Mem} {j : Json} {v : Val} {F : List Nat} (hr : Rep h j v F) :
    ∃ h' v' F', clone h v = .ok (h', v') ∧ Rep h' j v' F' ∧ Changes [] h h' ∧ ∀ a ∈ F', h.length ≤ a := by
  unfold clone
  rw [doc_rep hr]
  obtain ⟨F', h1, h2, h3⟩ := alloc_rep j h (rep_wf j v F hr)
  exact ⟨_, _, F', rfl, h1, h2, h3⟩

/-- What a search finds, given what the value-level model finds. -/
def Finds (h : Mem) (F : List Nat) (r : Mem × Option Val) : Option Json → Prop
  | none => r.2 = none ∧ Changes [] h r.1
  | some j' => ∃ v' F', r.2 = some v' ∧ Rep r.1 j' v' F' ∧ Changes [] h r.1 ∧ ∀ a ∈ F', a ∈ F ∨ h.length ≤ a

theorem searchAll_rep {f : Val → Mem → Mem × Option Val} {g : Json → Option Json}
    (hf : ∀ {h : Mem} {j : Json} {v : Val} {F : List Nat}, Rep h j v F → Finds h F (f v h) (g j)) :
    ∀ {xs : List Json} {h : Mem} {vs : List Val} {F : List Nat}, RepL h xs vs F →
      ∃ F', RepL (searchAll f vs h).1 (xs.filterMap g) (searchAll f vs h).2 F' ∧ Changes [] h (searchAll f vs h).1 ∧ ∀ a ∈ F', a ∈ F ∨ h.length ≤ a
  | [], h, vs, F, hr => by
    obtain ⟨rfl, rfl⟩ := hr
    exact ⟨[], ⟨rfl, rfl⟩, Changes.refl _ _, by simp⟩
  | x :: t, h, vs, F, hr => by
    simp only [RepL] at hr
    obtain ⟨v, vt, A, B, rfl, h1, h2, rfl, h3⟩ := hr
    have hx := hf h1
    simp only [searchAll, List.filterMap_cons]
    cases hg : g x with
    | none =>
      rw [hg] at hx
      obtain ⟨e, c⟩ := hx
      obtain ⟨F', g1, g2, g3⟩ := searchAll_rep hf (repL_frame _ _ _ h2 (h' := (f v h).1) (fun b hb => c.same b (repL_lt _ _ _ h2 b hb) (by simp)))
      rw [e]
      refine ⟨F', g1, c.trans g2 (by simp), ?_⟩
      intro a ha
      rcases g3 a ha with ha | ha
      · exact .inl (by simp [ha])
      · exact .inr (Nat.le_trans c.le ha)
    | some y =>
      rw [hg] at hx
      obtain ⟨w, A', e, r, c, hA⟩ := hx
      obtain ⟨F', g1, g2, g3⟩ := searchAll_rep hf (repL_frame _ _ _ h2 (h' := (f v h).1) (fun b hb => c.same b (repL_lt _ _ _ h2 b hb) (by simp)))
      rw [e]
      refine ⟨A' ++ F', ⟨w, _, A', F', rfl, g2.frame r (by simp), g1, rfl, ?_⟩, c.trans g2 (by simp), ?_⟩
      · intro a ha hf'
        have hl := rep_lt _ _ _ r a ha
        rcases g3 a hf' with hb | hb
        · rcases hA a ha with ha | ha
          · exact h3 a ha hb
          · have := repL_lt _ _ _ h2 a hb; omega
        · omega
      · intro a ha
        rcases List.mem_append.1 ha with ha | ha
        · rcases hA a ha with ha | ha
          · exact .inl (by simp [ha])
          · exact .inr ha
        · rcases g3 a ha with ha | ha
          · exact .inl (by simp [ha])
          · exact .inr (Nat.le_trans c.le ha)

theorem repL_isEmpty {h : Mem} {xs : List Json} {vs : List Val} {F : List Nat} (hr : RepL h xs vs F) : vs.isEmpty = xs.isEmpty := by
  have := repL_length hr
  cases xs <;> cases vs <;> simp_all

theorem search_rep : ∀ (p : List Str) {h : Mem} {j : Json} {v : Val} {F : List Nat}, Rep h j v F → Finds h F (search p v h) (Gabs.search p j)
  | [], h, j, v, F, hr => by
    have e : Gabs.search [] j = some j := by cases j <;> rfl
    have e' : search [] v h = (h, some v) := by cases v <;> rfl
    rw [e, e']
    exact ⟨v, F, rfl, hr, Changes.refl _ _, fun a ha => .inl ha⟩
  | seg :: p, h, j, v, F, hr => by
    cases j with
    | null => obtain ⟨rfl, rfl⟩ := hr; exact ⟨rfl, Changes.refl _ _⟩
    | bool b => obtain ⟨rfl, rfl⟩ := hr; exact ⟨rfl, Changes.refl _ _⟩
    | num b => obtain ⟨rfl, rfl⟩ := hr; exact ⟨rfl, Changes.refl _ _⟩
    | str b => obtain ⟨rfl, rfl⟩ := hr; exact ⟨rfl, Changes.refl _ _⟩
    | obj m =>
      obtain ⟨hm, a, kvs, Gm, rfl, he, hO, ha, rfl⟩ := hr
      obtain ⟨A, hC, hsub, hput⟩ := repO_focus seg hm hO
      simp only [Gabs.search, search]
      rw [mapAt_of he]
      unfold RepC at hC
      split at hC
      · rename_i jc c e1 e2
        simp only [e1, e2]
        have ih := search_rep p hC
        cases hg : Gabs.search p jc with
        | none => rw [hg] at ih; exact ih
        | some j' =>
          rw [hg] at ih
          obtain ⟨v', F', g1, g2, g3, g4⟩ := ih
          refine ⟨v', F', g1, g2, g3, fun b hb => ?_⟩
          rcases g4 b hb with hb | hb
          · exact .inl (by simp [hsub b hb])
          · exact .inr hb
      · rename_i e1 e2
        simp only [e1, e2]
        exact ⟨rfl, Changes.refl _ _⟩
      · exact hC.elim
    | arr xs =>
      obtain ⟨a, len, bs, Gm, rfl, he, hlen, hL, ha, rfl⟩ := hr
      have hll : (bs.take len).length = xs.length := repL_length hL
      have hxl : xs.length = len := by rw [← hll]; simp [hlen]
      have hel : h.elems a len = bs.take len := by unfold Mem.elems; rw [arrAt_of he]
      by_cases hs : seg = b!"*"
      · have key : ∀ {h1 : Mem} {tmp : List Json} {vs : List Val} {F' : List Nat}, RepL h1 tmp vs F' → Changes [] h h1 → (∀ b ∈ F', b ∈ a :: Gm ∨ h.length ≤ b) →
            Finds h (a :: Gm) (if vs.isEmpty then (h1, none) else (h1 ++ [.arr vs], some (.slice h1.length vs.length))) (if tmp.isEmpty then none else some (.arr tmp)) := by
          intro h1 tmp vs F' r c hF
          rw [repL_isEmpty r]
          split
          · exact ⟨rfl, c⟩
          · have hlt := repL_lt _ _ _ r
            refine ⟨_, h1.length :: F', rfl, ⟨_, _, vs, F', rfl, by simp, Nat.le_refl _, ?_, fun hx => absurd (hlt _ hx) (by omega), rfl⟩, c.trans (Changes.grow [] _ _) (by simp), ?_⟩
            · rw [List.take_of_length_le (Nat.le_refl _)]
              exact repL_frame _ _ _ r fun b hb => List.getElem?_append_left (hlt b hb)
            · intro b hb
              rcases List.mem_cons.1 hb with rfl | hb
              · exact .inr c.le
              · exact hF b hb
        simp only [Gabs.search, search, if_pos hs]
        cases p with
        | nil => exact key (hel ▸ hL) (Changes.refl _ _) (fun b hb => .inl (by simp [hb]))
        | cons s q =>
          obtain ⟨F', g1, g2, g3⟩ := searchAll_rep (f := fun v h => search (s :: q) v h) (g := fun j => Gabs.search (s :: q) j) (fun hr => search_rep (s :: q) hr) (hel ▸ hL)
          refine key g1 g2 fun b hb => ?_
          rcases g3 b hb with hb | hb
          · exact .inl (by simp [hb])
          · exact .inr hb
      · simp only [Gabs.search, search, if_neg hs, hxl]
        cases hi : Gabs.arrIndex seg len with
        | none => exact ⟨rfl, Changes.refl _ _⟩
        | some i =>
          obtain ⟨A, hC, hsub, hput⟩ := repL_focus i hL
          simp only [hel]
          unfold RepC at hC
          split at hC
          · rename_i jc c e1 e2
            simp only [e1, e2]
            have ih := search_rep p hC
            cases hg : Gabs.search p jc with
            | none => rw [hg] at ih; exact ih
            | some j' =>
              rw [hg] at ih
              obtain ⟨v', F', g1, g2, g3, g4⟩ := ih
              refine ⟨v', F', g1, g2, g3, fun b hb => ?_⟩
              rcases g4 b hb with hb | hb
              · exact .inl (by simp [hsub b hb])
              · exact .inr hb
          · rename_i e1 e2
            simp only [e1, e2]
            exact ⟨rfl, Changes.refl _ _⟩
          · exact hC.elim

end Oapi.GoHeap
