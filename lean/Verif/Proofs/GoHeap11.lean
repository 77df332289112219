import Verif.Proofs.GoHeap8
import Verif.Spec.Path

/-! Views: what `Path` returns is a part of the document, not a copy. -/
namespace Oapi.GoHeap
open Spec Container

theorem arrIndex_of {s : Str} {i n : Nat} (h : Str.atoi s = some (i : Int)) (hi : i < n) : Gabs.arrIndex s n = some i := by
  unfold Gabs.arrIndex
  rw [h]
  simp only
  rw [if_pos (by omega)]

/-- The part at a location: a search finds it, and when it is changed in place the document changes there. -/
theorem view_focus : ∀ (p : List Str) (L : Loc) {h : Mem} {j : Json} {o : Val} {F : List Nat} {x : Json}, b!"*" ∉ p → NamesAll p L → Rep h j o F → getAt j L = some x →
    ∃ v A, search p o h = (h, some v) ∧ Rep h x v A ∧ (∀ a ∈ A, a ∈ F) ∧
      (∀ {h' : Mem} {x' : Json} {A' : List Nat}, Rep h' x' v A' → (∀ a ∈ F, a ∉ A → h'[a]? = h[a]?) → (∀ a ∈ F, a ∉ A → a ∉ A') →
        ∃ F', Rep h' (putAt x' L j) o F' ∧ ∀ a, a ∈ F' ↔ (a ∈ F ∧ a ∉ A) ∨ a ∈ A') ∧
      ∀ {h' : Mem}, (∀ a ∈ F, a ∉ A → h'[a]? = h[a]?) → search p o h' = (h', some v)
  | [], [], h, j, o, F, x, _, _, hr, hg => by
    cases hg
    refine ⟨o, F, rfl, hr, fun a ha => ha, ?_, fun _ => rfl⟩
    intro h' jc' A' hr' _ _
    exact ⟨A', hr', fun a => by constructor; exact .inr; exact fun h => h.elim (fun h => absurd h.1 h.2) id⟩
  | [], _ :: _, _, _, _, _, _, _, hn, _, _ => hn.elim
  | _ :: _, [], _, _, _, _, _, _, hn, _, _ => hn.elim
  | s :: p, st :: L, h, j, o, F, x, hs, hn, hr, hg => by
    simp only [List.mem_cons, not_or] at hs
    have hstar : s ≠ b!"*" := fun e => hs.1 e.symm
    obtain ⟨hn1, hn2⟩ := hn
    cases hc : child j st with
    | none => simp [getAt, hc] at hg
    | some y =>
      simp only [getAt, hc] at hg
      cases j with
      | obj m =>
        cases st with
        | idx i => cases hc
        | key k =>
          have hn1 : s = k := hn1
          subst hn1
          have hx : Obj.lookup s m = some y := hc
          obtain ⟨hm, a, kvs, G, rfl, he, hO, ha, rfl⟩ := hr
          obtain ⟨A, hC, hsub, hput⟩ := repO_focus s hm hO
          rw [hx] at hC
          obtain ⟨v, hl, hv⟩ := repC_some hC
          obtain ⟨c, B, w1, w2, w3, w4, w5⟩ := view_focus p L hs.2 hn2 hv hg
          refine ⟨c, B, by simp only [search, mapAt_of he, hl, w1], w2, fun b hb => by simp [hsub b (w3 b hb)], ?_, fun {h'} hsame => by
            have he' : h'[a]? = some (.map kvs) := by rw [hsame a (by simp) (fun hb => ha (hsub a (w3 a hb))), he]
            simp only [search, mapAt_of he', hl]
            exact w5 fun b hb hn => hsame b (by simp [hsub b hb]) hn⟩
          intro h' jc' A' hr' hsame hdis
          have hBA : ∀ b, b ∉ A → b ∉ B := fun b hb hb' => hb (w3 b hb')
          have haB : a ∉ B := fun hb => ha (hsub a (w3 a hb))
          obtain ⟨F1, k1, k2⟩ := w4 hr' (fun b hb hn => hsame b (by simp [hsub b hb]) hn) (fun b hb hn => hdis b (by simp [hsub b hb]) hn)
          have he' : h'[a]? = some (.map kvs) := by rw [hsame a (by simp) haB, he]
          obtain ⟨F2, k3, k4⟩ := hput k1 (fun b hb hn => hsame b (by simp [hb]) (hBA b hn)) (fun b hb hn hb1 => by
            rcases (k2 b).1 hb1 with hb1 | hb1
            · exact hn hb1.1
            · exact hdis b (by simp [hb]) (hBA b hn) hb1)
          have haF2 : a ∉ F2 := fun hb => by
            rcases (k4 a).1 hb with hb | hb
            · exact ha hb.1
            · rcases (k2 a).1 hb with hb | hb
              · exact ha (hsub a hb.1)
              · exact hdis a (by simp) haB hb
          have hpa : putAt jc' (.key s :: L) (.obj m) = .obj (Obj.insert s (putAt jc' L y) m) := by simp only [putAt, hx]
          rw [hpa]
          refine ⟨a :: F2, ⟨Obj.insert_sorted _ _ _ hm, a, kvs, F2, rfl, he', ?_, haF2, rfl⟩, fun b => ?_⟩
          · rw [put_look hm hO hl] at k3; exact k3
          · rw [List.mem_cons, k4, k2, List.mem_cons]
            constructor
            · rintro (rfl | ⟨h1, h2⟩ | ⟨h1, h2⟩ | h1)
              · exact .inl ⟨.inl rfl, haB⟩
              · exact .inl ⟨.inr h1, hBA b h2⟩
              · exact .inl ⟨.inr (hsub b h1), h2⟩
              · exact .inr h1
            · rintro (⟨rfl | h1, h2⟩ | h1)
              · exact .inl rfl
              · by_cases hA : b ∈ A
                · exact .inr (.inr (.inl ⟨hA, h2⟩))
                · exact .inr (.inl ⟨h1, hA⟩)
              · exact .inr (.inr (.inr h1))
      | arr xs =>
        cases st with
        | key k => cases hc
        | idx i =>
          have hx : xs[i]? = some y := hc
          have hi : i < xs.length := (List.getElem?_eq_some_iff.1 hx).1
          obtain ⟨a, len, bs, G, rfl, he, hlen, hL, ha, rfl⟩ := hr
          have hll := repL_length hL
          have hll' : len = xs.length := by simpa [Nat.min_eq_left hlen] using hll
          obtain ⟨A, hC, hsub, hput⟩ := repL_focus i hL
          rw [hx] at hC
          obtain ⟨v, hl, hv⟩ := repC_some hC
          obtain ⟨c, B, w1, w2, w3, w4, w5⟩ := view_focus p L hs.2 hn2 hv hg
          have hel : h.elems a len = bs.take len := by simp [Mem.elems, Mem.arrAt, he]
          refine ⟨c, B, by simp only [search, if_neg hstar, arrIndex_of hn1 (hll' ▸ hi), hel, hl, w1], w2, fun b hb => by simp [hsub b (w3 b hb)], ?_, fun {h'} hsame => by
            have he' : h'[a]? = some (.arr bs) := by rw [hsame a (by simp) (fun hb => ha (hsub a (w3 a hb))), he]
            have hel' : h'.elems a len = bs.take len := by simp [Mem.elems, Mem.arrAt, he']
            simp only [search, if_neg hstar, arrIndex_of hn1 (hll' ▸ hi), hel', hl]
            exact w5 fun b hb hn => hsame b (by simp [hsub b hb]) hn⟩
          intro h' jc' A' hr' hsame hdis
          have hBA : ∀ b, b ∉ A → b ∉ B := fun b hb hb' => hb (w3 b hb')
          have haB : a ∉ B := fun hb => ha (hsub a (w3 a hb))
          obtain ⟨F1, k1, k2⟩ := w4 hr' (fun b hb hn => hsame b (by simp [hsub b hb]) hn) (fun b hb hn => hdis b (by simp [hsub b hb]) hn)
          have he' : h'[a]? = some (.arr bs) := by rw [hsame a (by simp) haB, he]
          obtain ⟨F2, k3, k4⟩ := hput hi k1 (fun b hb hn => hsame b (by simp [hb]) (hBA b hn)) (fun b hb hn hb1 => by
            rcases (k2 b).1 hb1 with hb1 | hb1
            · exact hn hb1.1
            · exact hdis b (by simp [hb]) (hBA b hn) hb1)
          have haF2 : a ∉ F2 := fun hb => by
            rcases (k4 a).1 hb with hb | hb
            · exact ha hb.1
            · rcases (k2 a).1 hb with hb | hb
              · exact ha (hsub a hb.1)
              · exact hdis a (by simp) haB hb
          have hpa : putAt jc' (.idx i :: L) (.arr xs) = .arr (xs.set i (putAt jc' L y)) := by simp only [putAt, hx]
          rw [hpa]
          refine ⟨a :: F2, ⟨a, len, bs, F2, rfl, he', hlen, ?_, haF2, rfl⟩, fun b => ?_⟩
          · rw [set_getElem hl] at k3; exact k3
          · rw [List.mem_cons, k4, k2, List.mem_cons]
            constructor
            · rintro (rfl | ⟨h1, h2⟩ | ⟨h1, h2⟩ | h1)
              · exact .inl ⟨.inl rfl, haB⟩
              · exact .inl ⟨.inr h1, hBA b h2⟩
              · exact .inl ⟨.inr (hsub b h1), h2⟩
              · exact .inr h1
            · rintro (⟨rfl | h1, h2⟩ | h1)
              · exact .inl rfl
              · by_cases hA : b ∈ A
                · exact .inr (.inr (.inl ⟨hA, h2⟩))
                · exact .inr (.inl ⟨h1, hA⟩)
              · exact .inr (.inr (.inr h1))
      | null => cases hc
      | bool b => cases hc
      | num b => cases hc
      | str b => cases hc

end Oapi.GoHeap
