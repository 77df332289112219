import Verif.Proofs.GoHeap3
import Verif.Proofs.Merge2

/-! `Set` on containers, and storing a value where it already is. -/
namespace Oapi.GoHeap

theorem rep_null {h : Mem} {j : Json} {F : List Nat} (hr : Rep h j .null F) : j = .null := by
  cases j with
  | null => rfl
  | bool b => exact absurd hr.1 (by simp)
  | num b => exact absurd hr.1 (by simp)
  | str b => exact absurd hr.1 (by simp)
  | arr xs => obtain ⟨a, len, bs, G, e, -⟩ := hr; exact absurd e (by simp)
  | obj m => obtain ⟨-, a, kvs, G, e, -⟩ := hr; exact absurd e (by simp)

theorem set_rep (room : Nat) {jv : Json} {v : Val} {G : List Nat} (p : List Str) {o : Val} {h : Mem} {j : Json} {F : List Nat}
    (hr : Rep h j o F) (hv : Rep h jv v G) (hd : ∀ a ∈ F, a ∉ G) : SetSpec p h o F G (set room v p o h) (Gabs.set jv p j) := by
  cases p with
  | nil => exact ⟨h, v, G, rfl, hv, Changes.refl _ _, fun a ha => .inr (.inl ha), fun hp => absurd rfl hp⟩
  | cons s q =>
    obtain ⟨C, hC, hc, hsub⟩ := fill_rep (oj := some j) (ov := some o) (A := F) hr
    have hG := rep_lt _ _ _ hv
    have hspec := setRec_rep room (s :: q) true hC (hc.frame hv (by simp)) (fun a ha hg => by
      rcases hsub a ha with hf | hf
      · exact hd a hf hg
      · exact absurd (hG a hg) (by omega))
    have e1 : set room v (s :: q) o h = setRec room v true (s :: q) (fill (some o) h).2 (fill (some o) h).1 := rfl
    have e2 : Gabs.set jv (s :: q) j = Gabs.setGo jv true (s :: q) (Gabs.fill (some j)) := rfl
    rw [e1, e2]
    cases hg : Gabs.setGo jv true (s :: q) (Gabs.fill (some j)) with
    | err e => rw [hg] at hspec; exact hspec
    | panic => rw [hg] at hspec; exact hspec
    | ok j' =>
      rw [hg] at hspec
      obtain ⟨h', o', F', g1, g2, g3, g4, g5⟩ := hspec
      refine ⟨h', o', F', g1, g2, (hc.mono (F' := F) (by simp)).trans g3 ?_, ?_, ?_⟩
      · intro a ha hl
        rcases hsub a ha with hf | hf
        · exact hf
        · omega
      · intro a ha
        rcases g4 a ha with ha | ha | ha
        · exact (hsub a ha).imp id .inr
        · exact .inr (.inl ha)
        · exact .inr (.inr (Nat.le_trans hc.le ha))
      · rintro - a rfl
        exact g5 (by simp) a rfl

theorem put_look {k : Str} {v : Val} : ∀ {kvs : GoMap} {m : Obj} {h : Mem} {F : List Nat}, Obj.Sorted m → RepO h m kvs F → look k kvs = some v → put k v kvs = kvs
  | [], _, _, _, _, _, e => by cases e
  | (k', v') :: t, m, h, F, hs, hr, e => by
    cases m with
    | nil => simp [RepO] at hr
    | cons p mt =>
      obtain ⟨k0, x⟩ := p
      simp only [RepO] at hr
      obtain ⟨w, vt, A, B, e2, h1, h2, rfl, h3⟩ := hr
      cases e2
      simp only [look] at e
      split at e
      · rename_i hk
        cases e
        simp [put, hk]
      · rename_i hk
        have hlt : Str.lt k k' = false := by
          cases hl : Str.lt k k' with
          | false => rfl
          | true =>
            exfalso
            have key : ∀ {kvs : GoMap} {m : Obj} {F : List Nat}, RepO h m kvs F → ∀ {v}, look k kvs = some v → k ∈ Obj.keys m := by
              intro kvs
              induction kvs with
              | nil => intro m F _ v e; cases e
              | cons p t ih =>
                intro m F hr v e
                cases m with
                | nil => simp [RepO] at hr
                | cons q mt =>
                  simp only [RepO] at hr
                  obtain ⟨w, vt, A, B, e2, h1, h2, rfl, h3⟩ := hr
                  cases e2
                  simp only [look] at e
                  split at e
                  · rename_i hk; simp [Obj.keys, hk]
                  · have := ih h2 e
                    simp only [Obj.keys, List.map_cons, List.mem_cons]
                    exact .inr this
            have := hs.1 k (key h2 e)
            rw [Str.lt_asymm hl] at this
            cases this
        simp only [put, if_neg hk, hlt]
        rw [put_look hs.2 h2 e]
        rfl

theorem insert_lookup {k : Str} {v : Json} {m : Obj} (hs : Obj.Sorted m) (e : Obj.lookup k m = some v) : Obj.insert k v m = m := by
  refine Obj.ext_lookup (Obj.insert_sorted k v m hs) hs fun k' => ?_
  rw [Obj.lookup_insert]
  by_cases hk : k' = k
  · subst hk; simp [e]
  · simp [hk]

theorem set_getElem {α : Type} {l : List α} {i : Nat} {x : α} (e : l[i]? = some x) : l.set i x = l := by
  obtain ⟨hi, rfl⟩ := List.getElem?_eq_some_iff.1 e
  exact List.set_getElem_self hi

/-- Storing what a search has found at the place it was found: nothing changes, in memory and in the document; or the path has a wildcard, and it fails. -/
theorem setRec_same (room : Nat) : ∀ (p : List Str) (root : Bool) {o v : Val} {h h' : Mem} {j jv : Json} {F : List Nat},
    Rep h j o F → Changes [] h h' → Gabs.search p j = some jv → (search p o h).2 = some v →
      (setRec room v root p o h' = .ok (h', o) ∧ Gabs.setGo jv root p j = .ok j) ∨
      ∃ e, setRec room v root p o h' = .err e ∧ Gabs.setGo jv root p j = .err e
  | [], root, o, v, h, h', j, jv, F, hr, hc, hj, hv => by
    cases hj
    have : v = o := by simpa [search] using hv.symm
    subst this
    exact .inl ⟨rfl, by simp [Gabs.setGo]⟩
  | seg :: p, root, o, v, h, h', j, jv, F, hr, hc, hj, hv => by
    cases j with
    | null => simp [Gabs.search] at hj
    | bool b => simp [Gabs.search] at hj
    | num b => simp [Gabs.search] at hj
    | str b => simp [Gabs.search] at hj
    | obj m =>
      obtain ⟨hs, a, kvs, G, rfl, he, hO, ha, rfl⟩ := hr
      have he' : h'[a]? = some (.map kvs) := by rw [hc.same a (List.getElem?_eq_some_iff.1 he).1 (by simp), he]
      obtain ⟨A, hC, hsub, hput⟩ := repO_focus seg hs hO
      simp only [Gabs.search] at hj
      simp only [search, mapAt_of he] at hv
      have hself : ∀ {c}, look seg kvs = some c → h'.set a (.map (put seg c kvs)) = h' := fun e => by
        rw [put_look hs hO e]; exact set_getElem he'
      unfold RepC at hC
      split at hC
      · rename_i jc c e1 e2
        simp only [e1] at hj
        simp only [e2] at hv
        cases p with
        | nil =>
          cases hj
          have : v = c := by simpa [search] using hv.symm
          subst this
          refine .inl ⟨?_, ?_⟩
          · simp only [setRec, mapAt_of he', hself e2]
          · simp only [Gabs.setGo, insert_lookup hs e1]
        | cons s q =>
          have hjn : jc ≠ .null := by rintro rfl; simp [Gabs.search] at hj
          have hcn : c ≠ .null := by rintro rfl; exact hjn (rep_null hC)
          have ef : fill (some c) h' = (h', c) := by cases c <;> first | rfl | exact absurd rfl hcn
          have ej : Gabs.fill (some jc) = jc := by cases jc <;> first | rfl | exact absurd rfl hjn
          rw [setRec_map, setGo_obj, mapAt_of he', e2, e1, ef, ej]
          rcases setRec_same room (s :: q) false hC hc hj hv with ⟨g1, g2⟩ | ⟨e, g1, g2⟩
          · rw [g1, g2]
            refine .inl ⟨?_, ?_⟩
            · simp only [onOk, mapAt_of he', hself e2]
            · simp only [onOk, insert_lookup hs e1]
          · rw [g1, g2]
            exact .inr ⟨e, rfl, rfl⟩
      · rename_i e1 e2
        simp [e1] at hj
      · exact hC.elim
    | arr xs =>
      obtain ⟨a, len, bs, G, rfl, he, hlen, hL, ha, rfl⟩ := hr
      have he' : h'[a]? = some (.arr bs) := by rw [hc.same a (List.getElem?_eq_some_iff.1 he).1 (by simp), he]
      have hll : (bs.take len).length = xs.length := repL_length hL
      have hxl : xs.length = len := by rw [← hll]; simp [hlen]
      have hel : h.elems a len = bs.take len := by unfold Mem.elems; rw [arrAt_of he]
      have hel' : h'.elems a len = bs.take len := by unfold Mem.elems; rw [arrAt_of he']
      have hdash : seg ≠ b!"-" := by
        rintro rfl
        have : Gabs.arrIndex b!"-" xs.length = none := rfl
        simp [Gabs.search, this] at hj
      by_cases hst : seg = b!"*"
      · subst hst
        have h1 : ∀ n, Gabs.arrIndex b!"*" n = none := fun n => rfl
        refine .inr ⟨.outOfBounds, ?_, ?_⟩
        · cases p <;> simp only [setRec, if_neg hdash, h1]
        · cases p <;> simp only [Gabs.setGo, if_neg hdash, h1]
      · simp only [Gabs.search, if_neg hst, hxl] at hj
        simp only [search, if_neg hst, hel] at hv
        cases hi : Gabs.arrIndex seg len with
        | none => simp [hi] at hj
        | some i =>
          simp only [hi] at hj hv
          obtain ⟨A, hC, hsub, hput⟩ := repL_focus i hL
          unfold RepC at hC
          split at hC
          · rename_i jc c e1 e2
            simp only [e1] at hj
            simp only [e2] at hv
            have hbi : bs[i]? = some c := by
              obtain ⟨hi', e⟩ := List.getElem?_eq_some_iff.1 e2
              rw [List.getElem_take] at e
              rw [← e]
              exact List.getElem?_eq_getElem _
            have hself : h'.set a (.arr (bs.set i c)) = h' := by rw [set_getElem hbi]; exact set_getElem he'
            cases p with
            | nil =>
              cases hj
              have : v = c := by simpa [search] using hv.symm
              subst this
              refine .inl ⟨?_, ?_⟩
              · simp only [setRec, if_neg hdash, hi, arrAt_of he', hself]
              · simp only [Gabs.setGo, if_neg hdash, hxl, hi, set_getElem e1]
            | cons s q =>
              have hjn : jc ≠ .null := by rintro rfl; simp [Gabs.search] at hj
              have hcn : c ≠ .null := by rintro rfl; exact hjn (rep_null hC)
              rw [setRec_idx room v root seg s q a len h' hdash hi (hel' ▸ e2) hcn,
                setGo_idx jv root seg s q xs hdash (hxl.symm ▸ hi) e1 hjn]
              rcases setRec_same room (s :: q) false hC hc hj hv with ⟨g1, g2⟩ | ⟨e, g1, g2⟩
              · rw [g1, g2]
                refine .inl ⟨?_, ?_⟩
                · simp only [onOk, arrAt_of he', hself]
                · simp only [onOk, set_getElem e1]
              · rw [g1, g2]
                exact .inr ⟨e, rfl, rfl⟩
          · rename_i e1 e2
            simp [e1] at hj
          · exact hC.elim

theorem set_same (room : Nat) (p : List Str) {o v : Val} {h h' : Mem} {j jv : Json} {F : List Nat}
    (hr : Rep h j o F) (hc : Changes [] h h') (hj : Gabs.search p j = some jv) (hv : (search p o h).2 = some v) :
      (set room v p o h' = .ok (h', o) ∧ Gabs.set jv p j = .ok j) ∨ ∃ e, set room v p o h' = .err e ∧ Gabs.set jv p j = .err e := by
  cases p with
  | nil =>
    cases hj
    have : v = o := by simpa [search] using hv.symm
    subst this
    exact .inl ⟨rfl, rfl⟩
  | cons s q =>
    have hjn : j ≠ .null := by rintro rfl; simp [Gabs.search] at hj
    have hcn : o ≠ .null := by rintro rfl; exact hjn (rep_null hr)
    have ef : fill (some o) h' = (h', o) := by cases o <;> first | rfl | exact absurd rfl hcn
    have ej : Gabs.fill (some j) = j := by cases j <;> first | rfl | exact absurd rfl hjn
    have e1 : set room v (s :: q) o h' = setRec room v true (s :: q) (fill (some o) h').2 (fill (some o) h').1 := rfl
    have e2 : Gabs.set jv (s :: q) j = Gabs.setGo jv true (s :: q) (Gabs.fill (some j)) := rfl
    rw [e1, e2, ef, ej]
    exact setRec_same room (s :: q) true hr hc hj hv

end Oapi.GoHeap
