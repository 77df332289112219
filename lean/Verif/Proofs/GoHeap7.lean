import Verif.Proofs.GoHeap6
import Verif.Proofs.Refs

/-! Parts of a document that containers look at: what is written through them, and around them. -/
namespace Oapi.GoHeap
open Spec (getAt putAt child)
open Container (keyLoc)

/-- The value below a map at a path of keys. -/
def walkM : List Str → Val → Mem → Option Val
  | [], v, _ => some v
  | k :: p, v, h => match v with
    | .map a => match look k (h.mapAt a) with
      | some c => walkM p c h
      | none => none
    | _ => none

theorem getAt_keys_cons {j : Json} {k : Str} {p : List Str} {jc : Json} (hg : getAt j (keyLoc (k :: p)) = some jc) :
    ∃ m x, j = .obj m ∧ Obj.lookup k m = some x ∧ getAt x (keyLoc p) = some jc := by
  cases j with
  | obj m =>
    simp only [keyLoc, List.map_cons, getAt, child] at hg
    cases hx : Obj.lookup k m with
    | none => simp [hx] at hg
    | some x => simp only [hx] at hg; exact ⟨m, x, rfl, hx, hg⟩
  | _ => simp [keyLoc, getAt, child] at hg

theorem putAt_keys_cons {m : Obj} {k : Str} {p : List Str} {x v : Json} (hx : Obj.lookup k m = some x) :
    putAt v (keyLoc (k :: p)) (.obj m) = .obj (Obj.insert k (putAt v (keyLoc p) x) m) := by
  simp [keyLoc, putAt, hx]

theorem walkM_frame : ∀ (p : List Str) {h h' : Mem} {j : Json} {o : Val} {F : List Nat}, Rep h j o F → SameOn F h h' → walkM p o h' = walkM p o h
  | [], h, h', j, o, F, _, _ => rfl
  | k :: p, h, h', j, o, F, hr, hs => by
    cases o with
    | map a =>
      cases j with
      | obj m =>
        obtain ⟨hm, a', kvs, G, e, he, hO, ha, rfl⟩ := hr
        cases e
        have he' : h'[a]? = some (.map kvs) := by rw [hs a (by simp), he]
        simp only [walkM, mapAt_of he, mapAt_of he']
        obtain ⟨A, hC, hsub, -⟩ := repO_focus k hm hO
        cases hl : look k kvs with
        | none => rfl
        | some c =>
          rw [hl] at hC
          unfold RepC at hC
          split at hC
          · rename_i e1 e2
            cases e2
            exact walkM_frame p hC fun b hb => hs b (by simp [hsub b hb])
          · rename_i e; cases e
          · exact hC.elim
      | null => exact absurd hr.1 (by simp)
      | bool b => exact absurd hr.1 (by simp)
      | num b => exact absurd hr.1 (by simp)
      | str b => exact absurd hr.1 (by simp)
      | arr xs => obtain ⟨a, len, bs, G, e, -⟩ := hr; exact absurd e (by simp)
    | _ => rfl

mutual
/-- The parts of a value are determined. -/
theorem rep_parts_unique {h : Mem} {j : Json} {v : Val} {F F' : List Nat} (hr : Rep h j v F) (hr' : Rep h j v F') : F = F' := by
  match j with
  | .null => rw [hr.2, hr'.2]
  | .bool b => rw [hr.2, hr'.2]
  | .num b => rw [hr.2, hr'.2]
  | .str b => rw [hr.2, hr'.2]
  | .arr xs => 
    obtain ⟨a, len, bs, G, e, he, hlen, hL, ha, rfl⟩ := hr
    obtain ⟨a', len', bs', G', e', he', hlen', hL', ha', rfl⟩ := hr'
    subst e
    cases e'
    rw [he] at he'
    cases he'
    rw [repL_parts_unique hL hL']
  | .obj m =>
    obtain ⟨-, a, kvs, G, e, he, hO, ha, rfl⟩ := hr
    obtain ⟨-, a', kvs', G', e', he', hO', ha', rfl⟩ := hr'
    subst e
    cases e'
    rw [he] at he'
    cases he'
    rw [repO_parts_unique hO hO']
termination_by structural j
theorem repL_parts_unique {h : Mem} {xs : List Json} {vs : List Val} {F F' : List Nat} (hr : RepL h xs vs F) (hr' : RepL h xs vs F') : F = F' := by
  match xs with
  | [] => rw [hr.2, hr'.2]
  | x :: t => 
    obtain ⟨v, vt, A, B, e, h1, h2, rfl, -⟩ := hr
    obtain ⟨v', vt', A', B', e', h1', h2', rfl, -⟩ := hr'
    subst e
    cases e'
    rw [rep_parts_unique h1 h1', repL_parts_unique h2 h2']
termination_by structural xs
theorem repO_parts_unique {h : Mem} {m : List (Str × Json)} {kvs : GoMap} {F F' : List Nat} (hr : RepO h m kvs F) (hr' : RepO h m kvs F') : F = F' := by
  match m with
  | [] => rw [hr.2, hr'.2]
  | (k, x) :: t => 
    obtain ⟨v, vt, A, B, e, h1, h2, rfl, -⟩ := hr
    obtain ⟨v', vt', A', B', e', h1', h2', rfl, -⟩ := hr'
    subst e
    cases e'
    rw [rep_parts_unique h1 h1', repO_parts_unique h2 h2']
termination_by structural m
end

theorem repC_some {h : Mem} {j : Json} {ov : Option Val} {A : List Nat} (hC : RepC h (some j) ov A) : ∃ v, ov = some v ∧ Rep h j v A := by
  cases ov with
  | none => exact hC.elim
  | some v => exact ⟨v, rfl, hC⟩

/-- The part at a path of keys: it can be changed in place, and nothing at other paths of the same length notices. -/
theorem rep_focus : ∀ (p : List Str) {h : Mem} {j : Json} {o : Val} {F : List Nat} {jc : Json}, Rep h j o F → getAt j (keyLoc p) = some jc →
    ∃ c A, walkM p o h = some c ∧ Rep h jc c A ∧ (∀ a ∈ A, a ∈ F) ∧
      (∀ {h' : Mem} {jc' : Json} {A' : List Nat}, Rep h' jc' c A' → (∀ a ∈ F, a ∉ A → h'[a]? = h[a]?) → (∀ a ∈ F, a ∉ A → a ∉ A') →
        ∃ F', Rep h' (putAt jc' (keyLoc p) j) o F' ∧ ∀ a, a ∈ F' ↔ (a ∈ F ∧ a ∉ A) ∨ a ∈ A') ∧
      ∀ {h' : Mem}, (∀ a ∈ F, a ∉ A → h'[a]? = h[a]?) → ∀ p', p'.length = p.length → walkM p' o h' = walkM p' o h
  | [], h, j, o, F, jc, hr, hg => by
    cases hg
    refine ⟨o, F, rfl, hr, fun a ha => ha, ?_, ?_⟩
    · intro h' jc' A' hr' _ _
      exact ⟨A', hr', fun a => by constructor; exact .inr; exact fun h => h.elim (fun h => absurd h.1 h.2) id⟩
    · intro h' _ p' hp'
      rw [List.length_eq_zero_iff.1 hp']
      rfl
  | k :: p, h, j, o, F, jc, hr, hg => by
    obtain ⟨m, x, rfl, hx, hg⟩ := getAt_keys_cons hg
    obtain ⟨hm, a, kvs, G, rfl, he, hO, ha, rfl⟩ := hr
    obtain ⟨A, hC, hsub, hput⟩ := repO_focus k hm hO
    rw [hx] at hC
    obtain ⟨v, hl, hv⟩ := repC_some hC
    obtain ⟨c, B, w1, w2, w3, w4, w5⟩ := rep_focus p hv hg
    refine ⟨c, B, by simp only [walkM, mapAt_of he, hl, w1], w2, fun b hb => by simp [hsub b (w3 b hb)], ?_, ?_⟩
    · intro h' jc' A' hr' hsame hdis
      have hBA : ∀ b, b ∉ A → b ∉ B := fun b hb hb' => hb (w3 b hb')
      have haB : a ∉ B := fun hb => ha (hsub a (w3 a hb))
      obtain ⟨F1, k1, k2⟩ := w4 hr' (fun b hb hn => hsame b (by simp [hsub b hb]) hn) (fun b hb hn => hdis b (by simp [hsub b hb]) hn)
      have he' : h'[a]? = some (.map kvs) := by rw [hsame a (by simp) haB, he]
      obtain ⟨F2, k3, k4⟩ := hput k1 (fun b hb hn => hsame b (by simp [hb]) (hBA b hn)) (fun b hb hn hb1 => by
        rcases (k2 b).1 hb1 with hb1 | hb1
        · exact hn hb1.1
        · exact hdis b (by simp [hb]) (hBA b hn) hb1)
      have haF2 : a ∉ F2 := fun hb => by
        rcases (k4 a).1 hb with hb | hb
        · exact ha hb.1
        · rcases (k2 a).1 hb with hb | hb
          · exact ha (hsub a hb.1)
          · exact hdis a (by simp) haB hb
      rw [putAt_keys_cons hx]
      refine ⟨a :: F2, ⟨Obj.insert_sorted _ _ _ hm, a, kvs, F2, rfl, he', ?_, haF2, rfl⟩, fun b => ?_⟩
      · rw [put_look hm hO hl] at k3; exact k3
      · rw [List.mem_cons, k4, k2, List.mem_cons]
        constructor
        · rintro (rfl | ⟨h1, h2⟩ | ⟨h1, h2⟩ | h1)
          · exact .inl ⟨.inl rfl, haB⟩
          · exact .inl ⟨.inr h1, hBA b h2⟩
          · exact .inl ⟨.inr (hsub b h1), h2⟩
          · exact .inr h1
        · rintro (⟨rfl | h1, h2⟩ | h1)
          · exact .inl rfl
          · by_cases hA : b ∈ A
            · exact .inr (.inr (.inl ⟨hA, h2⟩))
            · exact .inr (.inl ⟨h1, hA⟩)
          · exact .inr (.inr (.inr h1))
    · intro h' hsame p' hp'
      cases p' with
      | nil => cases hp'
      | cons k' p' =>
        have haB : a ∉ B := fun hb => ha (hsub a (w3 a hb))
        have he' : h'[a]? = some (.map kvs) := by rw [hsame a (by simp) haB, he]
        simp only [walkM, mapAt_of he, mapAt_of he']
        by_cases hk : k' = k
        · subst hk
          simp only [hl]
          exact w5 (fun b hb hn => hsame b (by simp [hsub b hb]) hn) p' (by simpa using hp')
        · obtain ⟨fp, f1, f2, f3⟩ := repO_parts hm hO
          have hfk : RepC h (some x) (some v) (fp k) := by have := f1 k; rwa [hx, hl] at this
          cases hl' : look k' kvs with
          | none => rfl
          | some c' =>
            have := f1 k'
            rw [hl'] at this
            cases hx' : Obj.lookup k' m with
            | none => rw [hx'] at this; exact this.elim
            | some x' =>
              rw [hx'] at this
              refine walkM_frame p' this fun b hb => hsame b (by simp [f2 k' b hb]) fun hb' => ?_
              have hA : b ∈ fp k := by
                have : A = fp k := rep_parts_unique hv hfk
                exact this ▸ w3 b hb'
              exact f3 k' k hk b hb hA

/-- Storing at the place of an existing part: the part leaves the document, as it is. -/
theorem setRec_replace (room : Nat) {jv : Json} {v : Val} {G : List Nat} : ∀ (p : List Str) (root : Bool) {h : Mem} {j : Json} {o : Val} {F : List Nat} {jc : Json}, p ≠ [] →
    Rep h j o F → Rep h jv v G → (∀ a ∈ F, a ∉ G) → getAt j (keyLoc p) = some jc →
    ∃ c A h' F', walkM p o h = some c ∧ Rep h jc c A ∧ (∀ a ∈ A, a ∈ F) ∧ setRec room v root p o h = .ok (h', o) ∧
      Gabs.setGo jv root p j = .ok (putAt jv (keyLoc p) j) ∧ Rep h' (putAt jv (keyLoc p) j) o F' ∧ (∀ a ∈ F', (a ∈ F ∧ a ∉ A) ∨ a ∈ G) ∧
      h'.length = h.length ∧ ∀ a, (a ∈ F → a ∈ A) → h'[a]? = h[a]?
  | [], root, h, j, o, F, jc, hp, _, _, _, _ => absurd rfl hp
  | [k], root, h, j, o, F, jc, _, hr, hv, hd, hg => by
    obtain ⟨m, x, rfl, hx, hg⟩ := getAt_keys_cons hg
    cases hg
    obtain ⟨hm, a, kvs, Gm, rfl, he, hO, ha, rfl⟩ := hr
    obtain ⟨A, hC, hsub, hput⟩ := repO_focus k hm hO
    rw [hx] at hC
    obtain ⟨w, hl, hw⟩ := repC_some hC
    have haG : a ∉ G := hd a (by simp)
    have hlt := repO_lt _ _ _ hO
    obtain ⟨F', g1, g2, g3⟩ := write_member hm he ha hsub hlt hput (Changes.refl [] h) (by simp) hv haG (fun b hb _ => hd b (by simp [hb]))
    have haA : a ∉ A := fun hb => ha (hsub a hb)
    refine ⟨w, A, h.set a (.map (put k v (h.mapAt a))), F', by simp only [walkM, mapAt_of he, hl], hw, fun b hb => by simp [hsub b hb], rfl, ?_, ?_, ?_, by simp, ?_⟩
    · rw [putAt_keys_cons hx]; simp only [Gabs.setGo, keyLoc, List.map_nil, putAt]
    · rw [putAt_keys_cons hx]; exact g1
    · intro b hb
      rcases (g3 b).1 hb with rfl | hb | hb
      · exact .inl ⟨by simp, haA⟩
      · exact .inl ⟨by simp [hb.1], hb.2⟩
      · exact .inr hb
    · intro b hb
      have : a ≠ b := by rintro rfl; exact haA (hb (by simp))
      rw [List.getElem?_set_ne this]
  | k :: s :: q, root, h, j, o, F, jc, _, hr, hv, hd, hg => by
    obtain ⟨m, x, rfl, hx, hg⟩ := getAt_keys_cons hg
    obtain ⟨hm, a, kvs, Gm, rfl, he, hO, ha, rfl⟩ := hr
    obtain ⟨A, hC, hsub, hput⟩ := repO_focus k hm hO
    rw [hx] at hC
    obtain ⟨w, hl, hw⟩ := repC_some hC
    have haG : a ∉ G := hd a (by simp)
    have hlt := repO_lt _ _ _ hO
    obtain ⟨c, B, h1, F1, k1, k2, k3, k4, k5, k6, k7, k8, k9⟩ := setRec_replace room (s :: q) false (by simp) hw hv (fun b hb => hd b (by simp [hsub b hb])) hg
    have hxn : x ≠ .null := by rintro rfl; obtain ⟨m, x, e, -⟩ := getAt_keys_cons hg; cases e
    have hwn : w ≠ .null := by rintro rfl; exact hxn (rep_null hw)
    have ef : fill (some w) h = (h, w) := by cases w <;> first | rfl | exact absurd rfl hwn
    have ej : Gabs.fill (some x) = x := by cases x <;> first | rfl | exact absurd rfl hxn
    have haA : a ∉ A := fun hb => ha (hsub a hb)
    have haB : a ∉ B := fun hb => haA (k3 a hb)
    have hch : Changes A h h1 := ⟨Nat.le_of_eq k8.symm, fun b _ hb => k9 b fun h => absurd h hb⟩
    have haF1 : a ∉ F1 := fun hb => by
      rcases k7 a hb with hb | hb
      · exact haA hb.1
      · exact haG hb
    obtain ⟨F', g1, g2, g3⟩ := write_member hm he ha hsub hlt hput hch (fun b hb => .inl hb) k6 haF1 (fun b hb hn hb1 => by
      rcases k7 b hb1 with hb1 | hb1
      · exact hn hb1.1
      · exact hd b (by simp [hb]) hb1)
    refine ⟨c, B, _, F', ?_, k2, fun b hb => by simp [hsub b (k3 b hb)], ?_, ?_, by rw [putAt_keys_cons hx]; exact g1, ?_, by simp [k8], ?_⟩
    · rw [walkM]; simp only [mapAt_of he, hl, k1]
    · rw [setRec_map, mapAt_of he, hl, ef, k4]; rfl
    · rw [setGo_obj, hx, ej, k5, putAt_keys_cons hx]; rfl
    · intro b hb
      rcases (g3 b).1 hb with rfl | hb | hb
      · exact .inl ⟨by simp, haB⟩
      · exact .inl ⟨by simp [hb.1], fun hB => hb.2 (k3 b hB)⟩
      · rcases k7 b hb with hb | hb
        · exact .inl ⟨by simp [hsub b hb.1], hb.2⟩
        · exact .inr hb
    · intro b hb
      have hne : a ≠ b := by rintro rfl; exact haB (hb (by simp))
      rw [List.getElem?_set_ne hne]
      exact k9 b fun hA => hb (by simp [hsub b hA])

theorem look_put (k k' : Str) (v : Val) : ∀ (m : GoMap), look k (put k' v m) = if k = k' then some v else look k m
  | [] => by simp [put, look]
  | (k0, v0) :: t => by
    simp only [put]
    split
    · rename_i h0
      subst h0
      simp only [look]
      split <;> rfl
    · split
      · rename_i h0 _
        simp only [look]
      · rename_i h0 _
        simp only [look, look_put k k' v t]
        by_cases hk : k = k0
        · subst hk; simp [Ne.symm h0]
        · simp [hk]

/-- Storing at another path of the same length: a container that looks at a part still looks at it. -/
theorem setRec_walk (room : Nat) {jv : Json} {v : Val} {G : List Nat} : ∀ (q p : List Str) (root : Bool) {h h' : Mem} {j : Json} {o o' w : Val} {F : List Nat},
    Rep h j o F → Rep h jv v G → (∀ a ∈ F, a ∉ G) → p.length = q.length → p ≠ q → walkM p o h = some w → setRec room v root q o h = .ok (h', o') → walkM p o' h' = some w
  | [], p, root, h, h', j, o, o', w, F, _, _, _, hl, hne, _, _ => absurd (List.length_eq_zero_iff.1 hl) hne
  | t :: q, [], root, h, h', j, o, o', w, F, _, _, _, hl, _, _, _ => by cases hl
  | t :: q, s :: p, root, h, h', j, o, o', w, F, hr, hv, hd, hl, hne, hw, hs => by
    cases o with
    | map a =>
      cases j with
      | obj m =>
        obtain ⟨hm, a', kvs, Gm, e, he, hO, ha, rfl⟩ := hr
        cases e
        simp only [walkM, mapAt_of he] at hw
        cases hc : look s kvs with
        | none => simp [hc] at hw
        | some c =>
          simp only [hc] at hw
          obtain ⟨fp, f1, f2, f3⟩ := repO_parts hm hO
          have hcs := f1 s
          rw [hc] at hcs
          cases hx : Obj.lookup s m with
          | none => rw [hx] at hcs; exact hcs.elim
          | some x =>
            rw [hx] at hcs
            have hlt : a < h.length := (List.getElem?_eq_some_iff.1 he).1
            cases q with
            | nil =>
              have hp : p = [] := List.length_eq_zero_iff.1 (by simpa using hl)
              subst hp
              have hst : s ≠ t := fun e => hne (by rw [e])
              simp only [setRec, mapAt_of he] at hs
              cases hs
              have : (h.set a (.map (put t v kvs)))[a]? = some (.map (put t v kvs)) := getElem?_set_self' _ hlt
              simp only [walkM, mapAt_of this, look_put, if_neg hst, hc]
              exact hw
            | cons t2 q =>
              rw [setRec_map, mapAt_of he] at hs
              cases hcr : setRec room v false (t2 :: q) (fill (look t kvs) h).2 (fill (look t kvs) h).1 with
              | err e => rw [hcr] at hs; cases hs
              | panic => rw [hcr] at hs; cases hs
              | ok r =>
                obtain ⟨h2, c2⟩ := r
                rw [hcr] at hs
                cases hs
                obtain ⟨C, hC1, hC2, hC3⟩ := fill_rep (f1 t)
                have hGlt := rep_lt _ _ _ hv
                have hspec := setRec_rep room (t2 :: q) false hC1 (hC2.frame hv (by simp)) (fun b hb hg => by
                  rcases hC3 b hb with hb | hb
                  · exact hd b (by simp [f2 t b hb]) hg
                  · exact absurd (hGlt b hg) (by omega))
                cases hgo : Gabs.setGo jv false (t2 :: q) (Gabs.fill (Obj.lookup t m)) with
                | err e => rw [hgo] at hspec; rw [show setRec room v false (t2 :: q) _ _ = .err e from hspec] at hcr; cases hcr
                | panic => rw [hgo] at hspec; rw [show setRec room v false (t2 :: q) _ _ = .panic from hspec] at hcr; cases hcr
                | ok j2 =>
                  rw [hgo] at hspec
                  obtain ⟨h2', c2', F2, e, k2, k3, k4, -⟩ := hspec
                  rw [hcr] at e
                  cases e
                  have hch : Changes (fp t) h h2 := (hC2.mono (by simp)).trans k3 fun b hb hlt => by
                    rcases hC3 b hb with hb | hb
                    · exact hb
                    · omega
                  have hafp : ∀ k, a ∉ fp k := fun k hb => ha (f2 k a hb)
                  have he2 : h2[a]? = some (.map kvs) := by rw [hch.same a hlt (hafp t), he]
                  have hset : (h2.set a (.map (put t c2 kvs)))[a]? = some (.map (put t c2 kvs)) := getElem?_set_self' _ (Nat.lt_of_lt_of_le hlt hch.le)
                  simp only [mapAt_of he2]
                  simp only [walkM, mapAt_of hset, look_put]
                  by_cases hst : s = t
                  · subst hst
                    simp only [if_true]
                    rw [hc] at hcr
                    have hp' : p.length = (t2 :: q).length := by simpa using hl
                    have hcn : c ≠ .null := by
                      rintro rfl
                      cases p with
                      | nil => cases hp'
                      | cons => simp [walkM] at hw
                    have ef : fill (some c) h = (h, c) := by cases c <;> first | rfl | exact absurd rfl hcn
                    rw [ef] at hcr
                    have ih := setRec_walk room (t2 :: q) p false hcs hv (fun b hb => hd b (by simp [f2 s b hb])) hp' (fun e => hne (by rw [e])) hw hcr
                    rw [← ih]
                    refine walkM_frame p k2 fun b hb => set_other _ _ hb fun hx => ?_
                    rcases k4 a hx with hx | hx | hx
                    · rcases hC3 a hx with hx | hx
                      · exact hafp _ hx
                      · omega
                    · exact hd a (by simp) hx
                    · have := hC2.le; omega
                  · simp only [if_neg hst, hc]
                    rw [← hw]
                    refine walkM_frame p hcs fun b hb => ?_
                    rw [set_other _ _ hb (hafp s)]
                    exact hch.same b (rep_lt _ _ _ hcs b hb) fun hb' => f3 s t hst b hb hb'
      | null => exact absurd hr.1 (by simp)
      | bool b => exact absurd hr.1 (by simp)
      | num b => exact absurd hr.1 (by simp)
      | str b => exact absurd hr.1 (by simp)
      | arr xs => obtain ⟨a, len, bs, G, e, -⟩ := hr; exact absurd e (by simp)
    | _ => simp [walkM] at hw

/-- The same on documents. -/
theorem setGo_getAt {jv : Json} : ∀ (q p : List Str) (root : Bool) {j j' x : Json}, p.length = q.length → p ≠ q → getAt j (keyLoc p) = some x → Gabs.setGo jv root q j = .ok j' →
    getAt j' (keyLoc p) = some x
  | [], p, root, j, j', x, hl, hne, _, _ => absurd (List.length_eq_zero_iff.1 hl) hne
  | t :: q, [], root, j, j', x, hl, _, _, _ => by cases hl
  | t :: q, s :: p, root, j, j', x, hl, hne, hg, hs => by
    obtain ⟨m, y, rfl, hy, hg⟩ := getAt_keys_cons hg
    cases q with
    | nil =>
      have hp : p = [] := List.length_eq_zero_iff.1 (by simpa using hl)
      subst hp
      have hst : s ≠ t := fun e => hne (by rw [e])
      simp only [Gabs.setGo] at hs
      cases hs
      simp only [keyLoc, List.map_cons, List.map_nil, getAt, child, Obj.lookup_insert, if_neg hst, hy] at hg ⊢
      exact hg
    | cons t2 q =>
      rw [setGo_obj] at hs
      cases hcr : Gabs.setGo jv false (t2 :: q) (Gabs.fill (Obj.lookup t m)) with
      | err e => rw [hcr] at hs; cases hs
      | panic => rw [hcr] at hs; cases hs
      | ok c =>
        rw [hcr] at hs
        cases hs
        simp only [keyLoc, List.map_cons, getAt, child, Obj.lookup_insert]
        by_cases hst : s = t
        · subst hst
          simp only [if_true]
          rw [hy] at hcr
          have hp' : p.length = (t2 :: q).length := by simpa using hl
          have hyn : y ≠ .null := by
            rintro rfl
            cases p with
            | nil => cases hp'
            | cons => obtain ⟨m, x, e, -⟩ := getAt_keys_cons hg; cases e
          have ej : Gabs.fill (some y) = y := by cases y <;> first | rfl | exact absurd rfl hyn
          rw [ej] at hcr
          exact setGo_getAt (t2 :: q) p false hp' (fun e => hne (by rw [e])) hg hcr
        · simp only [if_neg hst, hy]
          exact hg

end Oapi.GoHeap
