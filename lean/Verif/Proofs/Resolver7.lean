import Verif.Proofs.Resolver6

/-! Termination on arbitrary documents. -/
namespace Oapi.Resolver
open Spec
open Container (keyLoc)

theorem extract_refLike {j : Json} (hw : Json.WF j) {es : List (Str × Json)} (h : Container.extractKey j b!"$ref" = .ok es) {s x : Str}
    (hm : (s, Json.str x) ∈ es) : RefLike j x := by
  obtain ⟨L, k, h1, _, h3, _⟩ := (extract_refs_iff hw h _ _).1 hm
  exact ⟨L, k, h1, h3⟩

/-! ### No call runs out of depth -/

theorem setGo_no_fuel (v : Json) : ∀ (p : List Str) (root : Bool) (j : Json), Gabs.setGo v root p j ≠ .err .fuel := by
  intro p
  induction p with
  | nil => intro root j h; simp [Gabs.setGo] at h
  | cons s p ih =>
    intro root j h
    rw [Gabs.setGo.eq_def] at h
    simp only at h
    split at h
    · split at h
      · cases h
      · split at h
        · cases h
        · rename_i e he; cases h; exact ih _ _ he
        · cases h
    · split at h
      · split at h
        · cases h
        · split at h
          · cases h
          · split at h
            · cases h
            · rename_i e he; cases h; exact ih _ _ he
            · cases h
      · split at h
        · cases h
        · split at h
          · cases h
          · split at h
            · cases h
            · cases h
            · split at h
              · cases h
              · rename_i e he; cases h; exact ih _ _ he
              · cases h
    · cases h

theorem setP_no_fuel (j : Json) (p : Str) (v : Json) : Container.setP j p v ≠ .err .fuel := by
  unfold Container.setP Gabs.set
  split
  · simp
  · exact setGo_no_fuel v _ _ _

theorem setCur_no_fuel (cx : Cur) (st : St) (k : Str) (v : Json) : setCur cx st k v ≠ .err .fuel := by
  unfold setCur
  intro h
  split at h
  · rename_i e he; cases h; exact setP_no_fuel _ _ _ he
  · cases h
  · split at h <;> cases h

theorem replacePtr_no_fuel (cx : Cur) (st : St) (k : Str) (v : Json) : replacePtr cx st k v ≠ .err .fuel := by
  unfold replacePtr
  split
  · simp
  · exact setCur_no_fuel _ _ _ _

theorem updateLocal_no_fuel (cx : Cur) (st : St) (k : Str) (f : Fragment) : updateLocal cx st k f ≠ .err .fuel := by
  unfold updateLocal
  split
  · simp
  · exact setCur_no_fuel _ _ _ _

theorem parse_no_fuel (x : Str) : Pointer.parse x ≠ .err .fuel := by
  unfold Pointer.parse
  split
  · simp
  · split
    · simp
    · rename_i u _
      have : Fragment.new u.fragment ≠ .err .fuel := by
        unfold Fragment.new Fragment.parseFragment
        split
        · simp
        · split <;> simp
      split
      · simp
      · rename_i e he; intro h; cases h; exact this he
      · simp

theorem extract_no_fuel (j : Json) (k : Str) : Container.extractKey j k ≠ .err .fuel := by
  unfold Container.extractKey Gabs.flatten
  cases j <;> simp

/-- Two versions of the recursive call agree where they matter. -/
def SameCalls (U pp : List Str) (cfg : Cfg) (f g : List Str → Json → St → Res (Cur × St)) : Prop :=
  ∀ p d st, p.toStr ∈ U → p.toStr ∉ pp → cfg.res p = .ok d → f (pp ++ [p.toStr]) d st = g (pp ++ [p.toStr]) d st ∧
    f (pp ++ [p.toStr]) d st ≠ .err .fuel

theorem visit_same {cfg : Cfg} {U pp : List Str} (hres : ∀ p, cfg.res p ≠ .err .fuel) {f g} (h : SameCalls U pp cfg f g) {cx : Cur} {st : St} {key : Str} {v : Json}
    (hv : ∀ x p, v = .str x → ExtRef x p → p.toStr ∈ U) :
    visit cfg f pp cx st key v = visit cfg g pp cx st key v ∧ visit cfg f pp cx st key v ≠ .err .fuel := by
  cases v with
  | str x =>
    cases hp : Pointer.parse x with
    | err e =>
      simp only [visit, hp, ne_eq, true_and]
      intro he; cases he; exact parse_no_fuel x hp
    | panic => simp [visit, hp]
    | ok p =>
      by_cases hext : p.isExternal = false
      · simp [visit, hp, hext]
      · by_cases hpp : p.toStr ∈ pp
        · simp only [visit, hp, if_neg hext, if_pos hpp, true_and]
          unfold setRecursive
          split
          · split
            · exact updateLocal_no_fuel _ _ _ _
            · exact replacePtr_no_fuel _ _ _ _
          · exact replacePtr_no_fuel _ _ _ _
        · cases hr : cfg.res p with
          | err e =>
            simp only [visit, hp, if_neg hext, if_neg hpp, hr, ne_eq, true_and]
            intro he; cases he; exact hres p hr
          | panic => simp [visit, hp, if_neg hext, if_neg hpp, hr]
          | ok d =>
            have hU : p.toStr ∈ U := hv x p rfl ⟨hp, by simpa [Pointer.isExternal] using hext⟩
            obtain ⟨h1, h2⟩ := h p d st hU hpp hr
            simp only [visit, hp, if_neg hext, if_neg hpp, hr, h1, true_and]
            rw [h1] at h2
            cases hg : g (pp ++ [p.toStr]) d st with
            | err e => intro he; simp only at he; cases he; exact h2 hg
            | panic => simp
            | ok r =>
              obtain ⟨a, b⟩ := r
              simp only
              unfold set
              split
              · exact replacePtr_no_fuel _ _ _ _
              · split
                · rename_i e he; intro h; cases h; exact setP_no_fuel _ _ _ he
                · simp
                · exact updateLocal_no_fuel _ _ _ _
  | _ => simp [visit]

theorem loop_same {cfg : Cfg} {U pp : List Str} (hres : ∀ p, cfg.res p ≠ .err .fuel) {f g} (h : SameCalls U pp cfg f g) (l : List (Str × Json)) :
    ∀ {cx : Cur} {st : St}, (∀ s x p, (s, Json.str x) ∈ l → ExtRef x p → p.toStr ∈ U) →
    loop cfg f pp l cx st = loop cfg g pp l cx st ∧ loop cfg f pp l cx st ≠ .err .fuel := by
  induction l with
  | nil => intro cx st _; exact ⟨rfl, by simp [loop]⟩
  | cons e l ih =>
    intro cx st hl
    obtain ⟨key, v⟩ := e
    obtain ⟨h1, h2⟩ := visit_same hres h (cx := cx) (st := st) (key := key) (v := v) (fun x p hx hp => hl key x p (by simp [hx]) hp)
    simp only [loop, h1]
    rw [h1] at h2
    cases hv : visit cfg g pp cx st key v with
    | err e => exact ⟨rfl, fun he => by simp only at he; cases he; exact h2 hv⟩
    | panic => exact ⟨rfl, by simp⟩
    | ok r =>
      obtain ⟨a, b⟩ := r
      exact ih fun s x p hm hp => hl s x p (by simp [hm]) hp

theorem iter_same {cfg : Cfg} {c : Json} {U : List Str} (hres : ∀ p, cfg.res p ≠ .err .fuel) (hord : ∀ n l, Container.MapOrder l (cfg.ord n l))
    (hU : FiniteRefs cfg c U) : ∀ (n m : Nat) (pp : List Str) (cx : Cur) (st : St), pp.Nodup → (∀ s ∈ pp, s ∈ U) →
    U.length + 1 ≤ n + pp.length → U.length + 1 ≤ m + pp.length → Json.WF (readCur cx st) →
    (∀ x p, RefLike (readCur cx st) x → ExtRef x p → p.toStr ∈ U) →
    iter cfg n pp cx st = iter cfg m pp cx st ∧ iter cfg n pp cx st ≠ .err .fuel := by
  intro n
  induction n with
  | zero =>
    intro m pp cx st hn hpp h1
    have := pigeon hn hpp
    omega
  | succ n ih =>
    intro m pp cx st hn hpp h1 h2 hw hr
    cases m with
    | zero =>
      have := pigeon hn hpp
      omega
    | succ m =>
      rw [iter, iter]
      cases he : Container.extractKey (readCur cx st) b!"$ref" with
      | err e => exact ⟨rfl, fun h => by simp only at h; cases h; exact extract_no_fuel _ _ he⟩
      | panic => exact ⟨rfl, by simp⟩
      | ok es =>
        simp only
        apply loop_same (U := U) hres
        · intro p d st' hpU hp hd
          refine ih m (pp ++ [p.toStr]) (some d) st' (nodup_snoc hn hp) ?_ (by simp; omega) (by simp; omega) (hU.wfs p d hpU hd)
            (fun x q hx hq => hU.step p d x q hpU hd hx hq)
          intro s hs
          rcases List.mem_append.1 hs with hs | hs
          · exact hpp s hs
          · rw [List.mem_singleton] at hs; subst hs; exact hpU
        · intro s x p hm hp
          exact hr x p (extract_refLike hw he ((hord _ _).2.1 _ hm)) hp

theorem resolve_same {cfg : Cfg} {c : Json} {U : List Str} (hres : ∀ p, cfg.res p ≠ .err .fuel) (hord : ∀ n l, Container.MapOrder l (cfg.ord n l))
    (hU : FiniteRefs cfg c U) (n m : Nat) (hn : U.length + 1 ≤ n) (hm : U.length + 1 ≤ m) :
    resolve cfg n c = resolve cfg m c ∧ resolve cfg n c ≠ .err .fuel := by
  obtain ⟨h1, h2⟩ := iter_same hres hord hU n m [] none ⟨c, 0⟩ .nil (by simp) (by simpa using hn) (by simpa using hm) hU.wf hU.doc
  unfold resolve
  rw [h1]
  rw [h1] at h2
  refine ⟨rfl, ?_⟩
  cases hi : iter cfg m [] none ⟨c, 0⟩ with
  | err e => intro h; simp only at h; cases h; exact h2 hi
  | panic => simp
  | ok r => obtain ⟨a, b⟩ := r; simp

end Oapi.Resolver
