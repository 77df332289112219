import Verif.Spec.Path
import Verif.Proofs.Flatten
import Verif.Proofs.Refs

/- C106: reading by path. -/
namespace Oapi.Props
open Oapi Spec

theorem search_names : ∀ (p : List Str) (j v : Json), b!"*" ∉ p → (Gabs.search p j = some v ↔ ∃ L, NamesAll p L ∧ getAt j L = some v)
  | [], j, v, _ => by
    constructor
    · intro h; cases h; exact ⟨[], trivial, rfl⟩
    · rintro ⟨L, h1, h2⟩
      cases L with
      | nil => exact h2
      | cons => exact h1.elim
  | s :: p, j, v, hp => by
    simp only [List.mem_cons, not_or] at hp
    have hstar : s ≠ b!"*" := fun e => hp.1 e.symm
    constructor
    · intro h
      cases j with
      | obj m =>
        simp only [Gabs.search] at h
        cases hl : Obj.lookup s m with
        | none => simp [hl] at h
        | some c =>
          simp only [hl] at h
          obtain ⟨L, h1, h2⟩ := (search_names p c v hp.2).1 h
          exact ⟨.key s :: L, ⟨rfl, h1⟩, by simp only [getAt, child, hl, h2]⟩
      | arr xs =>
        simp only [Gabs.search, if_neg hstar] at h
        cases hi : Gabs.arrIndex s xs.length with
        | none => simp [hi] at h
        | some i =>
          simp only [hi] at h
          cases hx : xs[i]? with
          | none => simp [hx] at h
          | some c =>
            simp only [hx] at h
            obtain ⟨L, h1, h2⟩ := (search_names p c v hp.2).1 h
            refine ⟨.idx i :: L, ⟨?_, h1⟩, by simp only [getAt, child, hx, h2]⟩
            unfold Gabs.arrIndex at hi
            split at hi
            · rename_i n ha
              split at hi
              · cases hi; exact ha
              · cases hi
            · cases hi
      | _ => simp [Gabs.search] at h
    · rintro ⟨L, h1, h2⟩
      cases L with
      | nil => exact h1.elim
      | cons st L =>
        obtain ⟨h1, h3⟩ := h1
        cases hc : child j st with
        | none => simp [getAt, hc] at h2
        | some c =>
          simp only [getAt, hc] at h2
          have ih := (search_names p c v hp.2).2 ⟨L, h3, h2⟩
          cases j with
          | obj m => cases st with
            | key k =>
              have hk : s = k := h1
              subst hk
              simp only [child] at hc
              simp only [Gabs.search, hc, ih]
            | idx n => simp [child] at hc
          | arr xs => cases st with
            | key k => simp [child] at hc
            | idx n =>
              simp only [child] at hc
              have hlt := (List.getElem?_eq_some_iff.1 hc).1
              have : Gabs.arrIndex s xs.length = some n := by
                unfold Gabs.arrIndex
                rw [show Str.atoi s = some (Int.ofNat n) from h1]
                simp [hlt]
              simp only [Gabs.search, if_neg hstar, this, hc, ih]
          | _ => simp [child] at hc

theorem search_prefix : ∀ (a b : List Str) (j x : Json), b!"*" ∉ a → Gabs.search a j = some x → Gabs.search (a ++ b) j = Gabs.search b x
  | [], b, j, x, _, h => by cases h; rfl
  | s :: a, b, j, x, hp, h => by
    simp only [List.mem_cons, not_or] at hp
    have hstar : s ≠ b!"*" := fun e => hp.1 e.symm
    cases j with
    | obj m =>
      simp only [Gabs.search, List.cons_append] at h ⊢
      cases hl : Obj.lookup s m with
      | none => simp [hl] at h
      | some c => simp only [hl] at h ⊢; exact search_prefix a b c x hp.2 h
    | arr xs =>
      simp only [Gabs.search, List.cons_append, if_neg hstar] at h ⊢
      cases hi : Gabs.arrIndex s xs.length with
      | none => simp [hi] at h
      | some i =>
        simp only [hi] at h ⊢
        cases hx : xs[i]? with
        | none => simp [hx] at h
        | some c => simp only [hx] at h ⊢; exact search_prefix a b c x hp.2 h
    | _ => simp [Gabs.search] at h

theorem each_map {α β γ : Type} {R : α → β → Prop} {S : γ → β → Prop} (f : α → γ) (h : ∀ a b, R a b → S (f a) b) :
    ∀ (as : List α) (bs : List β), Pairwise2 R as bs → Pairwise2 S (as.map f) bs
  | [], [], _ => trivial
  | a :: as, b :: bs, hr => ⟨h a b hr.1, each_map f h as bs hr.2⟩
  | [], _ :: _, hr => hr.elim
  | _ :: _, [], hr => hr.elim

theorem filterMap_each {α β : Type} (g : α → Option β) : ∀ (xs : List α), ∃ is : List Nat, is.Pairwise (· < ·) ∧
    Pairwise2 (fun i w => ∃ x, xs[i]? = some x ∧ g x = some w) is (xs.filterMap g) ∧ ∀ (i : Nat) x w, xs[i]? = some x → g x = some w → i ∈ is
  | [] => ⟨[], .nil, trivial, by simp⟩
  | x :: t => by
    obtain ⟨is, h1, h2, h3⟩ := filterMap_each g t
    have h1' : (is.map (· + 1)).Pairwise (· < ·) := by
      rw [List.pairwise_map]
      exact h1.imp (by omega)
    have h2' : Pairwise2 (fun i w => ∃ y, (x :: t)[i]? = some y ∧ g y = some w) (is.map (· + 1)) (t.filterMap g) := by
      exact each_map (· + 1) (fun i w h => by simpa using h) is _ h2
    rw [List.filterMap_cons]
    cases hg : g x with
    | none =>
      refine ⟨is.map (· + 1), h1', h2', ?_⟩
      intro i y w hy hw
      cases i with
      | zero => simp at hy; subst hy; rw [hg] at hw; cases hw
      | succ i => exact List.mem_map.2 ⟨i, h3 i y w (by simpa using hy) hw, rfl⟩
    | some z =>
      refine ⟨0 :: is.map (· + 1), List.pairwise_cons.2 ⟨by simp, h1'⟩, ⟨⟨x, by simp, hg⟩, h2'⟩, ?_⟩
      intro i y w hy hw
      cases i with
      | zero => simp
      | succ i => exact List.mem_cons_of_mem _ (List.mem_map.2 ⟨i, h3 i y w (by simpa using hy) hw, rfl⟩)

/-- **C106**: without a wildcard `Path` finds exactly what stands at a location the segments name; it finds nothing if there is no such location. -/
theorem C106_path (j v : Json) (p : Str) (hs : b!"*" ∉ Gabs.dotPathToSlice p) :
    Container.path j p = some v ↔ ∃ L, NamesAll (Gabs.dotPathToSlice p) L ∧ getAt j L = some v :=
  search_names _ _ _ hs

/-- **C106**: `ExistsP` says whether there is such a location. -/
theorem C106_exists (j : Json) (p : Str) (hs : b!"*" ∉ Gabs.dotPathToSlice p) :
    Container.existsP j p = true ↔ ∃ L v, NamesAll (Gabs.dotPathToSlice p) L ∧ getAt j L = some v := by
  unfold Container.existsP Gabs.existsAt
  rw [Option.isSome_iff_exists]
  constructor
  · rintro ⟨v, h⟩
    obtain ⟨L, h⟩ := (search_names _ _ _ hs).1 h
    exact ⟨L, v, h⟩
  · rintro ⟨L, v, h⟩
    exact ⟨v, (search_names _ _ _ hs).2 ⟨L, h⟩⟩

/-- **C106** (wildcard): at an array, `*` finds the list of what the rest of the path finds below its elements, in order; it finds nothing rather than an
empty list. -/
theorem C106_wildcard (j : Json) (p : Str) (a b : List Str) (L : Loc) (xs : List Json) (hp : Gabs.dotPathToSlice p = a ++ b!"*" :: b)
    (ha : b!"*" ∉ a) (hb : b!"*" ∉ b) (hL : NamesAll a L) (hx : getAt j L = some (.arr xs)) :
    ∃ vs, EachBelow j L b vs ∧ Container.path j p = if vs = [] then none else some (.arr vs) := by
  have h1 : Gabs.search a j = some (.arr xs) := (search_names _ _ _ ha).2 ⟨L, hL, hx⟩
  have hat : ∀ (i : Nat) L', getAt j (L ++ .idx i :: L') = (xs[i]?).bind fun x => getAt x L' := by
    intro i L'
    rw [getAt_append, hx, Option.bind_some, getAt]
    simp only [child]
    cases xs[i]? <;> rfl
  have h2 : Container.path j p = if xs.filterMap (Gabs.search b) = [] then none else some (.arr (xs.filterMap (Gabs.search b))) := by
    unfold Container.path
    rw [hp, search_prefix a _ j _ ha h1]
    cases b with
    | nil =>
      have : xs.filterMap (Gabs.search []) = xs := by
        have : Gabs.search [] = some := by funext x; rw [Gabs.search]
        rw [this, List.filterMap_some]
      rw [this]
      cases xs <;> simp [Gabs.search]
    | cons s b =>
      simp only [Gabs.search, if_true, List.isEmpty_iff]
  refine ⟨_, ?_, h2⟩
  obtain ⟨is, g1, g2, g3⟩ := filterMap_each (Gabs.search b) xs
  refine ⟨is, g1, ?_, ?_⟩
  · rw [← List.map_id is]
    refine each_map id ?_ is _ g2
    rintro i w ⟨x, e1, e2⟩
    obtain ⟨L', k1, k2⟩ := (search_names _ _ _ hb).1 e2
    exact ⟨L', k1, by rw [id, hat, e1]; exact k2⟩
  · intro i L' w k1 k2
    rw [hat] at k2
    cases hxi : xs[i]? with
    | none => rw [hxi] at k2; cases k2
    | some x =>
      rw [hxi] at k2
      exact g3 i x w hxi ((search_names _ _ _ hb).2 ⟨L', k1, k2⟩)

/-- Two servers, one without a name. -/
def pathDoc : Json := .obj [(b!"a.b", .arr [.obj [(b!"n", .num 1)], .obj [], .obj [(b!"n", .num 3)]])]

example : Container.path pathDoc b!"a~1b.02.n" = some (.num 3) ∧ Container.path pathDoc b!"a~1b.*.n" = some (.arr [.num 1, .num 3]) ∧
    Container.path pathDoc b!"a~1b.*.m" = none ∧ Container.existsP pathDoc b!"a.b" = false := by decide +kernel

example : ∃ L, NamesAll (Gabs.dotPathToSlice b!"a~1b.02.n") L ∧ getAt pathDoc L = some (.num 3) :=
  (C106_path _ _ _ (by decide +kernel)).1 (by decide +kernel)

end Oapi.Props
