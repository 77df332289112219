import Verif.Model.Scan

/-! A resolution that succeeds gives the same with more stack. -/
namespace Oapi.Resolver

/-- What the one call gives, the other one gives. -/
def More (f g : List Str → Json → St → Res (Cur × St)) : Prop := ∀ pp j st r, f pp j st = .ok r → g pp j st = .ok r

theorem visit_more {cfg : Cfg} {f g} (h : More f g) {pp : List Str} {cx : Cur} {st : St} {k : Str} {v : Json} {r}
    (hr : visit cfg f pp cx st k v = .ok r) : visit cfg g pp cx st k v = .ok r := by
  cases v with
  | str s =>
    simp only [visit] at hr ⊢
    split at hr
    · cases hr
    · cases hr
    · split at hr
      · rename_i p _ hp; rw [if_pos hp]; exact hr
      · rename_i p _ hp
        rw [if_neg hp]
        split at hr
        · rename_i hm; rw [if_pos hm]; exact hr
        · rename_i hm
          rw [if_neg hm]
          split at hr
          · cases hr
          · cases hr
          · split at hr
            · cases hr
            · cases hr
            · rename_i hc
              rw [h _ _ _ _ hc]
              exact hr
  | _ => exact hr

theorem loop_more {cfg : Cfg} {f g} (h : More f g) {pp : List Str} : ∀ {l : List (Str × Json)} {cx : Cur} {st : St} {r},
    loop cfg f pp l cx st = .ok r → loop cfg g pp l cx st = .ok r
  | [], _, _, _, hr => hr
  | (k, v) :: t, cx, st, r, hr => by
    simp only [loop] at hr ⊢
    split at hr
    · cases hr
    · cases hr
    · rename_i hv
      rw [visit_more h hv]
      exact loop_more h hr

theorem iter_more {cfg : Cfg} : ∀ {n m : Nat}, n ≤ m → ∀ {pp : List Str} {cx : Cur} {st : St} {r}, iter cfg n pp cx st = .ok r → iter cfg m pp cx st = .ok r
  | 0, _, _, _, _, _, _, hr => by cases hr
  | n + 1, m, hm, pp, cx, st, r, hr => by
    obtain ⟨m, rfl⟩ : ∃ k, m = k + 1 := ⟨m - 1, by omega⟩
    simp only [iter] at hr ⊢
    split at hr
    · cases hr
    · cases hr
    · exact loop_more (fun pp j st r h => iter_more (by omega) h) hr

theorem resolve_more {cfg : Cfg} {n m : Nat} (h : n ≤ m) {c r : Json} (hr : resolve cfg n c = .ok r) : resolve cfg m c = .ok r := by
  unfold resolve at hr ⊢
  split at hr
  · cases hr
  · cases hr
  · rename_i hi
    rw [iter_more h hi]
    exact hr

/-- Where the one call panics, the other one panics. -/
def MoreP (f g : List Str → Json → St → Res (Cur × St)) : Prop := ∀ pp j st, f pp j st = .panic → g pp j st = .panic

theorem visit_panic_more {cfg : Cfg} {f g} (h : More f g) (h' : MoreP f g) {pp : List Str} {cx : Cur} {st : St} {k : Str} {v : Json}
    (hr : visit cfg f pp cx st k v = .panic) : visit cfg g pp cx st k v = .panic := by
  cases v with
  | str s =>
    simp only [visit] at hr ⊢
    split at hr
    · cases hr
    · rfl
    · split at hr
      · rename_i p _ hp; rw [if_pos hp]; exact hr
      · rename_i p _ hp
        rw [if_neg hp]
        split at hr
        · rename_i hm; rw [if_pos hm]; exact hr
        · rename_i hm
          rw [if_neg hm]
          split at hr
          · cases hr
          · rfl
          · split at hr
            · cases hr
            · rename_i hc
              rw [h' _ _ _ hc]
            · rename_i hc
              rw [h _ _ _ _ hc]
              exact hr
  | _ => exact hr

theorem loop_panic_more {cfg : Cfg} {f g} (h : More f g) (h' : MoreP f g) {pp : List Str} : ∀ {l : List (Str × Json)} {cx : Cur} {st : St},
    loop cfg f pp l cx st = .panic → loop cfg g pp l cx st = .panic
  | [], _, _, hr => hr
  | (k, v) :: t, cx, st, hr => by
    simp only [loop] at hr ⊢
    split at hr
    · cases hr
    · rename_i hv
      rw [visit_panic_more h h' hv]
    · rename_i hv
      rw [visit_more h hv]
      exact loop_panic_more h h' hr

theorem iter_panic_more {cfg : Cfg} : ∀ {n m : Nat}, n ≤ m → ∀ {pp : List Str} {cx : Cur} {st : St}, iter cfg n pp cx st = .panic → iter cfg m pp cx st = .panic
  | 0, _, _, _, _, _, hr => by cases hr
  | n + 1, m, hm, pp, cx, st, hr => by
    obtain ⟨m, rfl⟩ : ∃ k, m = k + 1 := ⟨m - 1, by omega⟩
    simp only [iter] at hr ⊢
    split at hr
    · cases hr
    · rfl
    · exact loop_panic_more (fun pp j st r h => iter_more (by omega) h) (fun pp j st h => iter_panic_more (by omega) h) hr

theorem resolve_panic_more {cfg : Cfg} {n m : Nat} (h : n ≤ m) {c : Json} (hr : resolve cfg n c = .panic) : resolve cfg m c = .panic := by
  unfold resolve at hr ⊢
  split at hr
  · cases hr
  · rename_i hi
    rw [iter_panic_more h hi]
  · cases hr

end Oapi.Resolver

namespace Oapi.Scan

theorem scan_panic_more {F : Type} {inp : Input F} {o : Orders} {n m : Nat} (h : n ≤ m) (hr : scan inp o n = .panic) : scan inp o m = .panic := by
  unfold scan at hr ⊢
  split at hr
  · rfl
  · cases hr
  · split at hr
    · rename_i hf
      unfold finish at hf ⊢
      cases hc : Resolver.resolve (cfg inp o _) n _ with
      | err e => rw [hc] at hf; cases hf
      | panic => rw [Resolver.resolve_panic_more h hc]
      | ok c =>
        rw [hc] at hf
        rw [Resolver.resolve_more h hc]
        simp only at hf ⊢
        rw [hf]
    · cases hr
    · rename_i d _
      unfold newOAPI at hr
      cases hr

theorem scan_more {F : Type} {inp : Input F} {o : Orders} {n m : Nat} (h : n ≤ m) {c : Json} {e : Option Err} (hr : scan inp o n = .ret (some c) e) :
    scan inp o m = .ret (some c) e := by
  unfold scan at hr ⊢
  split at hr
  · cases hr
  · cases hr
  · split at hr
    · cases hr
    · cases hr
    · rename_i d hf
      unfold finish at hf ⊢
      cases hc : Resolver.resolve (cfg inp o _) n _ with
      | err e => rw [hc] at hf; cases hf
      | panic => rw [hc] at hf; cases hf
      | ok c =>
        rw [hc] at hf
        rw [Resolver.resolve_more h hc]
        simp only at hf ⊢
        rw [hf]
        exact hr

end Oapi.Scan
