import Verif.Proofs.Scan2
import Verif.Spec.Scan
import Verif.Props.TypesEx

/-! C57, C58: what a whole scan returns. -/
namespace Oapi.Props
open Spec
open Scan (Input Orders Outcome Prepared prepare finish resolveFn scan cfg)

variable {F : Type} {inp : Input F} {o : Orders}

/-! ### C57 -/

/-- C57: a scan never returns without an error: it panics, or returns an error and no document, or a document (an object) and a
decoding error. -/
theorem C57_never_success (inp : Input F) (o : Orders) (fuel : Nat) :
    scan inp o fuel = .panic ∨ (∃ e, scan inp o fuel = .ret none (some e)) ∨
      ∃ m, scan inp o fuel = .ret (some (.obj m)) (some .decode) := by
  unfold scan
  split
  · exact .inl rfl
  · exact .inr (.inl ⟨_, rfl⟩)
  · rename_i pre hp
    split
    · exact .inl rfl
    · exact .inr (.inl ⟨_, rfl⟩)
    · rename_i c hc
      obtain ⟨m, rfl⟩ := Scan.finish_isObj (Scan.prepare_isObj hp) hc
      exact .inr (.inr ⟨m, rfl⟩)

/-- C57: the document the stages make is returned, together with the error. -/
theorem C57_document_with_error {fuel : Nat} {pre : Prepared} {c : Json} (hp : prepare inp o = .ok pre) (hc : finish inp o fuel pre = .ok c) :
    scan inp o fuel = .ret (some c) (some .decode) := by
  obtain ⟨m, rfl⟩ := Scan.finish_isObj (Scan.prepare_isObj hp) hc
  unfold scan
  rw [hp]
  simp only
  rw [hc]
  rfl

/-! ### C58 -/

theorem findType_none {m m' : Types.PMap} {p : Pointer} (hm : m'.Perm m) (h : ¬ Registered m p) : m'.findType p = none := by
  unfold Types.PMap.findType
  rw [Option.map_eq_none_iff, List.find?_eq_none]
  rintro ⟨u, qs⟩ he hq
  obtain ⟨q, hq, e⟩ := List.any_eq_true.1 hq
  exact h ⟨u, qs, q, hm.mem_iff.1 he, hq, (by simpa using e : p.toStr = q.toStr).symm⟩

theorem lookup_none {α : Type} {k : Str} {l : List (Str × α)} (h : ∀ d, (k, d) ∉ l) : l.lookup k = none := by
  induction l with
  | nil => rfl
  | cons a t ih =>
    obtain ⟨k', v⟩ := a
    rw [List.lookup_cons]
    have : (k == k') = false := by
      simp only [beq_eq_false_iff_ne, ne_eq]
      rintro rfl; exact h v (by simp)
    rw [this]
    exact ih fun d hd => h d (by simp [hd])

/-- C58: resolving a Go pointer that is not overridden and not registered panics. -/
theorem C58_unregistered_panics (ho : OrdersOK inp o) {m : Types.PMap} {p : Pointer} (hs : p.url.scheme = b!"go") (h : Unknown inp m p) :
    resolveFn inp o m p = .panic := by
  unfold resolveFn
  rw [lookup_none h.1]
  simp only
  rw [if_pos hs]
  have : Types.resolve (Scan.ctx inp o m p.toStr) p = .panic := by
    unfold Types.resolve
    rw [show (Scan.ctx inp o m p.toStr).m.findType p = none from findType_none (ho.types _ _) (h.2 hs)]
  rw [this]

/-- C58: resolving a pointer with another scheme that is not overridden is an error. -/
theorem C58_other_scheme_fails {m : Types.PMap} {p : Pointer} (hs : p.url.scheme ≠ b!"go") (hov : ∀ d, (p.toStr, d) ∉ inp.override) :
    resolveFn inp o m p = .err .unsupported := by
  unfold resolveFn
  rw [lookup_none hov]
  simp only
  rw [if_neg hs]

/-- C58: if the merged document has an external reference that is unknown (and nothing else has the same printed path, so that every
iteration finds it), the scan returns no document. -/
theorem C58_no_document (ho : OrdersOK inp o) {fuel : Nat} {pre : Prepared} (hp : prepare inp o = .ok pre) (hw : Json.WF pre.doc) {L : Loc} {x : Str}
    {p : Pointer} (hx : RefAt pre.doc L x p) (hl : Lone pre.doc (L ++ [.key refKey])) (hu : Unknown inp pre.points p) : ¬ HasDoc (scan inp o fuel) := by
  obtain ⟨m, hm⟩ := Scan.prepare_isObj hp
  have hr : ∀ r, Resolver.resolve (cfg inp o pre) fuel pre.doc ≠ .ok r := by
    rw [hm] at hx hw hl ⊢
    refine Scan.resolve_fails ho.resolver hw hx hl fun r h => ?_
    change resolveFn inp o pre.points p = .ok r at h
    by_cases hs : p.url.scheme = b!"go"
    · rw [C58_unregistered_panics ho hs hu] at h; cases h
    · rw [C58_other_scheme_fails hs hu.1] at h; cases h
  unfold scan
  rw [hp]
  simp only
  unfold finish
  cases h : Resolver.resolve (cfg inp o pre) fuel pre.doc with
  | ok r => exact absurd h (hr r)
  | err e => simp [HasDoc]
  | panic => simp [HasDoc]

/-- C58: if it has one, and all its external references are unregistered Go pointers without overrides, the scan panics. -/
theorem C58_scan_panics (ho : OrdersOK inp o) {fuel : Nat} {pre : Prepared} (hp : prepare inp o = .ok pre) (hw : Json.WF pre.doc)
    (hall : ∀ y, RefLike pre.doc y → ∃ q, Pointer.parse y = .ok q ∧ (q.url.scheme ≠ [] → q.url.scheme = b!"go" ∧ Unknown inp pre.points q))
    {L : Loc} {x : Str} {p : Pointer} (hx : RefAt pre.doc L x p) (hl : Lone pre.doc (L ++ [.key refKey])) : scan inp o (fuel + 1) = .panic := by
  obtain ⟨m, hm⟩ := Scan.prepare_isObj hp
  have hr : Resolver.resolve (cfg inp o pre) (fuel + 1) pre.doc = .panic := by
    rw [hm] at hx hall hw hl ⊢
    refine Scan.resolve_panics hw ho.resolver (fun y hy => ?_) hx hl
    obtain ⟨q, h1, h2⟩ := hall y hy
    exact ⟨q, h1, fun hq => C58_unregistered_panics ho (h2 hq).1 (h2 hq).2⟩
  unfold scan
  rw [hp]
  simp only
  unfold finish
  rw [hr]

end Oapi.Props
