import Verif.Proofs.Idle
import Verif.Props.Crash

/-! C120: configuration that nothing refers to. -/
namespace Oapi.Props
open Spec
open Scan (Input Orders prepare scan Outcome reorder ordersOK_reorder scan_idle_default scan_idle_override)

section
variable {F : Type} {inp : Input F} {o : Orders}

/-- **C120** (overrides): an override of a pointer that no registered type has and that no reference of the prepared document or of another
override is one to does not change what the scan does. -/
theorem C120_unreferenced_override (hi : InputOK inp) (ho : OrdersOK inp o) (hd : DistinctPaths inp) (hs : SchemasOK inp) (hso : Sound inp)
    {before later : List (Str × Json)} (hov : inp.override = before ++ later) {y : Str} (hu : ∀ pre, prepare inp o = .ok pre → Unreferenced inp pre y)
    (d : Json) (fuel : Nat) : scan { inp with override := before ++ (y, d) :: later } o fuel = scan inp o fuel :=
  scan_idle_override hi ho hd hs hso hov d hu fuel

/-- **C120** (default operations): a default operation whose pattern matches no operation of the documents that the scan can give without default
operations does not change what the scan can do. -/
theorem C120_unmatched_default {pat : Str} {fuel : Nat} (hm : MatchesNothing inp fuel pat) {before later : List (Str × Json)}
    (hdef : inp.defops = before ++ later) (ov : Json) (out : Outcome) :
    CanYield { inp with defops := before ++ (pat, ov) :: later } fuel out ↔ CanYield inp fuel out := by
  have hre : ∀ {l : List (Str × Json)} {o : Orders}, OrdersOK { inp with defops := l } o → OrdersOK inp o := fun h =>
    ⟨h.heap₁, h.heap₂, h.heap₃, h.exports, h.commands, h.refs, h.sort, h.pointers, h.types, h.pick, h.resolver, h.ops, h.defops⟩
  have hself : { inp with defops := before ++ later } = inp := by rw [← hdef]
  constructor
  · rintro ⟨o, ho, hs⟩
    have hmem : (pat, ov) ∈ o.defops (before ++ (pat, ov) :: later) := (ho.defops _).mem_iff.2 (by simp)
    obtain ⟨l1, l2, hl⟩ := List.append_of_mem hmem
    have hperm : (l1 ++ l2).Perm (before ++ later) := by
      have h1 := ho.defops (before ++ (pat, ov) :: later)
      rw [hl] at h1
      exact ((List.perm_middle.symm.trans h1).trans List.perm_middle).cons_inv
    classical
    let f : List (Str × Json) → List (Str × Json) := fun l => if l = before ++ later then l1 ++ l2 else l
    have hf : ∀ l, (f l).Perm l := by
      intro l
      simp only [f]
      split
      · rename_i h; rw [h]; exact hperm
      · exact .refl _
    refine ⟨reorder o f, ?_, ?_⟩
    · have := ordersOK_reorder (l := before ++ later) (hre ho) hf
      rwa [hself] at this
    · rw [← hs]
      have := scan_idle_default (hre ho) hm ov (l := before ++ (pat, ov) :: later) (l' := before ++ later) (f := o.defops) (f' := f) hl (by simp [f])
      rw [hself] at this
      exact this.symm
  · rintro ⟨o, ho, hs⟩
    classical
    let f : List (Str × Json) → List (Str × Json) := fun l => if l = before ++ (pat, ov) :: later then (pat, ov) :: o.defops (before ++ later) else l
    have hf : ∀ l, (f l).Perm l := by
      intro l
      simp only [f]
      split
      · rename_i h
        rw [h]
        exact ((ho.defops _).cons _).trans List.perm_middle.symm
      · exact .refl _
    refine ⟨reorder o f, ordersOK_reorder ho hf, ?_⟩
    rw [← hs]
    have := scan_idle_default ho hm ov (l := before ++ (pat, ov) :: later) (l' := before ++ later) (f := f) (f' := o.defops) (before := [])
      (later := o.defops (before ++ later)) (by simp [f]) rfl
    rw [hself] at this
    exact this

end

/-! The hypotheses are met. -/
namespace IdleEx
open WholeEx PrepareEx CrashEx

def unused : Str := b!"http://ex.org/s#/Unused"

theorem points_used : (TypesEx.points.all fun e => e.2.all fun q => decide (q.toStr ≠ unused)) = true := by decide +kernel
theorem not_Y : pY.toStr ≠ unused := by decide +kernel
theorem not_N : pN.toStr ≠ unused := by decide +kernel

attribute [local irreducible] prepare TypesEx.points Scan.resolveFn unused

theorem unreferenced : Unreferenced inp pre unused where
  types p hp := by
    obtain ⟨u, qs, q, h1, h2, h3⟩ := hp
    rw [← h3]
    exact of_decide_eq_true (List.all_eq_true.1 (List.all_eq_true.1 points_used _ h1) q h2)
  refs x p hx hpx := by
    have hmem : x ∈ [xY, xN] := by
      rcases hx with hx | ⟨e, he, hx⟩
      · have := refLike_mem (j := pre.doc) (by decide) (by decide) hx
        rw [refs_doc] at this; exact this
      · simp only [inp, List.mem_singleton] at he
        subst he
        have := refLike_mem (j := .obj [(b!"type", .str b!"string")]) (by decide) (by decide) hx
        rw [show refsB (.obj [(b!"type", .str b!"string")]) = [] by decide] at this
        cases this
    simp only [List.mem_cons, List.not_mem_nil, or_false] at hmem
    rcases hmem with rfl | rfl
    · rw [parse_Y.1] at hpx; obtain rfl := Res.ok.inj hpx; exact not_Y
    · rw [parse_N.1] at hpx; obtain rfl := Res.ok.inj hpx; exact not_N

/-- One override more changes nothing. -/
example (d : Json) (fuel : Nat) : scan { inp with override := inp.override ++ [(unused, d)] } ScanEx.orders fuel = scan inp ScanEx.orders fuel :=
  C120_unreferenced_override (later := []) input_ok orders_ok distinct schemas_ok sound (List.append_nil _).symm
    (fun pre' h => by rw [prepared] at h; obtain rfl := Res.ok.inj h; exact unreferenced) d fuel

/-- The input with a matcher that looks at the pattern. -/
def matched : Input Int := { inp with matches_ := fun pat _ P => .ok (pat = b!"*" && P != b!"/v1.0") }

example (ov : Json) (fuel : Nat) (out : Outcome) : CanYield { matched with defops := (b!"/none", ov) :: inp.defops } fuel out ↔ CanYield matched fuel out :=
  C120_unmatched_default (inp := matched) (before := []) (pat := b!"/none") (fun _ _ _ _ _ _ => rfl) rfl ov out

end IdleEx
end Oapi.Props
