import Verif.Model.GoWhole
import Verif.Spec.GoScan
import Verif.Spec.TypeSchema

/-! Specification vocabulary for scans with one type scanner in memory (C116). -/
namespace Oapi.Spec

/-- What Go promises where types are scanned: `sort.Sort` sorts, and maps are iterated in some order. -/
structure RtOK (rt : GoWhole.Rt) : Prop where
  srt : ∀ i, SortsPoints (rt.srt i)
  it : ∀ n l, (rt.it n l).Perm l

/-- `sort.Sort` makes the same of the same slice each time, and leaves sorted slices alone. -/
structure Steady (srt : Nat → List Pointer → List Pointer) : Prop where
  same : ∀ i j l, srt i l = srt j l
  sorted : ∀ i (l : List Pointer), (l.Pairwise fun a b => a.fragment.length ≤ b.fragment.length) → srt i l = l

end Oapi.Spec
