import Verif.Props.Load
import Verif.Props.SpecJsonEx

/- Concrete cases for C91 and C92. -/
namespace Oapi.Props
open Oapi.SpecJson Oapi.Load Spec.SpecJson Spec.Load
set_option maxRecDepth 100000

def demoConf (tags : Json) : Obj := [(b!"Dir", .str b!"src"), (b!"info", .obj [(b!"title", .str b!"Pets"), (b!"x-id", .num 1)]),
  (b!"operations", .obj [(b!"GET /pets", .obj [(b!"deprecated", .bool true)]), (b!"POST /pets", .null)]),
  (b!"paths", .obj []), (b!"tags", tags)]

def goodTags : Json := .arr [.obj [(b!"name", .str b!"pets")]]
def badTags : Json := .arr [.str b!"pets"]
def demoSource (tags : Json) : Str → Res Json := fun _ => .ok (.obj (demoConf tags))

theorem demo_good_WF : (Json.obj (demoConf goodTags)).WF := wfB_sound _ (by decide +kernel)
theorem demo_bad_WF : (Json.obj (demoConf badTags)).WF := wfB_sound _ (by decide +kernel)
theorem demo_good_twins : NoTwins configMembers (demoConf goodTags) := noTwinsB_sound (by decide +kernel)
theorem demo_bad_twins : NoTwins configMembers (demoConf badTags) := noTwinsB_sound (by decide +kernel)
theorem demo_read (tags : Json) : Cli.readDoc (demoSource tags) b!"/c.json" = .ok (.obj (demoConf tags)) := rfl
theorem demo_ok : (readFile demoEnv (demoSource goodTags) b!"/c.json").2 = true := by decide +kernel

/-- The hypotheses of the theorems of C91, and what they say here: the root document gains the version of `info` and loses `x-id` and `paths`, the
null operation is an empty one. -/
example : Says (demoConf goodTags) b!"dir" b!"src" ∧ (readFile demoEnv (demoSource goodTags) b!"/c.json").1.base.dir = b!"src" :=
  ⟨.inl (by decide +kernel), by decide +kernel⟩
example : Main.rootOf (readFile demoEnv (demoSource goodTags) b!"/c.json").1 =
    .obj [(b!"info", .obj [(b!"title", .str b!"Pets"), (b!"version", .str [])]), (b!"tags", goodTags)] := by decide +kernel
example : (readFile demoEnv (demoSource goodTags) b!"/c.json").1.operations =
    [(b!"GET /pets", .obj [(b!"deprecated", .bool true)]), (b!"POST /pets", .obj [])] := by decide +kernel
example := C91_settings (demo_read _) demo_good_WF demo_good_twins demo_ok
example := C91_root (demo_read _) demo_good_WF demo_good_twins demo_ok
example := C91_tables (demo_read _) demo_good_WF demo_good_twins demo_ok
example := C91_exclude (demo_read _) demo_good_WF demo_good_twins demo_ok

def confB (o : Obj) : Bool := configMembers.all fun e => match given o e.1 with
  | some x => clearB e.2 x && (parts e.2 x).all fun p => decide (p.1 ≠ .reference) && decide (p.1 ≠ .callback)
  | none => true

theorem confB_sound {e : Around} {o : Obj} (h : confB o = true) :
    ∀ m k x, (m, k) ∈ configMembers → given o m = some x → Clear k x ∧ ¬ Stops e k x := by
  intro m k x hm hg
  have := List.all_eq_true.1 h _ hm
  simp only [hg, Bool.and_eq_true] at this
  refine ⟨clearB_sound _ _ this.1, ?_⟩
  rintro (⟨y, ha, _⟩ | ⟨y, _, _, ha, _⟩)
  · have := List.all_eq_true.1 this.2 _ (parts_complete ha)
    simp at this
  · have := List.all_eq_true.1 this.2 _ (parts_complete ha)
    simp at this

theorem demo_good_conf : confB (demoConf goodTags) = true := by decide +kernel
theorem demo_bad_conf : confB (demoConf badTags) = true := by decide +kernel

example := C91_root_encoded (demo_read _) demo_good_WF demo_good_twins demo_ok fun m k x hm hg => by
  refine (confB_sound (e := around demoEnv) demo_good_conf m k x ?_ hg).1
  simp only [configMembers, List.mem_append, List.mem_cons]
  exact .inl (.inr (.inr hm))

/-- The document with the wrong tags is refused, the other settings are those of the good one. -/
example : (readFile demoEnv (demoSource badTags) b!"/c.json").2 = false :=
  (C92_error (demo_read _) demo_bad_WF demo_bad_twins fun m k x hm hg => (confB_sound (e := around demoEnv) demo_bad_conf m k x hm hg).1).2
    ⟨b!"tags", .list (.sec .tag), badTags, .sec .tag, .str b!"pets", by decide, by decide +kernel, .elem (.head _) (.here _ _), nofun⟩

example : SameExcept b!"tags" (readFile demoEnv (demoSource badTags) b!"/c.json").1 (readFile demoEnv (demoSource goodTags) b!"/c.json").1 := by
  refine C92_other_settings b!"tags" (demo_read _) (demo_read _) demo_bad_WF demo_good_WF demo_bad_twins demo_good_twins
    (confB_sound demo_bad_conf) (confB_sound demo_good_conf) fun m k hk hm => ?_
  have h : (configMembers.all fun e => decide (e.1 = b!"tags") || decide (given (demoConf badTags) e.1 = given (demoConf goodTags) e.1)) = true := by
    decide +kernel
  have := List.all_eq_true.1 h _ hk
  simpa [hm] using this

end Oapi.Props
