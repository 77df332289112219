import Verif.Model.System
import Verif.Proofs.Crash4
import Verif.Props.PkgFiles

/-! Scans of inputs that differ only in files that do not matter (C100, C101). -/
namespace Oapi.Scan
open Spec Container

variable {F : Type} {inp : Input F} {o : Orders}

theorem runScanner_congr {σ : Type} {fn fn' : Pkgs.Scanner σ} : ∀ {l : List Nat} {s : σ}, (∀ p ∈ l, ∀ s, fn.scan s p = fn'.scan s p) →
    runScanner fn s l = runScanner fn' s l := by
  intro l
  induction l with
  | nil => intro s _; rfl
  | cons p l ih =>
    intro s h
    simp only [runScanner]
    rw [h p (by simp), ih fun q hq => h q (by simp [hq])]

theorem walk_cases {σ : Type} [Crashing σ] {heap : Pkgs.Heap} {roots : List Nat} (hg : GraphOK inp.heap roots) (hs : SameGraph inp.heap heap)
    (fn : Pkgs.Scanner σ) (s : σ) : (∃ r, walk inp heap roots fn s = .ok r) ∨ walk inp heap roots fn s = .err .loadErr := by
  unfold walk
  rw [← Props.C49_order_independent inp.stdpkg inp.heap heap fn s roots hg hs]
  obtain ⟨st, e, h⟩ := Props.C49_terminates inp.stdpkg inp.heap fn s roots hg
  rw [h]
  simp only
  split
  · exact .inl ⟨_, rfl⟩
  · cases e <;> simp

theorem walk_congr {σ : Type} [Crashing σ] {heap : Pkgs.Heap} {roots : List Nat} (hg : GraphOK inp.heap roots) (hs : SameGraph inp.heap heap)
    {fn fn' : Pkgs.Scanner σ} (h : ∀ p ∈ plan inp.stdpkg inp.heap roots, ∀ s, fn.scan s p = fn'.scan s p) (s : σ) :
    walk inp heap roots fn s = walk inp heap roots fn' s := by
  have hr := runScanner_congr (s := s) h
  have hiff : ∀ r, walk inp heap roots fn s = .ok r ↔ walk inp heap roots fn' s = .ok r := by
    intro r
    rw [walk_gen hg hs, walk_gen hg hs, hr]
  rcases walk_cases hg hs fn s with ⟨r, h1⟩ | h1
  · rw [h1, (hiff r).1 h1]
  · rcases walk_cases hg hs fn' s with ⟨r, h2⟩ | h2
    · rw [(hiff r).2 h2] at h1; cases h1
    · rw [h1, h2]

/-- The input with other files. -/
def withFiles (inp : Input F) (f : Nat → Res (List File)) : Input F := { inp with files := f }

/-- The stages before the resolution, with the stage of the specifications left open. -/
def prepareWith (inp : Input F) (o : Orders) (specs : List Nat → Res (List File × Pointers)) : Res Prepared := do
  let roots ← inp.load
  let cmds ← walk inp o.heap₁ roots (cmdsScanner inp) []
  let exports ← Cmds.exportedComponents (o.exports cmds)
  let (files, ps) ← specs roots
  let c ← mergeAll mergeStrict ((o.sort files).map File.doc)
  let pp := Pointers.merge (Pointers.merge [] (Cmds.mapPointers (o.commands cmds) [])) ps
  let m ← flat (walk inp o.heap₃ roots (typesScanner inp o pp) (.ok []))
  let c ← OAPI.mergeWithRoot inp.root c
  return { exports := exports, doc := c, points := m }

theorem prepare_with : prepare inp o = prepareWith inp o fun roots => flat (walk inp o.heap₂ roots (specsScanner inp o) (.ok ([], []))) := rfl

theorem prepareWith_files (f : Nat → Res (List File)) (specs : List Nat → Res (List File × Pointers)) :
    prepareWith (withFiles inp f) o specs = prepareWith inp o specs := rfl

theorem prepareWith_congr {a b : List Nat → Res (List File × Pointers)} (h : ∀ roots, inp.load = .ok roots → a roots = b roots) :
    prepareWith inp o a = prepareWith inp o b := by
  unfold prepareWith
  simp only [bind, Res.bind]
  cases hl : inp.load with
  | panic => rfl
  | err e => rfl
  | ok roots => simp only [h roots hl]

/-- Only the files of scanned packages matter, and only what the scanner of specifications makes of them. -/
theorem scan_congr (hg : ∀ roots, inp.load = .ok roots → GraphOK inp.heap roots) (ho : SameGraph inp.heap o.heap₂) {f : Nat → Res (List File)}
    (h : ∀ p, Visited inp p → ∀ st, (specsScanner (withFiles inp f) o).scan st p = (specsScanner inp o).scan st p) (fuel : Nat) :
    scan (withFiles inp f) o fuel = scan inp o fuel := by
  have hp : prepare (withFiles inp f) o = prepare inp o := by
    rw [prepare_with, prepare_with, prepareWith_files]
    refine prepareWith_congr fun roots hr => ?_
    have := walk_congr (hg roots hr) ho (fn := specsScanner (withFiles inp f) o) (fn' := specsScanner inp o) (fun p hp st => h p ?_ st) (.ok ([], []))
    · exact congrArg flat this
    · rw [plan_mem (hg roots hr)] at hp
      obtain ⟨r, h1, h2⟩ := hp
      exact ⟨roots, r, hr, h1, h2⟩
  unfold scan
  rw [hp]
  rfl

theorem specsScanner_same {f : Nat → Res (List File)} {p : Nat} (h : f p = inp.files p) (st : Res (List File × Pointers)) :
    (specsScanner (withFiles inp f) o).scan st p = (specsScanner inp o).scan st p := by
  unfold specsScanner
  simp only [withFiles, h]

/-- A file that is no specification, after the others, is ignored. -/
theorem scanFiles_ignored {ord : Nat → List (Str × Json) → List (Str × Json)} {pkg : Str} {g : File} (hg : existsP g.doc b!"openapi" = false) :
    ∀ (fs : List File) (i : Nat) (ps : Pointers), scanFiles ord pkg i (fs ++ [g]) ps = scanFiles ord pkg i fs ps
  | [], i, ps => by simp [scanFiles, scanFile, hg]
  | f :: t, i, ps => by
    simp only [List.cons_append, scanFiles]
    cases scanFile (ord i) pkg f ps with
    | err e => rfl
    | panic => rfl
    | ok r => simp only [scanFiles_ignored hg t]

theorem specsScanner_ignored {f : Nat → Res (List File)} {p : Nat} {fs : List File} {g : File} (h1 : inp.files p = .ok fs) (h2 : f p = .ok (fs ++ [g]))
    (hg : existsP g.doc b!"openapi" = false) (st : Res (List File × Pointers)) :
    (specsScanner (withFiles inp f) o).scan st p = (specsScanner inp o).scan st p := by
  unfold specsScanner
  simp only [withFiles, h1, h2, scanFiles_ignored hg]

/-- The document of a scan whose input meets the conditions of C65 is well-formed, and outside of `paths` the resolved one. -/
theorem one_document {pre : Prepared} (hi : InputOK inp) (hs : SchemasOK inp) (ho : OrdersOK inp o) (hp : prepare inp o = .ok pre)
    (hr : Resolvable inp o pre) (h1 : OneShortest inp.prog.env pre.points) (hd : DefaultsOK inp pre.doc) :
    ∃ m N, (∀ o', OrdersOK inp o' → ∀ fuel, N ≤ fuel → scan inp o' fuel = .ret (some (.obj m)) (some .decode)) ∧ Json.WF (.obj m) ∧
      ∀ k L, k ≠ b!"paths" → (∀ R x p, RefAt pre.doc R x p → Apart (.key k :: L) R) → (∀ e ∈ pre.exports, Apart (.key k :: L) (compLoc e)) →
        getAt (.obj m) (.key k :: L) = getAt pre.doc (.key k :: L) := by
  have hset := scan_setting hi ho hs hp hr
  obtain ⟨r, out, ⟨n, hn⟩, hfin, hall⟩ := finish_one hi ho hp hset hr.cycles (scan_solvable hi ho hs hp hr) h1 hd
  have : ∃ m, out = .obj m := by
    have := hall o ho _ (Nat.le_refl _)
    rcases Props.C57_never_success inp o _ with h | ⟨e, h⟩ | ⟨m, h⟩
    · rw [this] at h; cases h
    · rw [this] at h; cases h
    · rw [this] at h; cases h; exact ⟨m, rfl⟩
  obtain ⟨m, rfl⟩ := this
  refine ⟨m, _, hall, hfin.wf, ?_⟩
  intro k L hk hR he
  rw [hfin.rest k L hk]
  exact Props.C32_rest_unchanged hset.good hset.tidy hset.receives hn hR he

end Oapi.Scan
