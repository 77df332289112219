import Verif.Props.Types

/-! A concrete program that meets the hypotheses of C36–C43. -/
namespace Oapi.Props.TypesEx
open Spec Types

/-- `package p; type Node struct { Next *Node; Items []Item; hidden int }; type Item struct { ID int64 }`. -/
def nodeT : GoType := .struct [({ name := b!"Next" }, .pointer (.named 0)), ({ name := b!"Items" }, .slice (.named 1)),
  ({ name := b!"hidden", hiddenIn := some b!"ex.org/p" }, .basic .int)]
def itemT : GoType := .struct [({ name := b!"ID" }, .basic .int64), ({ name := b!"Owner" }, .named 0)]
def env : Env := [⟨some b!"ex.org/p", b!"Node", nodeT⟩, ⟨some b!"ex.org/p", b!"Item", itemT⟩]
def pr : Prog := ⟨env, fun pkg name => if pkg = b!"ex.org/p" then
  if name = b!"Node" then some (.named 0) else if name = b!"Item" then some (.named 1) else none else none⟩

/-- `go://ex.org/p#/Node`. -/
def ptr : Pointer := Pointer.newGoLoose b!"ex.org/p" b!"Node"
def runs : List (Str × List Pointer) := [(b!"ex.org/p", [ptr])]

theorem pr_ok : ProgOK pr := by
  refine ⟨?_, ?_⟩
  · intro pkg name t h
    simp only [pr] at h
    split at h
    · rename_i h1; subst h1
      have hg : GoPkg b!"ex.org/p" := ⟨by decide, by decide⟩
      split at h
      · rename_i h2; subst h2; cases h
        exact ⟨hg, by unfold GoIdent; decide, by intro fs h; simp [parts] at h, by intro n h; simp [parts] at h; subst h; decide⟩
      · split at h
        · rename_i h2; subst h2; cases h
          exact ⟨hg, by unfold GoIdent; decide, by intro fs h; simp [parts] at h, by intro n h; simp [parts] at h; subst h; decide⟩
        · cases h
    · cases h
  · intro n d h
    match n with
    | 0 =>
      cases h
      refine ⟨⟨?_, ?_⟩, ?_, ?_⟩
      · intro fs h
        simp [nodeT, parts, partsF] at h
        subst h
        refine ⟨?_, ?_⟩
        · unfold GoIdent; decide
        · decide
      · intro n h
        simp [nodeT, parts, partsF] at h
        rcases h with rfl | rfl <;> decide
      · intro k h; cases h
      · intro pkg h; cases h; rfl
    | 1 =>
      cases h
      refine ⟨⟨?_, ?_⟩, ?_, ?_⟩
      · intro fs h
        simp [itemT, parts, partsF] at h
        subst h
        refine ⟨?_, ?_⟩
        · unfold GoIdent; decide
        · decide
      · intro n h
        simp [itemT, parts, partsF] at h
        subst h; decide
      · intro k h; cases h
      · intro pkg h; cases h; rfl
    | n + 2 => cases h

def isOk {α : Type} : Res α → Bool
  | .ok _ => true
  | _ => false

set_option maxRecDepth 20000 in
theorem scan_ok : isOk (scanPkgs pr runs []) = true := by decide +kernel

/-- Sorting by the length of the fragment. -/
def put (a : Pointer) : List Pointer → List Pointer
  | [] => [a]
  | b :: l => if a.fragment.length ≤ b.fragment.length then a :: b :: l else b :: put a l
def srt : List Pointer → List Pointer
  | [] => []
  | a :: l => put a (srt l)

theorem put_perm (a : Pointer) (l : List Pointer) : (put a l).Perm (a :: l) := by
  induction l with
  | nil => exact .refl _
  | cons b l ih =>
    simp only [put]
    split
    · exact .refl _
    · exact (ih.cons b).trans (List.Perm.swap a b l)

theorem put_sorted (a : Pointer) (l : List Pointer) (h : l.Pairwise fun a b => a.fragment.length ≤ b.fragment.length) :
    (put a l).Pairwise fun a b => a.fragment.length ≤ b.fragment.length := by
  induction l with
  | nil => simp [put]
  | cons b l ih =>
    simp only [put]
    rw [List.pairwise_cons] at h
    split
    · rename_i hab
      rw [List.pairwise_cons]
      refine ⟨?_, List.pairwise_cons.2 h⟩
      intro x hx
      rw [List.mem_cons] at hx
      rcases hx with rfl | hx
      · exact hab
      · exact Nat.le_trans hab (h.1 x hx)
    · rename_i hab
      rw [List.pairwise_cons]
      refine ⟨?_, ih h.2⟩
      intro x hx
      rw [(put_perm a l).mem_iff, List.mem_cons] at hx
      rcases hx with rfl | hx
      · omega
      · exact h.1 x hx

theorem srt_sorts : SortsPoints srt := by
  intro l
  induction l with
  | nil => exact ⟨.refl _, List.Pairwise.nil⟩
  | cons a l ih => exact ⟨(put_perm a _).trans (ih.1.cons a), put_sorted a _ ih.2⟩

/-- The points of the scan, and a tag parser for which no field has tags. -/
def points : PMap := match scanPkgs pr runs [] with
  | .ok m => m
  | _ => []
def lib : Str → Option TagP.Tags := fun _ => some ⟨none, none⟩
def pf : Str → Option Int := fun _ => none
def cx : Ctx Int := { env := env, m := points, tagOf := TagP.parse lib pf, std := fun s => if s = b!"go://time#/Time" then some (.plain { type := b!"string" }) else none, zero := 0, srt := fun _ => srt }

theorem points_eq : scanPkgs pr runs [] = .ok points := by
  have h := scan_ok
  unfold points
  cases hs : scanPkgs pr runs [] with
  | ok m => rfl
  | err e => rw [hs] at h; cases h
  | panic => rw [hs] at h; cases h

attribute [local irreducible] points scanPkgs

theorem cx_converts : Converts pr runs cx where
  prog := pr_ok
  env := rfl
  scanned := ⟨cx.m, points_eq, .refl _⟩
  sorts := fun _ => srt_sorts
  tags := ⟨lib, pf, rfl⟩

theorem ptr_found : cx.m.findType ptr = some nodeT := by decide +kernel

/-- C36–C43 apply: `Node` is converted, its properties are `Next` and `Items`. -/
example : ∃ s, resolve cx ptr = .ok s ∧ s.properties.map Prod.fst = [b!"Next", b!"Items"] := by
  rcases C38_outcome cx_converts ptr_found with ⟨_, e, h, _⟩ | ⟨_, s, h⟩
  · exact absurd (show isOk (resolve cx ptr) = true by decide +kernel) (by rw [h]; simp [isOk])
  · refine ⟨s, h, ?_⟩
    have := (show (match resolve cx ptr with | .ok s => some (s.properties.map Prod.fst) | _ => none) = some [b!"Next", b!"Items"] by decide +kernel)
    rw [h] at this
    simpa using this

/-- The property `Items` refers to `Item` by its name. -/
example : (match resolve cx ptr with
    | .ok s => ((s.properties.lookup b!"Items").bind fun s => s.items.bind fun s => s.ref.map Pointer.toStr)
    | _ => none) = some b!"go://ex.org/p#/Item" := by decide +kernel

/-- The property `Next` is oneOf a reference to `Node` itself and a nullable object. -/
example : (match resolve cx ptr with
    | .ok s => ((s.properties.lookup b!"Next").map fun s => s.oneOf.map fun s => (s.ref.map Pointer.toStr, s.attrs.type, s.attrs.nullable))
    | _ => none) = some [(some b!"go://ex.org/p#/Node", [], false), (none, b!"object", true)] := by decide +kernel

/-- Looking up a pointer that is not registered crashes (C58). -/
example : resolve cx (Pointer.newGoLoose b!"ex.org/p" b!"Nope") = .panic := by
  unfold resolve
  rw [show cx.m.findType (Pointer.newGoLoose b!"ex.org/p" b!"Nope") = none by decide +kernel]

/-- A field of type `error`: `type Bad struct { Err error }`. -/
def badEnv : Env := [⟨some b!"p", b!"Bad", .struct [({ name := b!"Err" }, .named 1)]⟩, ⟨none, b!"error", .other 0⟩]
def badPr : Prog := ⟨badEnv, fun pkg name => if pkg = b!"p" ∧ name = b!"Bad" then some (.named 0) else none⟩

theorem bad_ok : ProgOK badPr := by
  refine ⟨?_, ?_⟩
  · intro pkg name t h
    simp only [badPr] at h
    split at h
    · rename_i h1; obtain ⟨rfl, rfl⟩ := h1; cases h
      exact ⟨⟨by decide, by decide⟩, by unfold GoIdent; decide, by intro fs h; simp [parts] at h, by intro n h; simp [parts] at h; subst h; decide⟩
    · cases h
  · intro n d h
    match n with
    | 0 =>
      cases h
      refine ⟨⟨?_, ?_⟩, ?_, ?_⟩
      · intro fs h
        simp [parts, partsF] at h
        subst h
        refine ⟨?_, ?_⟩
        · unfold GoIdent; decide
        · decide
      · intro n h
        simp [parts, partsF] at h
        subst h; decide
      · intro k h; cases h
      · intro pkg h; cases h; rfl
    | 1 =>
      cases h
      refine ⟨⟨?_, ?_⟩, ?_, ?_⟩
      · intro fs h; simp [parts] at h
      · intro n h; simp [parts] at h
      · intro k h; cases h
      · intro pkg h; cases h
    | n + 2 => cases h

example : scanPkgs badPr [(b!"p", [Pointer.newGoLoose b!"p" b!"Bad"])] [] = .panic :=
  (C36_panics_iff_error bad_ok _ _).1.2 ⟨b!"p", b!"Bad", .named 0, ⟨_, List.mem_singleton.2 rfl, _, List.mem_singleton.2 rfl, by decide +kernel, by decide +kernel, by decide +kernel, rfl⟩,
    _, 1, _, .refl, ⟨b!"Err", rfl⟩, rfl, rfl⟩

end Oapi.Props.TypesEx
