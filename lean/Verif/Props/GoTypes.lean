import Verif.Proofs.GoTypes4
import Verif.Proofs.Det4
import Verif.Props.WholeEx

/-! C113: the type scanner in memory.  Paths are Go slices that nested calls append to in place, and the points of a type are a slice that is sorted in
place whenever a reference to the type is made. -/
namespace Oapi.Props
open Spec Types

section
variable {F : Type}

/-- Pointers resolved one after the other; each time the map is iterated in some order. -/
def useScanner (cf : GoTypes.Conf F) : List ((GoTypes.HMap → GoTypes.HMap) × Pointer) → GoTypes.TSt → GoTypes.TSt
  | [], st => st
  | (it, p) :: rest, st => useScanner cf rest (GoTypes.resolve cf it p st).1

/-- A scanner that scanned `runs` in memory and then resolved any pointers; `sort.Sort` sorts, the map is iterated in any orders. -/
structure InUse (cf : GoTypes.Conf F) (pr : Prog) (runs : List (Str × List Pointer)) (st : GoTypes.TSt) : Prop where
  prog : ProgOK pr
  env : pr.env = cf.env
  tags : ∃ lib pf, cf.tagOf = TagP.parse lib pf
  sorts : ∀ i, SortsPoints (cf.srt i)
  history : ∃ calls, (∀ c ∈ calls, ∀ l, (c.1 l).Perm l) ∧ (GoTypes.scanPkgs cf pr.scope runs {}).2 = .ok () ∧
    st = useScanner cf calls (GoTypes.scanPkgs cf pr.scope runs {}).1

theorem empty_ok : GoTypes.TSt.OK {} := ⟨List.nodup_nil, List.nodup_nil, fun _ h => by cases h⟩

/-- **C113**: collecting types in memory registers exactly the points the value-level scan registers: that nested calls share the arrays of their
paths, however much room `append` leaves, is not observable. -/
theorem C113_collect (cf : GoTypes.Conf F) (pr : Prog) (he : pr.env = cf.env) (runs : List (Str × List Pointer)) :
    (∀ m, scanPkgs pr runs [] = .ok m → (GoTypes.scanPkgs cf pr.scope runs {}).2 = .ok () ∧ (GoTypes.scanPkgs cf pr.scope runs {}).1.content = m) ∧
    ((GoTypes.scanPkgs cf pr.scope runs {}).2 = .ok () → ∃ m, scanPkgs pr runs [] = .ok m) ∧
    ((GoTypes.scanPkgs cf pr.scope runs {}).2 = .panic ↔ scanPkgs pr runs [] = .panic) := by
  obtain ⟨_, h2, h3⟩ := GoTypes.scanPkgs_sim cf pr he runs empty_ok
  change _ = (match scanPkgs pr runs [] with | .ok _ => _ | .err e => _ | .panic => _) at h2
  change ∀ m, scanPkgs pr runs [] = .ok m → _ at h3
  cases hs : scanPkgs pr runs [] with
  | ok m => rw [hs] at h2 h3; exact ⟨fun m' h => ⟨h2, h3 m' h⟩, fun _ => ⟨m, rfl⟩, by rw [h2]; exact ⟨(fun h => by cases h), (fun h => by cases h)⟩⟩
  | err e => rw [hs] at h2; exact ⟨(fun _ h => by cases h), (fun h => by rw [h2] at h; cases h), by rw [h2]; exact ⟨(fun h => by cases h), (fun h => by cases h)⟩⟩
  | panic => rw [hs] at h2; exact ⟨(fun _ h => by cases h), (fun h => by rw [h2] at h; cases h), by rw [h2]; exact ⟨fun _ => rfl, fun _ => rfl⟩⟩

theorem scanned_hist {cf : GoTypes.Conf F} {pr : Prog} {runs : List (Str × List Pointer)} (he : pr.env = cf.env)
    (hok : (GoTypes.scanPkgs cf pr.scope runs {}).2 = .ok ()) {m : PMap} (hm : scanPkgs pr runs [] = .ok m) : GoTypes.Hist m (GoTypes.scanPkgs cf pr.scope runs {}).1 := by
  obtain ⟨h1, _, h3⟩ := GoTypes.scanPkgs_sim cf pr he runs empty_ok
  have := h3 m hm
  exact ⟨h1, by rw [this]; exact GoTypes.ent_refl m⟩

theorem in_use {cf : GoTypes.Conf F} {pr : Prog} {runs : List (Str × List Pointer)} {st : GoTypes.TSt} (h : InUse cf pr runs st) :
    ∃ m, scanPkgs pr runs [] = .ok m ∧ (m.map Prod.fst).Nodup ∧ GoTypes.Hist m st := by
  obtain ⟨calls, hc, hok, hst⟩ := h.history
  obtain ⟨m, hm⟩ := (C113_collect cf pr h.env runs).2.1 hok
  have hn := (scan_inv h.prog hm).nodup
  refine ⟨m, hm, hn, ?_⟩
  rw [hst]
  clear hst
  have h0 := scanned_hist h.env hok hm
  generalize (GoTypes.scanPkgs cf pr.scope runs {}).1 = st0 at h0
  clear hok
  induction calls generalizing st0 with
  | nil => exact h0
  | cons c rest ih =>
    exact ih (fun c' hc' => hc c' (List.mem_cons_of_mem _ hc')) _
      (GoTypes.resolve_sim h.sorts hn (hc c List.mem_cons_self) c.2 h0).1

/-- **C113**: after any history a pointer is resolved as on values, for a conversion over the scanned points (in some order of the map, with some
sorting for each field): all of C38–C43 and C58 hold in memory. -/
theorem C113_resolve {cf : GoTypes.Conf F} {pr : Prog} {runs : List (Str × List Pointer)} {st : GoTypes.TSt} (h : InUse cf pr runs st)
    {it : GoTypes.HMap → GoTypes.HMap} (hit : ∀ l, (it l).Perm l) (ptr : Pointer) :
    ∃ cx : Ctx F, Converts pr runs cx ∧ cx.tagOf = cf.tagOf ∧ cx.std = cf.std ∧ cx.zero = cf.zero ∧ (GoTypes.resolve cf it ptr st).2 = resolve cx ptr := by
  obtain ⟨m, hm, hn, hh⟩ := in_use h
  obtain ⟨_, mm, s, p1, p2, p3⟩ := GoTypes.resolve_sim h.sorts hn hit ptr hh
  exact ⟨GoTypes.cxOf cf mm s, ⟨h.prog, h.env.symm, ⟨m, hm, p1⟩, p2, h.tags⟩, rfl, rfl, rfl, p3⟩

/-- **C113**: resolving does not change which points are registered: what is registered for a type is at all times a reordering of what the scan
registered. -/
theorem C113_points_stay {cf : GoTypes.Conf F} {pr : Prog} {runs : List (Str × List Pointer)} {st : GoTypes.TSt} (h : InUse cf pr runs st)
    {m : PMap} (hm : scanPkgs pr runs [] = .ok m) (u : GoType) : (st.content.at u).Perm (m.at u) := by
  obtain ⟨m', hm', _, hh⟩ := in_use h
  rw [hm] at hm'
  cases hm'
  exact (GoTypes.ent_at hh.2 u).symm

/-- Conversions over the points of one scan give one schema if shortest pointers are unique. -/
theorem one_schema {pr : Prog} {runs : List (Str × List Pointer)} {cx cx' : Ctx F} (h : Converts pr runs cx) (h' : Converts pr runs cx') {m : PMap}
    (hm : scanPkgs pr runs [] = .ok m) (h1 : OneShortest pr.env m) (e1 : cx.tagOf = cx'.tagOf) (e2 : cx.std = cx'.std) (e3 : cx.zero = cx'.zero)
    (ptr : Pointer) : resolve cx ptr = resolve cx' ptr := by
  have I := scan_inv h.prog hm
  obtain ⟨n, hn, hp⟩ := h.scanned
  rw [hm] at hn; cases hn
  obtain ⟨n, hn, hp'⟩ := h'.scanned
  rw [hm] at hn; cases hn
  have ea : ∀ u, cx.m.at u = m.at u := at_perm I.nodup hp
  have ea' : ∀ u, cx'.m.at u = m.at u := at_perm I.nodup hp'
  have hpick : SamePick cx cx' := by
    intro i u hu
    rw [h.env] at hu
    by_cases hne : m.at u = []
    · unfold pick
      rw [ea, ea', hne, List.perm_nil.1 (h.sorts i []).1, List.perm_nil.1 (h'.sorts i []).1]
    · obtain ⟨p, a1, a2, a3⟩ := pick_some h.sorts i (u := u) (by rw [ea]; exact hne)
      obtain ⟨q, b1, b2, b3⟩ := pick_some h'.sorts i (u := u) (by rw [ea']; exact hne)
      rw [ea] at a2 a3
      rw [ea'] at b2 b3
      have hp1 : BestPoint m u p := ⟨a2, a3, (I.find p u).2 ⟨p, a2, rfl⟩⟩
      have hq1 : BestPoint m u q := ⟨b2, b3, (I.find q u).2 ⟨q, b2, rfl⟩⟩
      rw [a1, b1, points_eq h.prog hm a2 b2 (h1 u p q hu hp1 hq1)]
  unfold resolve
  rw [I.find_perm hp, I.find_perm hp', h.env, h'.env]
  split
  · rfl
  · exact type2schema_congr (h.env.trans h'.env.symm) e1 e2 e3 hpick _ _ _ _ _ (by simp)

/-- **C113**: if the types that schemas refer to have one shortest pointer each, a pointer has one schema, before and after any other pointers (and
itself) are resolved, whatever `sort.Sort` and `append` make of their choices. -/
theorem C113_same_schema {cf cf' : GoTypes.Conf F} {pr : Prog} {runs : List (Str × List Pointer)} {st st' : GoTypes.TSt} (h : InUse cf pr runs st)
    (h' : InUse cf' pr runs st') {m : PMap} (hm : scanPkgs pr runs [] = .ok m) (h1 : OneShortest pr.env m)
    (e1 : cf.tagOf = cf'.tagOf) (e2 : cf.std = cf'.std) (e3 : cf.zero = cf'.zero)
    {it it' : GoTypes.HMap → GoTypes.HMap} (hit : ∀ l, (it l).Perm l) (hit' : ∀ l, (it' l).Perm l) (ptr : Pointer) :
    (GoTypes.resolve cf it ptr st).2 = (GoTypes.resolve cf' it' ptr st').2 := by
  obtain ⟨cx, c1, c2, c3, c4, c5⟩ := C113_resolve h hit ptr
  obtain ⟨cx', d1, d2, d3, d4, d5⟩ := C113_resolve h' hit' ptr
  rw [c5, d5]
  exact one_schema c1 d1 hm h1 (c2.trans (e1.trans d2.symm)) (c3.trans (e2.trans d3.symm)) (c4.trans (e3.trans d4.symm)) ptr

/-- **C113**: if `sort.Sort` always makes the same of the same slice and leaves sorted slices alone, a pointer has one schema before and after any
other pointers (and itself) are resolved, also where several pointers are shortest. -/
theorem C113_deterministic_sort {cf : GoTypes.Conf F} {pr : Prog} {runs : List (Str × List Pointer)} {st st' : GoTypes.TSt} (h : InUse cf pr runs st)
    (h' : InUse cf pr runs st') {f : List Pointer → List Pointer} (hf : ∀ i, cf.srt i = f)
    (hstill : ∀ l : List Pointer, (l.Pairwise fun a b => a.fragment.length ≤ b.fragment.length) → f l = l)
    {it it' : GoTypes.HMap → GoTypes.HMap} (hit : ∀ l, (it l).Perm l) (hit' : ∀ l, (it' l).Perm l) (ptr : Pointer) :
    (GoTypes.resolve cf it ptr st).2 = (GoTypes.resolve cf it' ptr st').2 := by
  have hsf : SortsPoints f := by have := h.sorts 0; rw [hf] at this; exact this
  have hi : ∀ l, f (f l) = f l := fun l => hstill _ (hsf l).2
  have still : ∀ {st : GoTypes.TSt}, InUse cf pr runs st → ∃ m, scanPkgs pr runs [] = .ok m ∧ (m.map Prod.fst).Nodup ∧ GoTypes.Still f m st := by
    intro st h
    obtain ⟨calls, hc, hok, hst⟩ := h.history
    obtain ⟨m, hm⟩ := (C113_collect cf pr h.env runs).2.1 hok
    have hn := (scan_inv h.prog hm).nodup
    refine ⟨m, hm, hn, ?_⟩
    rw [hst]
    clear hst
    have h0 : GoTypes.Still f m (GoTypes.scanPkgs cf pr.scope runs {}).1 :=
      ⟨scanned_hist h.env hok hm, fun t => by rw [((C113_collect cf pr h.env runs).1 m hm).2]⟩
    generalize (GoTypes.scanPkgs cf pr.scope runs {}).1 = st0 at h0
    clear hok
    induction calls generalizing st0 with
    | nil => exact h0
    | cons c rest ih =>
      exact ih (fun c' hc' => hc c' (List.mem_cons_of_mem _ hc')) _
        (GoTypes.resolve_still hsf hi hf hn (hc c List.mem_cons_self) c.2 h0).1
  obtain ⟨m, hm, hn, s1⟩ := still h
  obtain ⟨m', hm', _, s2⟩ := still h'
  rw [hm] at hm'; cases hm'
  obtain ⟨_, mm, p1, p2⟩ := GoTypes.resolve_still hsf hi hf hn hit ptr s1
  obtain ⟨_, mm', q1, q2⟩ := GoTypes.resolve_still hsf hi hf hn hit' ptr s2
  rw [p2, q2]
  have I := scan_inv h.prog hm
  unfold resolve
  rw [show (GoTypes.cxOf cf mm fun _ => f).m.findType ptr = m.findType ptr from I.find_perm p1 ptr,
    show (GoTypes.cxOf cf mm' fun _ => f).m.findType ptr = m.findType ptr from I.find_perm q1 ptr]
  split
  · rfl
  · refine type2schema_congr (cx := GoTypes.cxOf cf mm fun _ => f) (cx' := GoTypes.cxOf cf mm' fun _ => f) rfl rfl rfl rfl ?_ _ _ _ _ _ (by simp)
    intro i u _
    show (f (mm.at u)).head? = (f (mm'.at u)).head?
    rw [at_perm I.nodup p1 u, at_perm I.nodup q1 u]

end

/-! ### A concrete scanner -/
namespace GoTypesEx
open TypesEx

/-- Arrays get room for two more elements than they need. -/
def cf : GoTypes.Conf Int := { env := env, tagOf := TagP.parse lib pf, std := fun _ => none, zero := 0, pathRoom := fun _ => 2, pointRoom := fun n => n % 3, srt := fun _ => srt }

/-- After the scan the `Node` pointer was resolved with the map iterated backwards, then forwards. -/
def used : GoTypes.TSt := useScanner cf [(List.reverse, ptr), (id, ptr)] (GoTypes.scanPkgs cf pr.scope runs {}).1

set_option maxRecDepth 20000 in
theorem scan_fine : (GoTypes.scanPkgs cf pr.scope runs {}).2 = .ok () := by
  have : isOk (GoTypes.scanPkgs cf pr.scope runs {}).2 = true := by decide +kernel
  cases h : (GoTypes.scanPkgs cf pr.scope runs {}).2 with
  | ok u => rfl
  | err e => rw [h] at this; cases this
  | panic => rw [h] at this; cases this

theorem in_use_ex : InUse cf pr runs used where
  prog := pr_ok
  env := rfl
  tags := ⟨lib, pf, rfl⟩
  sorts := fun _ => srt_sorts
  history := ⟨[(List.reverse, ptr), (id, ptr)], by
    intro c hc l
    simp only [List.mem_cons, List.not_mem_nil, or_false] at hc
    rcases hc with rfl | rfl
    · exact List.reverse_perm l
    · exact .refl _, scan_fine, rfl⟩

/-- Slices were sorted four times. -/
example : used.clock = 4 ∧ used.map.length = 5 := by decide +kernel

/-- Another `sort.Sort` and `append`: here every other call turns equal elements around, and arrays never have room. -/
def cf' : GoTypes.Conf Int := { cf with pathRoom := fun _ => 0, pointRoom := fun _ => 0, srt := fun i l => if i % 2 = 0 then srt l else srt l.reverse }

theorem sorts' (i : Nat) : SortsPoints (cf'.srt i) := by
  intro l
  show (if i % 2 = 0 then srt l else srt l.reverse).Perm l ∧ _
  simp only [cf']
  split
  · exact srt_sorts l
  · exact ⟨(srt_sorts _).1.trans (List.reverse_perm l), (srt_sorts _).2⟩

set_option maxRecDepth 20000 in
theorem scan_fine' : (GoTypes.scanPkgs cf' pr.scope runs {}).2 = .ok () := by
  have : isOk (GoTypes.scanPkgs cf' pr.scope runs {}).2 = true := by decide +kernel
  cases h : (GoTypes.scanPkgs cf' pr.scope runs {}).2 with
  | ok u => rfl
  | err e => rw [h] at this; cases this
  | panic => rw [h] at this; cases this

attribute [local irreducible] TypesEx.points Types.scanPkgs GoTypes.scanPkgs in
theorem shortest_ex : OneShortest pr.env points := WholeEx.one_shortest

attribute [local irreducible] TypesEx.points Types.scanPkgs GoTypes.scanPkgs GoTypes.resolve used in
/-- C113_same_schema applies: the pointers of `Node` and `Item` are shortest. -/
example : (GoTypes.resolve cf List.reverse ptr used).2 = (GoTypes.resolve cf' id ptr (GoTypes.scanPkgs cf' pr.scope runs {}).1).2 :=
  C113_same_schema in_use_ex ⟨pr_ok, rfl, ⟨lib, pf, rfl⟩, sorts', [], (fun _ h => by cases h), scan_fine', rfl⟩ TypesEx.points_eq shortest_ex
    rfl rfl rfl (fun l => List.reverse_perm l) (fun l => .refl _) ptr

/-- C113_resolve applies: after that history `Node` still has the properties `Next` and `Items`. -/
example : (match (GoTypes.resolve cf List.reverse ptr used).2 with | .ok s => some (s.properties.map Prod.fst) | _ => none) = some [b!"Next", b!"Items"] := by decide +kernel

theorem used_schema : (GoTypes.resolve cf List.reverse ptr used).2 = (GoTypes.resolve cf id ptr (GoTypes.scanPkgs cf pr.scope runs {}).1).2 := by
  refine C113_deterministic_sort in_use_ex (st' := (GoTypes.scanPkgs cf pr.scope runs {}).1) ⟨pr_ok, rfl, ⟨lib, pf, rfl⟩, fun _ => srt_sorts, [], (fun _ h => by cases h), scan_fine, rfl⟩
    (f := srt) (fun _ => rfl) ?_ (fun l => List.reverse_perm l) (fun l => .refl _) ptr
  intro l
  induction l with
  | nil => intro _; rfl
  | cons a l ih =>
    intro h
    rw [List.pairwise_cons] at h
    simp only [srt, ih h.2]
    cases l with
    | nil => rfl
    | cons b t => simp only [put, if_pos (h.1 b List.mem_cons_self)]

/-- `type A struct { X int }; type B struct { X int }; type C struct { F A }`: the struct has the two pointers `#/A` and `#/B`. -/
def tieT : GoType := .struct [({ name := b!"X" }, .basic .int)]
def tieEnv : Env := [⟨some b!"p", b!"A", tieT⟩, ⟨some b!"p", b!"B", tieT⟩, ⟨some b!"p", b!"C", .struct [({ name := b!"F" }, .named 0)]⟩]
def tieScope (pkg name : Str) : Option GoType :=
  if pkg = b!"p" then if name = b!"A" then some (.named 0) else if name = b!"B" then some (.named 1) else if name = b!"C" then some (.named 2) else none else none
def tieRuns : List (Str × List Pointer) := [(b!"p", [Pointer.newGoLoose b!"p" b!"A", Pointer.newGoLoose b!"p" b!"B", Pointer.newGoLoose b!"p" b!"C"])]
/-- A sort that is not stable: every other call turns equal elements around. -/
def tieCf : GoTypes.Conf Int := { cf with env := tieEnv, srt := fun i l => if i % 2 = 0 then srt l else srt l.reverse }
def tieRef (st : GoTypes.TSt) : Option Str := match (GoTypes.resolve tieCf id (Pointer.newGoLoose b!"p" b!"C") st).2 with
  | .ok s => (s.properties.lookup b!"F").bind fun s => s.ref.map Pointer.toStr
  | _ => none
def tieStart : GoTypes.TSt := (GoTypes.scanPkgs tieCf tieScope tieRuns {}).1

/-- The conditions of `C113_same_schema` and `C113_deterministic_sort` are needed: with two shortest pointers and nothing but the contract of
`sort.Sort`, the same pointer has different schemas the first and the second time. -/
example : tieRef tieStart = some b!"go://p#/A" ∧ tieRef (GoTypes.resolve tieCf id (Pointer.newGoLoose b!"p" b!"C") tieStart).1 = some b!"go://p#/B" := by
  decide +kernel

end GoTypesEx
end Oapi.Props
