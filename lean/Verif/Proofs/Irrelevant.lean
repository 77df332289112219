import Verif.Spec.Irrelevant
import Verif.Proofs.System1
import Verif.Proofs.CmdText

/-! What a scan does not look at (C119). -/
namespace Oapi.Scan
open Spec Container

variable {F : Type} {inp : Input F} {o : Orders}

theorem exists_spec {d : Json} (h : existsP d b!"openapi" = true) : IsSpec d := by
  have e : Gabs.dotPathToSlice b!"openapi" = [b!"openapi"] := by decide +kernel
  rw [existsP, e, Gabs.existsAt] at h
  cases d with
  | obj m =>
    rw [Gabs.search] at h
    cases hl : Obj.lookup b!"openapi" m with
    | none => simp only [hl] at h; cases h
    | some v => exact ⟨m, v, rfl, hl⟩
  | arr xs =>
    rw [Gabs.search, if_neg (by decide)] at h
    have : Gabs.arrIndex b!"openapi" xs.length = none := by
      have : Str.atoi b!"openapi" = none := by decide +kernel
      simp only [Gabs.arrIndex, this]
    rw [this] at h
    cases h
  | _ => cases h

theorem not_spec {d : Json} (h : ¬ IsSpec d) : existsP d b!"openapi" = false := by
  cases e : existsP d b!"openapi" with
  | false => rfl
  | true => exact absurd (exists_spec e) h

theorem scanFiles_ord {ord ord' : Nat → List (Str × Json) → List (Str × Json)} {pkg : Str} : ∀ (fs : List File) (i : Nat) (ps : Pointers),
    (∀ k, i ≤ k → ord k = ord' k) → scanFiles ord pkg i fs ps = scanFiles ord' pkg i fs ps
  | [], _, _, _ => rfl
  | f :: t, i, ps, h => by
    simp only [scanFiles, h i (Nat.le_refl _)]
    cases scanFile (ord' i) pkg f ps with
    | err e => rfl
    | panic => rfl
    | ok r => simp only [scanFiles_ord t (i + 1) r.2 fun k hk => h k (by omega)]

theorem scanFiles_other {ord : Nat → List (Str × Json) → List (Str × Json)} {pkg : Str} {f : File} (hf : ¬ IsSpec f.doc) (t : List File) (i : Nat) (ps : Pointers) :
    scanFiles ord pkg i (f :: t) ps = scanFiles ord pkg (i + 1) t ps := by
  have : scanFile (ord i) pkg f ps = .ok (none, ps) := by simp [scanFile, not_spec hf]
  simp only [scanFiles, this]
  cases scanFiles ord pkg (i + 1) t ps with
  | err e => rfl
  | panic => rfl
  | ok r => rfl

/-- Scanning the files is scanning the specifications, with other numbers. -/
theorem scanFiles_specs {pkg : Str} {l s : List File} (h : SpecsOf l s) : ∀ i j, ∃ g : Nat → Nat, ∀ (ord : Nat → List (Str × Json) → List (Str × Json)) ps,
    scanFiles ord pkg i l ps = scanFiles (fun k => ord (g k)) pkg j s ps := by
  induction h with
  | nil => intro i j; exact ⟨id, fun _ _ => rfl⟩
  | @spec f l s hf _ ih =>
    intro i j
    obtain ⟨g, hg⟩ := ih (i + 1) (j + 1)
    refine ⟨fun k => if k = j then i else g k, fun ord ps => ?_⟩
    simp only [scanFiles, if_true]
    cases scanFile (ord i) pkg f ps with
    | err e => rfl
    | panic => rfl
    | ok r =>
      simp only [hg]
      rw [scanFiles_ord (ord := fun k => ord (g k)) (ord' := fun k => ord (if k = j then i else g k)) s (j + 1) r.2]
      intro k hk
      rw [if_neg (by omega)]
  | @other f l s hf _ ih =>
    intro i j
    obtain ⟨g, hg⟩ := ih (i + 1) j
    exact ⟨g, fun ord ps => by rw [scanFiles_other hf, hg]⟩

/-- And the other way round. -/
theorem specs_scanFiles {pkg : Str} {l s : List File} (h : SpecsOf l s) : ∀ i j, ∃ g : Nat → Nat, ∀ (ord : Nat → List (Str × Json) → List (Str × Json)) ps,
    scanFiles (fun k => ord (g k)) pkg i l ps = scanFiles ord pkg j s ps := by
  induction h with
  | nil => intro i j; exact ⟨id, fun _ _ => rfl⟩
  | @spec f l s hf _ ih =>
    intro i j
    obtain ⟨g, hg⟩ := ih (i + 1) (j + 1)
    refine ⟨fun k => if k = i then j else g k, fun ord ps => ?_⟩
    simp only [scanFiles, if_true]
    cases scanFile (ord j) pkg f ps with
    | err e => rfl
    | panic => rfl
    | ok r =>
      simp only [← hg]
      rw [scanFiles_ord (ord := fun k => ord (if k = i then j else g k)) (ord' := fun k => ord (g k)) l (i + 1) r.2]
      intro k hk
      simp only [if_neg (show ¬ k = i by omega)]
  | @other f l s hf _ ih =>
    intro i j
    obtain ⟨g, hg⟩ := ih (i + 1) j
    exact ⟨g, fun ord ps => by rw [scanFiles_other hf, hg]⟩

theorem bodies_of {l bs : List Str} (h : CommandsOf l bs) : l.filterMap Cmds.commentText = bs := by
  induction h with
  | nil => rfl
  | command hc _ ih => rw [List.filterMap_cons_some (Cmds.comment_iff.2 hc), ih]
  | @other t l bs hn _ ih =>
    have : Cmds.commentText t = none := by
      cases e : Cmds.commentText t with
      | none => rfl
      | some b => exact absurd (Cmds.comment_iff.1 e) (hn b)
    rw [List.filterMap_cons_none this, ih]

theorem cmds_same {pkg : Str} {a b : List (List Str)} (h : SameCommands a b) : Cmds.scan pkg a = Cmds.scan pkg b := by
  obtain ⟨bs, ha, hb⟩ := h
  have : ∀ g : List (List Str), g.flatMap Cmds.parseGroup = g.flatten.filterMap Cmds.commentText := by
    intro g
    induction g with
    | nil => rfl
    | cons x g ih => simp [Cmds.parseGroup, List.filterMap_append, ih]
  rw [Cmds.scan, Cmds.scan, this, this, bodies_of ha, bodies_of hb]

/-- The orders of the references, with other numbers. -/
def renumber (o : Orders) (g : Nat → Nat → Nat) : Orders := { o with refs := fun p i => o.refs p (g p i) }

theorem ordersOK_renumber {inp' : Input F} (hh : inp'.heap = inp.heap) (ho : OrdersOK inp o) (g : Nat → Nat → Nat) : OrdersOK inp' (renumber o g) where
  heap₁ := by rw [hh]; exact ho.heap₁
  heap₂ := by rw [hh]; exact ho.heap₂
  heap₃ := by rw [hh]; exact ho.heap₃
  exports := ho.exports
  commands := ho.commands
  refs := fun p i l => ho.refs p (g p i) l
  sort := ho.sort
  pointers := ho.pointers
  types := ho.types
  pick := ho.pick
  resolver := ho.resolver
  ops := ho.ops
  defops := ho.defops

theorem files_same {p : Nat} {f : Nat → Res (List File)} (pkg : Str) (h : SameSpecs (inp.files p) (f p)) : ∃ g : Nat → Nat, ∀ (ord : Nat → List (Str × Json) → List (Str × Json)),
    (inp.files p = f p ∧ ∀ l ps, scanFiles (fun k => ord (g k)) pkg 0 l ps = scanFiles ord pkg 0 l ps) ∨
      ∃ l l', inp.files p = .ok l ∧ f p = .ok l' ∧ ∀ ps, scanFiles (fun k => ord (g k)) pkg 0 l' ps = scanFiles ord pkg 0 l ps := by
  rcases h with h | ⟨l, l', s, h1, h2, h3, h4⟩
  · exact ⟨id, fun ord => .inl ⟨h, fun _ _ => rfl⟩⟩
  · obtain ⟨g, hg⟩ := scanFiles_specs (pkg := pkg) h3 0 0
    obtain ⟨g', hg'⟩ := specs_scanFiles (pkg := pkg) h4 0 0
    refine ⟨fun k => g (g' k), fun ord => .inr ⟨l, l', h1, h2, fun ps => ?_⟩⟩
    rw [hg]
    exact hg' (fun k => ord (g k)) ps

/-- The stages before the resolution, for any two scanners of the comments and of the files. -/
def prepareTwo (inp : Input F) (o : Orders) (cmds : List Nat → Res (List (Str × List Cmds.Cmd))) (specs : List Nat → Res (List File × Pointers)) : Res Prepared := do
  let roots ← inp.load
  let cs ← cmds roots
  let exports ← Cmds.exportedComponents (o.exports cs)
  let (files, ps) ← specs roots
  let c ← mergeAll mergeStrict ((o.sort files).map File.doc)
  let pp := Pointers.merge (Pointers.merge [] (Cmds.mapPointers (o.commands cs) [])) ps
  let m ← flat (walk inp o.heap₃ roots (typesScanner inp o pp) (.ok []))
  let c ← OAPI.mergeWithRoot inp.root c
  return { exports := exports, doc := c, points := m }

theorem prepare_two : prepare inp o = prepareTwo inp o (fun roots => walk inp o.heap₁ roots (cmdsScanner inp) [])
    fun roots => flat (walk inp o.heap₂ roots (specsScanner inp o) (.ok ([], []))) := rfl

theorem prepareTwo_other (c : Nat → List (List Str)) (f : Nat → Res (List File)) (g : Nat → Nat → Nat) (cmds : List Nat → Res (List (Str × List Cmds.Cmd))) (specs : List Nat → Res (List File × Pointers)) :
    prepareTwo { inp with comments := c, files := f } (renumber o g) cmds specs = prepareTwo inp o cmds specs := rfl

theorem prepareTwo_congr {ca cb : List Nat → Res (List (Str × List Cmds.Cmd))} {a b : List Nat → Res (List File × Pointers)} (hc : ∀ roots, inp.load = .ok roots → ca roots = cb roots)
    (h : ∀ roots, inp.load = .ok roots → a roots = b roots) : prepareTwo inp o ca a = prepareTwo inp o cb b := by
  unfold prepareTwo
  simp only [bind, Res.bind]
  cases hl : inp.load with
  | panic => rfl
  | err e => rfl
  | ok roots => simp only [h roots hl, hc roots hl]

/-- The stages before the resolution do the same. -/
theorem prepare_irrelevant (hg : ∀ roots, inp.load = .ok roots → GraphOK inp.heap roots) (ho : OrdersOK inp o) {c : Nat → List (List Str)}
    {f : Nat → Res (List File)} (hc : ∀ p, Visited inp p → SameCommands (inp.comments p) (c p)) (hf : ∀ p, Visited inp p → SameSpecs (inp.files p) (f p)) :
    ∃ g, prepare { inp with comments := c, files := f } (renumber o g) = prepare inp o := by
  have hx : ∀ p, ∃ g : Nat → Nat, Visited inp p → ∀ (ord : Nat → List (Str × Json) → List (Str × Json)),
      (inp.files p = f p ∧ ∀ l ps, scanFiles (fun k => ord (g k)) (pathOf inp.heap p) 0 l ps = scanFiles ord (pathOf inp.heap p) 0 l ps) ∨
      ∃ l l', inp.files p = .ok l ∧ f p = .ok l' ∧ ∀ ps, scanFiles (fun k => ord (g k)) (pathOf inp.heap p) 0 l' ps = scanFiles ord (pathOf inp.heap p) 0 l ps := by
    intro p
    by_cases hv : Visited inp p
    · obtain ⟨g, h⟩ := files_same (pathOf inp.heap p) (hf p hv); exact ⟨g, fun _ => h⟩
    · exact ⟨id, fun h => absurd h hv⟩
  let g := fun p => Classical.choose (hx p)
  have hgs := fun p => Classical.choose_spec (hx p)
  refine ⟨g, ?_⟩
  have hvis : ∀ roots, inp.load = .ok roots → ∀ p ∈ plan inp.stdpkg inp.heap roots, Visited inp p := by
    intro roots hr p hp
    rw [plan_mem (hg roots hr)] at hp
    obtain ⟨r, h1, h2⟩ := hp
    exact ⟨roots, r, hr, h1, h2⟩
  have e1 : ∀ roots, inp.load = .ok roots → walk inp o.heap₁ roots (cmdsScanner { inp with comments := c, files := f }) [] = walk inp o.heap₁ roots (cmdsScanner inp) [] := by
    intro roots hr
    refine walk_congr (hg roots hr) ho.heap₁ (fun p hp s => ?_) []
    simp only [cmdsScanner, cmds_same (hc p (hvis roots hr p hp))]
  have e2 : ∀ roots, inp.load = .ok roots →
      walk inp o.heap₂ roots (specsScanner { inp with comments := c, files := f } (renumber o g)) (.ok ([], [])) = walk inp o.heap₂ roots (specsScanner inp o) (.ok ([], [])) := by
    intro roots hr
    refine walk_congr (hg roots hr) ho.heap₂ (fun p hp s => ?_) _
    have := hgs p (hvis roots hr p hp) (o.refs p)
    rcases this with ⟨h1, h2⟩ | ⟨l, l', h1, h2, h3⟩
    · simp only [specsScanner, renumber, ← h1]
      cases s with
      | err e => rfl
      | panic => rfl
      | ok s =>
        cases inp.files p with
        | err e => rfl
        | panic => rfl
        | ok ff => simp only [h2, g]
    · simp only [specsScanner, renumber, h1, h2, h3, g]
  rw [prepare_two, prepare_two, prepareTwo_other]
  exact prepareTwo_congr e1 fun roots hr => congrArg flat (e2 roots hr)

end Oapi.Scan
