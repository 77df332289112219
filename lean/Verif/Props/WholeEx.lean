import Verif.Props.ScanEx
import Verif.Props.Whole

/-! C65 applies to a concrete scan. -/
namespace Oapi.Props.WholeEx
open Spec
open Scan (Input Orders Prepared prepare scan cfg resolveFn ctx)

/-- A specification that refers to the Go type `Node` and to something that is overridden. -/
def spec (x : Str) : Json := .obj [
  (b!"openapi", .str b!"3.0.0"),
  (b!"paths", .obj [(b!"/n", .obj [(b!"get", .obj [(b!"also", refObj b!"http://ex.org/s#/Y"), (b!"schema", refObj x)])]),
    (b!"/v1.0", .obj [(b!"get", .obj [(b!"summary", .str b!"s")])])])]

def inp : Input Int := { ScanEx.input b!"go://#/Node" with
  files := fun _ => .ok [⟨b!"/src/p/openapi.yaml", spec b!"go://#/Node"⟩]
  comments := fun p => if p = 0 then [[b!"//openapi:schema Node"]] else []
  override := [(b!"http://ex.org/s#/Y", .obj [(b!"type", .str b!"string")])]
  defops := [(b!"*", .obj [(b!"deprecated", .bool true)])]
  matches_ := fun _ _ P => .ok (P != b!"/v1.0") }

def xN : Str := b!"go://ex.org/p#/Node"
def xI : Str := b!"go://ex.org/p#/Item"
def xY : Str := b!"http://ex.org/s#/Y"
def pN : Pointer := { url := { scheme := b!"go", host := b!"ex.org", path := b!"/p", fragment := b!"/Node" }, fragment := [b!"Node"] }
def pI : Pointer := { url := { scheme := b!"go", host := b!"ex.org", path := b!"/p", fragment := b!"/Item" }, fragment := [b!"Item"] }
def pY : Pointer := { url := { scheme := b!"http", host := b!"ex.org", path := b!"/s", fragment := b!"/Y" }, fragment := [b!"Y"] }

theorem parse_N : Pointer.parse xN = .ok pN ∧ pN.toStr = xN := by decide +kernel
theorem parse_I : Pointer.parse xI = .ok pI ∧ pI.toStr = xI := by decide +kernel
theorem parse_Y : Pointer.parse xY = .ok pY ∧ pY.toStr = xY := by decide +kernel

def pre : Prepared where
  exports := [⟨.schema, b!"Node", Pointer.newGoLoose b!"ex.org/p" b!"Node"⟩]
  doc := .obj [
    (b!"info", .obj [(b!"title", .str b!"T"), (b!"version", .str [])]),
    (b!"openapi", .str b!"3.0.0"),
    (b!"paths", .obj [(b!"/n", .obj [(b!"get", .obj [(b!"also", refObj xY), (b!"schema", refObj xN)])]),
      (b!"/v1.0", .obj [(b!"get", .obj [(b!"summary", .str b!"s")])])])]
  points := TypesEx.points

def docN : Json := .obj [
  (b!"properties", .obj [
    (b!"Items", .obj [(b!"items", refObj xI), (b!"nullable", .bool true), (b!"type", .str b!"array")]),
    (b!"Next", .obj [(b!"oneOf", .arr [refObj xN, .obj [(b!"nullable", .bool true), (b!"type", .str b!"object")]])])]),
  (b!"type", .str b!"object")]
def docI : Json := .obj [
  (b!"properties", .obj [(b!"ID", .obj [(b!"type", .str b!"integer")]), (b!"Owner", refObj xN)]),
  (b!"type", .str b!"object")]
def docY : Json := .obj [(b!"type", .str b!"string")]

theorem refs_doc : refsB pre.doc = [xY, xN] := by decide
theorem refs_N : refsB docN = [xI, xN] := by decide
theorem refs_I : refsB docI = [xN] := by decide
theorem refs_Y : refsB docY = [] := by decide

set_option maxRecDepth 100000

theorem prepared : prepare inp ScanEx.orders = .ok pre := ScanEx.same_sound (by decide +kernel)
theorem res_N : resolveFn inp ScanEx.orders pre.points pN = .ok docN := by decide +kernel
theorem res_I : resolveFn inp ScanEx.orders pre.points pI = .ok docI := by decide +kernel
theorem res_Y : resolveFn inp ScanEx.orders pre.points pY = .ok docY := by decide +kernel
theorem find_N : TypesEx.points.findType pN = some TypesEx.nodeT := by decide +kernel
theorem find_I : TypesEx.points.findType pI = some TypesEx.itemT := by decide +kernel

/-- All registered types, with the pointers to them. -/
def shortest (qs : List Pointer) : Bool :=
  qs.all fun p => qs.all fun q => decide (p.toStr = q.toStr) || qs.any (fun r => decide (r.fragment.length < p.fragment.length)) ||
    qs.any (fun r => decide (r.fragment.length < q.fragment.length))
theorem points_short : (TypesEx.points.all fun e => shortest e.2) = true := by decide +kernel
theorem orders_ok : OrdersOK inp ScanEx.orders := by
  obtain ⟨h1, h2, h3, h4, h5, h6, h7, h8, h9, h10, h11, h12, h13⟩ := ScanEx.orders_ok b!"go://#/Node"
  exact ⟨h1, h2, h3, h4, h5, h6, h7, h8, h9, h10, h11, h12, h13⟩

attribute [local irreducible] prepare TypesEx.points resolveFn

theorem one_shortest : OneShortest inp.prog.env pre.points := by
  rintro u p q - ⟨h1, h2, _⟩ ⟨k1, k2, _⟩
  have hs := List.all_eq_true.1 (List.all_eq_true.1 (List.all_eq_true.1 points_short _ (Types.mem_of_at h1)) p h1) q k1
  simp only [Bool.or_eq_true, decide_eq_true_eq, List.any_eq_true] at hs
  rcases hs with (hs | ⟨r, h, hs⟩) | ⟨r, h, hs⟩
  · exact hs
  · exact absurd hs (Nat.not_lt.2 (h2 r h))
  · exact absurd hs (Nat.not_lt.2 (k2 r h))

theorem input_ok : InputOK inp where
  graph := by
    intro roots h
    cases h
    refine ⟨by decide, ?_, by decide⟩
    intro p q h
    obtain ⟨pkg, _, h1, h2⟩ := h
    have : pkg = { path := b!"ex.org/p" } := by
      have := List.mem_of_getElem? h1
      simpa [inp, ScanEx.input] using this
    subst this
    cases h2
  paths := by
    intro pkg h
    simp only [inp, ScanEx.input, List.mem_singleton] at h
    subst h
    exact ⟨by decide, by decide⟩
  prog := TypesEx.pr_ok
  files := by
    intro p fs h f hf _
    cases h
    rw [List.mem_singleton] at hf
    subst hf
    refine ⟨⟨_, rfl⟩, wfB_sound _ (by decide), routedB_sound (pb := fun _ => true) (wfB_sound _ (by decide)) (fun _ _ => rfl) (by decide), ?_⟩
    intro x hx
    have := hasRef_mem hx
    rw [show refsB (spec b!"go://#/Node") = [b!"http://ex.org/s#/Y", b!"go://#/Node"] by decide] at this
    simp only [List.mem_cons, List.not_mem_nil, or_false] at this
    rcases this with rfl | rfl
    · exact ⟨b!"http://ex.org/s", b!"/Y", by unfold UriByte; decide, .inr rfl⟩
    · exact ⟨b!"go://", b!"/Node", by unfold UriByte; decide, .inr rfl⟩
  commands := by
    intro p cs h args name ptr hm
    have hsc : p ≠ 0 → Cmds.scan (Scan.pathOf inp.heap p) (inp.comments p) = .ok [] := by
      intro h; simp only [inp, if_neg h]; rfl
    by_cases h0 : p = 0
    · subst h0
      have hc : Cmds.scan (Scan.pathOf inp.heap 0) (inp.comments 0) = .ok [.schema [b!"Node"] b!"Node" (Pointer.newGoLoose b!"ex.org/p" b!"Node")] := by decide +kernel
      rw [hc] at h
      cases h
      rw [List.mem_singleton] at hm
      cases hm
      exact ⟨xN, pN, [b!"Node"], ⟨b!"go://ex.org/p", b!"/Node", by unfold UriByte; decide, .inr rfl⟩, by decide +kernel, by decide +kernel⟩
    · rw [hsc h0] at h; cases h; cases hm

theorem schemas_ok : SchemasOK inp where
  tags := ⟨TypesEx.lib, TypesEx.pf, rfl⟩
  std := by intro x s h; cases h
  zero := rfl
  nums := fun f => ⟨f, rfl⟩
  ints := fun f => ⟨f, rfl⟩

/-- The references met, with the pointers they stand for. -/
theorem ext_cases {x : Str} {p : Pointer} (hx : x ∈ [xN, xI, xY]) (h : ExtRef x p) : p = pN ∨ p = pI ∨ p = pY := by
  have h1 := h.1
  simp only [List.mem_cons, List.not_mem_nil, or_false] at hx
  rcases hx with rfl | rfl | rfl
  · rw [parse_N.1] at h1; cases h1; simp
  · rw [parse_I.1] at h1; cases h1; simp
  · rw [parse_Y.1] at h1; cases h1; simp

/-- All documents met. -/
theorem source_of {m : Obj} (h1 : wfB (.obj m) = true) (h2 : routedB extB (.obj m) = true) (h3 : singleB (.obj m) = true) (h4 : ∀ x ∈ refsB (.obj m), x ∈ [xN, xI, xY])
    (h5 : getAt (.obj m) [.key refKey] = none) : Source inp pre.points (.obj m) where
  tidy := tidy_of_checks h1 h2 h3
  bare := by
    intro x p h
    have := h.1
    rw [List.nil_append, h5] at this
    cases this
  parses := by
    intro x hx
    have := h4 x (hasRef_mem hx)
    simp only [List.mem_cons, List.not_mem_nil, or_false] at this
    rcases this with rfl | rfl | rfl
    · exact ⟨_, parse_N.1⟩
    · exact ⟨_, parse_I.1⟩
    · exact ⟨_, parse_Y.1⟩
  known := by
    intro L x p h hu
    obtain ⟨runs', hsc⟩ := Scan.prepare_scanned input_ok orders_ok prepared
    have hinv := Types.scan_inv TypesEx.pr_ok hsc
    rcases ext_cases (h4 x h.mem) h.2 with rfl | rfl | rfl
    · exact hu.2 rfl ((Scan.registered_find hinv).2 ⟨_, find_N⟩)
    · exact hu.2 rfl ((Scan.registered_find hinv).2 ⟨_, find_I⟩)
    · exact hu.1 docY (by rw [parse_Y.2]; exact List.mem_singleton.2 rfl)

theorem reach_cases {p : Pointer} (h : Reach (cfg inp ScanEx.orders pre) pre.doc p) : p = pN ∨ p = pI ∨ p = pY := by
  induction h with
  | doc h =>
    refine ext_cases ?_ h.2
    have := h.mem
    rw [refs_doc] at this
    simp only [List.mem_cons, List.not_mem_nil, or_false] at this ⊢
    rcases this with h | h <;> simp [h]
  | step _ hq ih =>
    obtain ⟨d, L, x, hd, hr⟩ := hq
    change resolveFn inp ScanEx.orders pre.points _ = .ok d at hd
    refine ext_cases ?_ hr.2
    have := hr.mem
    rcases ih with rfl | rfl | rfl
    · rw [res_N] at hd; cases hd
      rw [refs_N] at this
      simp only [List.mem_cons, List.not_mem_nil, or_false] at this ⊢
      rcases this with h | h <;> simp [h]
    · rw [res_I] at hd; cases hd
      rw [refs_I] at this
      simp only [List.mem_cons, List.not_mem_nil, or_false] at this ⊢
      simp [this]
    · rw [res_Y] at hd; cases hd
      rw [refs_Y] at this
      cases this

theorem walks {pp : List Str} {j : Json} (h : Walk (cfg inp ScanEx.orders pre) pre.doc pp j) :
    (pp = [] ∧ j = pre.doc) ∨ (pp = [xN] ∧ j = docN) ∨ (pp = [xN, xI] ∧ j = docI) ∨ j = docY := by
  induction h with
  | top => exact .inl ⟨rfl, rfl⟩
  | @step pp j L x p d hw hr hp hd ih =>
    change resolveFn inp ScanEx.orders pre.points _ = .ok d at hd
    have hm := hr.mem
    have h1 := hr.2.1
    rcases ih with ⟨rfl, rfl⟩ | ⟨rfl, rfl⟩ | ⟨rfl, rfl⟩ | rfl
    · rw [refs_doc] at hm
      simp only [List.mem_cons, List.not_mem_nil, or_false] at hm
      rcases hm with rfl | rfl
      · rw [parse_Y.1] at h1; cases h1
        rw [res_Y] at hd; cases hd
        simp
      · rw [parse_N.1] at h1; cases h1
        rw [res_N] at hd; cases hd
        rw [parse_N.2]; simp
    · rw [refs_N] at hm
      simp only [List.mem_cons, List.not_mem_nil, or_false] at hm
      rcases hm with rfl | rfl
      · rw [parse_I.1] at h1; cases h1
        rw [res_I] at hd; cases hd
        rw [parse_I.2]; simp
      · rw [parse_N.1] at h1; cases h1
        rw [parse_N.2] at hp; simp at hp
    · rw [refs_I] at hm
      simp only [List.mem_cons, List.not_mem_nil, or_false] at hm
      subst hm
      rw [parse_N.1] at h1; cases h1
      rw [parse_N.2] at hp; simp at hp
    · rw [refs_Y] at hm; cases hm

theorem cycles : CyclesExported (cfg inp ScanEx.orders pre) pre.doc := by
  intro pp j L x p hw hr hp
  have hm := hr.mem
  have h1 := hr.2.1
  suffices h : x = xN by
    subst h
    rw [parse_N.1] at h1; cases h1
    exact ⟨⟨.schema, b!"Node", Pointer.newGoLoose b!"ex.org/p" b!"Node"⟩, by decide +kernel, rfl⟩
  rcases walks hw with ⟨rfl, rfl⟩ | ⟨rfl, rfl⟩ | ⟨rfl, rfl⟩ | rfl
  · cases hp
  · rw [refs_N] at hm
    simp only [List.mem_cons, List.not_mem_nil, or_false] at hm
    rcases hm with rfl | rfl
    · rw [parse_I.1] at h1; cases h1
      rw [parse_I.2] at hp
      exact absurd hp (by decide)
    · rfl
  · rw [refs_I] at hm
    simpa using hm
  · rw [refs_Y] at hm; cases hm

/-- The fields of the two structs. -/
def fieldsOf (t : Types.GoType) : Res (List (Types.StructField Int)) :=
  match t with
  | .struct fs => Types.collectFields inp.prog.env inp.tagOf (Types.depth inp.prog.env t) fs []
  | _ => .ok []

def goodFields (r : Res (List (Types.StructField Int))) : Bool :=
  match r with
  | .ok l => l.all fun x => dotSafeB (propName x)
  | _ => false

theorem fields_N : goodFields (fieldsOf TypesEx.nodeT) = true := by decide +kernel
theorem fields_I : goodFields (fieldsOf TypesEx.itemT) = true := by decide +kernel

theorem convertible {p : Pointer} {u : Types.GoType} {d : Json} (hf : TypesEx.points.findType p = some u) (hg : goodFields (fieldsOf u) = true)
    (hr : resolveFn inp ScanEx.orders pre.points p = .ok d) (hl : inp.override.lookup p.toStr = none) : Convertible inp u := by
  obtain ⟨runs, hc⟩ := Scan.scan_converts input_ok orders_ok schemas_ok prepared
  have hvis : ∀ fs x, u = .struct fs → VisibleField inp.prog.env inp.tagOf fs x → dotSafeB (propName x) = true := by
    intro fs x e hx
    subst e
    unfold fieldsOf goodFields at hg
    have hok := (hc p.toStr).ctx
    rcases Types.collectFields_top (env := inp.prog.env) (tagOf := inp.tagOf) hok.noPanic hok.noFuel fs (Nat.le_refl _) with ⟨arr, h1, _, h2⟩ | ⟨e, h1, _⟩
    · simp only [h1] at hg
      exact List.all_eq_true.1 hg x ((h2 x).2 hx)
    · simp only [h1] at hg; cases hg
  refine ⟨?_, fun fs x e hx => dotSafeB_sound (hvis fs x e hx), fun _ _ _ _ _ _ => rfl⟩
  intro hbad
  rcases C38_outcome (hc p.toStr) (ptr := p) (u := u) hf with ⟨_, e, h1, _⟩ | ⟨h, _⟩
  · unfold resolveFn at hr
    rw [hl] at hr
    simp only at hr
    split at hr
    · rw [h1] at hr; cases hr
    · cases hr
  · exact h hbad

theorem resolvable : Resolvable inp ScanEx.orders pre where
  names := by
    intro e he
    rw [show pre.exports = [_] from rfl, List.mem_singleton] at he
    subst he
    exact ⟨by decide, by decide, by decide, by decide⟩
  apart := by
    intro e he e' he' _
    rw [show pre.exports = [_] from rfl, List.mem_singleton] at he he'
    rw [he, he']
  receives := by
    intro e he
    rw [show (cfg inp ScanEx.orders pre).exp = [⟨.schema, b!"Node", Pointer.newGoLoose b!"ex.org/p" b!"Node"⟩] from rfl, List.mem_singleton] at he
    subst he
    refine ⟨by decide, ?_⟩
    have hnone : ∀ L, [Step.key b!"components"] <+: L → getAt pre.doc L = none := by
      rintro _ ⟨t, rfl⟩
      rw [Oapi.getAt_append, show getAt pre.doc [Step.key b!"components"] = none by decide]
      rfl
    intro L hL
    by_cases h0 : L = []
    · subst h0
      refine ⟨fun v hv => ⟨_, by cases hv; rfl⟩, fun x p h => ?_⟩
      have := h.1
      rw [show getAt pre.doc ([] ++ [.key refKey]) = none by decide] at this
      cases this
    · have hpre : [Step.key b!"components"] <+: L := by
        obtain ⟨t, ht⟩ := hL
        cases L with
        | nil => exact absurd rfl h0
        | cons a L =>
          have : a = Step.key b!"components" := by
            rw [compLoc, List.cons_append] at ht; injection ht
          rw [this]; exact ⟨L, rfl⟩
      refine ⟨fun v hv => ?_, fun x p hr => ?_⟩
      · rw [hnone L hpre] at hv; cases hv
      · have := hr.1
        rw [hnone _ (hpre.trans (List.prefix_append _ _))] at this
        cases this
  doc := source_of (by decide) (by decide +kernel) (by decide) (by decide) (by decide)
  overrides := by
    intro e he
    rw [show inp.override = [(xY, docY)] from rfl, List.mem_singleton] at he
    subst he
    exact source_of (by decide) (by decide +kernel) (by decide) (by decide) (by decide)
  types := by
    intro p u hR hno hf
    rcases reach_cases hR with rfl | rfl | rfl
    · have : u = TypesEx.nodeT := Option.some.inj (Eq.trans (Eq.symm hf) find_N)
      subst this
      exact convertible hf fields_N res_N (by decide)
    · have : u = TypesEx.itemT := Option.some.inj (Eq.trans (Eq.symm hf) find_I)
      subst this
      exact convertible hf fields_I res_I (by decide)
    · exact absurd (by rw [parse_Y.2]; exact List.mem_singleton.2 rfl) (hno docY)
  cycles := cycles

theorem only_op {P M : Str} {a : Json} (h : opAt pre.doc P M = some a) :
    (P = b!"/n" ∧ M = b!"get" ∧ a = .obj [(b!"also", refObj xY), (b!"schema", refObj xN)]) ∨
    (P = b!"/v1.0" ∧ M = b!"get" ∧ a = .obj [(b!"summary", .str b!"s")]) := by
  obtain ⟨m, ps, it, e1, e2, e3, e4⟩ := OAPI.opAt_of h
  cases e1
  cases e2
  simp only [Obj.lookup] at e3
  split at e3
  · cases e3
    simp only [Obj.lookup] at e4
    split at e4
    · cases e4; exact .inl ⟨by assumption, by assumption, rfl⟩
    · cases e4
  · split at e3
    · cases e3
      simp only [Obj.lookup] at e4
      split at e4
      · cases e4; exact .inr ⟨by assumption, by assumption, rfl⟩
      · cases e4
    · cases e3

theorem op_obj {P M : Str} {a : Json} (h : opAt pre.doc P M = some a) : ∃ m, a = .obj m := by
  rcases only_op h with ⟨_, _, h⟩ | ⟨_, _, h⟩ <;> exact ⟨_, h⟩

theorem defaults_ok : DefaultsOK inp pre.doc where
  items := by
    refine .inr ⟨_, rfl, ?_⟩
    intro P v hv
    simp only [Obj.lookup] at hv
    split at hv
    · cases hv; exact .inr ⟨_, rfl⟩
    · split at hv
      · cases hv; exact .inr ⟨_, rfl⟩
      · cases hv
  plain := by
    intro P x p h
    have h := h.1
    by_cases hP : P = b!"/n"
    · subst hP
      rw [show getAt pre.doc ([.key b!"paths", .key b!"/n"] ++ [.key refKey]) = none by decide] at h
      cases h
    by_cases hP' : P = b!"/v1.0"
    · subst hP'
      rw [show getAt pre.doc ([.key b!"paths", .key b!"/v1.0"] ++ [.key refKey]) = none by decide] at h
      cases h
    simp only [pre, List.cons_append, List.nil_append, getAt, child] at h
    rw [show Obj.lookup b!"paths" _ = some _ from rfl] at h
    simp only [child, Obj.lookup] at h
    rw [if_neg (by exact hP), if_neg (by exact hP')] at h
    cases h
  defs := by
    intro d hd
    rw [show inp.defops = [_] from rfl, List.mem_singleton] at hd
    subst hd
    exact ⟨wfB_sound _ (by decide), _, rfl, by decide⟩
  nodots := by
    intro P M a h hh
    rcases only_op h with ⟨rfl, rfl, _⟩ | ⟨rfl, rfl, _⟩
    · decide
    · exact absurd rfl hh
  answers := fun _ _ _ _ _ _ => ⟨_, rfl⟩
  objects := fun P M a h => .inr (.inr (op_obj h))
  agree := by
    intro P M a h
    rcases only_op h with ⟨rfl, rfl, _⟩ | ⟨rfl, rfl, _⟩
    · rw [show hits inp.matches_ inp.defops _ _ = [.obj [(b!"deprecated", .bool true)]] from rfl]
      simp
    · rw [show hits inp.matches_ inp.defops _ _ = [] from rfl]
      simp

/-- C65 applies; the document is the one that is computed in one of the orders. -/
example : ∃ N, ∀ o', OrdersOK inp o' → ∀ fuel, N ≤ fuel → scan inp o' fuel = scan inp ScanEx.orders (max N 10) := by
  obtain ⟨out, N, h, _⟩ := C65_one_document input_ok schemas_ok orders_ok prepared resolvable one_shortest defaults_ok
  exact ⟨N, fun o' ho' fuel hf => (h o' ho' fuel hf).trans (h _ orders_ok _ (Nat.le_max_left _ _)).symm⟩

/-- In the example no default operation has an external reference and no export name has a percent sign. -/
example : ∃ out N, (∀ o', OrdersOK inp o' → ∀ fuel, N ≤ fuel → scan inp o' fuel = .ret (some out) (some .decode)) ∧
    ∀ x p, HasRef out x → Pointer.parse x = .ok p → p.url.scheme = [] := by
  refine C65_no_external_reference input_ok schemas_ok orders_ok prepared resolvable one_shortest defaults_ok ?_ (by decide)
  intro d hd x p hx
  rw [show inp.defops = [_] from rfl, List.mem_singleton] at hd
  subst hd
  have := hasRef_mem hx
  rw [show refsB (.obj [(b!"deprecated", .bool true)]) = [] by decide] at this
  cases this

end Oapi.Props.WholeEx
