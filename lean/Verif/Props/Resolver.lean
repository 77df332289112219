import Verif.Proofs.Fuel
import Verif.Proofs.Resolver7
import Verif.Proofs.RefCheck

/-! Properties C29–C35: reference resolution.  `resolve cfg n c` is `Resolve` with recursion depth at most `n`; `cfg.ord` is the
order in which Go's maps are iterated, and is arbitrary. -/
namespace Oapi.Props
open Spec Resolver
open Container (keyLoc)

/-! ### A concrete setting: a recursive exported type `A` with a property of the unexported type `B` -/
namespace Ex
def sA : Str := b!"go://p#/A"
def sB : Str := b!"go://p#/B"
def docA : Json := .obj [(b!"properties", .obj [(b!"a", refObj sA), (b!"b", refObj sB)]), (b!"type", .str b!"object")]
def docB : Json := .obj [(b!"type", .str b!"string")]
def res (p : Pointer) : Res Json :=
  if p.toStr = sA then .ok docA else if p.toStr = sB then .ok docB else .err .notFound
def pA : Pointer := { url := { scheme := b!"go", host := b!"p", fragment := b!"/A" }, fragment := [b!"A"] }
def doc : Json := .obj [(b!"info", .obj []), (b!"paths", .obj [(b!"/v1.0", .obj [(b!"l", refObj b!"#/info")]), (b!"/x", .obj [(b!"s", refObj sA)])])]
def cfg : Cfg := { exp := [⟨.schema, b!"A", pA⟩], res := res, ord := fun _ => firsts }
def U : List Str := [sA, sB]

theorem refs_doc : refsB doc = [b!"#/info", sA] := by decide
theorem refs_A : refsB docA = [sA, sB] := by decide
theorem refs_B : refsB docB = [] := by decide
theorem parse_A : ∃ p, Pointer.parse sA = .ok p ∧ p.toStr = sA := ⟨pA, by decide, by decide⟩
theorem parse_B : ∃ p, Pointer.parse sB = .ok p ∧ p.toStr = sB := ⟨{ url := { scheme := b!"go", host := b!"p", fragment := b!"/B" }, fragment := [b!"B"] }, by decide, by decide⟩
theorem parse_L : ∃ p, Pointer.parse b!"#/info" = .ok p ∧ p.url.scheme = [] := ⟨{ url := { fragment := b!"/info" }, fragment := [b!"info"] }, by decide, by decide⟩

theorem ext_A {p} (h : ExtRef sA p) : p.toStr = sA := by
  obtain ⟨q, h1, h2⟩ := parse_A
  have := h.1
  rw [h1] at this; cases this; exact h2
theorem ext_B {p} (h : ExtRef sB p) : p.toStr = sB := by
  obtain ⟨q, h1, h2⟩ := parse_B
  have := h.1
  rw [h1] at this; cases this; exact h2
theorem ext_L {p} : ¬ ExtRef b!"#/info" p := by
  rintro ⟨h, hs⟩
  obtain ⟨q, h1, h2⟩ := parse_L
  rw [h1] at h
  cases h; exact hs h2

theorem ext_doc {x p} (hx : x ∈ refsB doc) (h : ExtRef x p) : p.toStr = sA := by
  rw [refs_doc] at hx
  simp only [List.mem_cons, List.not_mem_nil, or_false] at hx
  rcases hx with rfl | rfl
  · exact absurd h ext_L
  · exact ext_A h

theorem res_cases {p d} (h : res p = .ok d) : (p.toStr = sA ∧ d = docA) ∨ (p.toStr = sB ∧ d = docB) := by
  unfold res at h
  split at h
  · cases h; exact Or.inl ⟨by assumption, rfl⟩
  · split at h
    · cases h; exact Or.inr ⟨by assumption, rfl⟩
    · cases h

theorem ext_sub {p d x q} (hd : res p = .ok d) (hx : x ∈ refsB d) (h : ExtRef x q) : p.toStr = sA ∧ q.toStr ∈ U := by
  rcases res_cases hd with ⟨h1, rfl⟩ | ⟨_, rfl⟩
  · rw [refs_A] at hx
    simp only [List.mem_cons, List.not_mem_nil, or_false] at hx
    rcases hx with rfl | rfl
    · exact ⟨h1, by simp [U, ext_A h]⟩
    · exact ⟨h1, by simp [U, ext_B h]⟩
  · rw [refs_B] at hx; cases hx

theorem reach_U {p} (h : Reach cfg doc p) : p.toStr ∈ U := by
  cases h with
  | doc h => simp [U, ext_doc h.mem h.2]
  | step _ h =>
    obtain ⟨d, L, x, hd, hr⟩ := h
    exact (ext_sub hd hr.mem hr.2).2

theorem tidy_docs {p d} (h : res p = .ok d) : Tidy d := by
  rcases res_cases h with ⟨_, rfl⟩ | ⟨_, rfl⟩ <;> exact tidy_of_checks (by decide) (by decide) (by decide)

theorem setting : Setting cfg doc := by
  refine ⟨⟨?_, ?_, ?_, fun p d _ h => tidy_docs h, fun _ => firsts_order⟩, tidy_of_checks (by decide) (by decide) (by decide), ?_, ?_, ?_⟩
  · intro e he
    rw [show cfg.exp = [⟨.schema, b!"A", pA⟩] from rfl, List.mem_singleton] at he
    subst he
    exact ⟨by decide, by decide, by decide, by decide⟩
  · intro e he e' he' _
    rw [show cfg.exp = [⟨.schema, b!"A", pA⟩] from rfl, List.mem_singleton] at he he'
    rw [he, he']
  · intro p q _ _ h
    show res p = res q
    unfold res
    rw [h]
  · intro e he
    rw [show cfg.exp = [⟨.schema, b!"A", pA⟩] from rfl, List.mem_singleton] at he
    subst he
    refine ⟨by decide, ?_⟩
    have hroot : ∀ x p, ¬ RefAt doc [] x p := by
      intro x p h
      have := h.1
      rw [show getAt doc ([] ++ [.key refKey]) = none by decide] at this
      cases this
    have hnone : ∀ L, [Step.key b!"components"] <+: L → getAt doc L = none := by
      rintro _ ⟨t, rfl⟩
      rw [Oapi.getAt_append, show getAt doc [Step.key b!"components"] = none by decide]
      rfl
    intro L hL
    by_cases h0 : L = []
    · subst h0
      exact ⟨fun v hv => ⟨_, by cases hv; rfl⟩, hroot⟩
    · have hpre : [Step.key b!"components"] <+: L := by
        obtain ⟨t, ht⟩ := hL
        cases L with
        | nil => exact absurd rfl h0
        | cons a L =>
          have : a = Step.key b!"components" := by
            rw [compLoc, List.cons_append] at ht; injection ht
          rw [this]; exact ⟨L, rfl⟩
      refine ⟨fun v hv => ?_, fun x p hr => ?_⟩
      · rw [hnone L hpre] at hv; cases hv
      · have := hr.1
        rw [hnone _ (hpre.trans (List.prefix_append _ _))] at this
        cases this
  · intro x p h
    have := h.1
    rw [show getAt doc ([] ++ [.key refKey]) = none by decide] at this
    cases this
  · intro p d _ hd x q h
    have := h.1
    rcases res_cases hd with ⟨_, rfl⟩ | ⟨_, rfl⟩
    · rw [show getAt docA ([] ++ [.key refKey]) = none by decide] at this
      cases this
    · rw [show getAt docB ([] ++ [.key refKey]) = none by decide] at this
      cases this

theorem finiteRefs : FiniteRefs cfg doc U := by
  refine ⟨wfB_sound _ (by decide), fun p d _ h => (tidy_docs h).wf, ?_, ?_⟩
  · intro x p h hp
    simp [U, ext_doc (refLike_mem (by decide) (by decide) h) hp]
  · intro p d x q _ hd h hq
    refine (ext_sub hd (refLike_mem ?_ ?_ h) hq).2 <;>
    rcases res_cases hd with ⟨_, rfl⟩ | ⟨_, rfl⟩ <;> decide

theorem solvable : Solvable cfg doc U := by
  refine ⟨fun p h => reach_U h, ?_, ?_⟩
  · intro p h
    have := reach_U h
    simp only [U, List.mem_cons, List.not_mem_nil, or_false] at this
    show ∃ d, res p = .ok d
    unfold res
    rcases this with h | h
    · exact ⟨docA, by rw [if_pos h]⟩
    · exact ⟨docB, by rw [if_neg (by rw [h]; decide), if_pos h]⟩
  · have hall : ∀ x, x ∈ [b!"#/info", sA, sB] → ∃ p, Pointer.parse x = .ok p := by
      intro x hx
      simp only [List.mem_cons, List.not_mem_nil, or_false] at hx
      rcases hx with rfl | rfl | rfl
      · exact ⟨_, parse_L.choose_spec.1⟩
      · exact ⟨_, parse_A.choose_spec.1⟩
      · exact ⟨_, parse_B.choose_spec.1⟩
    intro x h
    apply hall
    rcases h with h | ⟨p, d, _, hd, h⟩
    · have := hasRef_mem h
      rw [refs_doc] at this
      simp only [List.mem_cons, List.not_mem_nil, or_false] at this ⊢
      rcases this with h | h <;> simp [h]
    · have := hasRef_mem h
      rcases res_cases hd with ⟨_, rfl⟩ | ⟨_, rfl⟩
      · rw [refs_A] at this
        simp only [List.mem_cons, List.not_mem_nil, or_false] at this ⊢
        rcases this with h | h <;> simp [h]
      · rw [refs_B] at this; cases this

theorem walks {pp j} (h : Walk cfg doc pp j) : pp = [] ∨ (pp = [sA] ∧ j = docA) ∨ j = docB := by
  cases h with
  | top => exact .inl rfl
  | @step pp j L x p d hw hr hp hd =>
    rcases res_cases hd with ⟨h1, rfl⟩ | ⟨_, rfl⟩
    · refine .inr (.inl ⟨?_, rfl⟩)
      rw [h1]
      cases hw with
      | top => rfl
      | @step pp' j' L' x' p' d' _ hr' _ hd' =>
        rw [h1, ← (ext_sub hd' hr.mem hr.2).1] at hp
        simp at hp
    · exact .inr (.inr rfl)

theorem cycles : CyclesExported cfg doc := by
  intro pp j L x p h hr hm
  refine ⟨⟨.schema, b!"A", pA⟩, ?_, rfl⟩
  have hp : p.toStr = sA := by
    rcases walks h with rfl | ⟨rfl, _⟩ | rfl
    · cases hm
    · simpa using hm
    · have := hr.mem
      rw [refs_B] at this; cases this
  unfold Resolver.get
  rw [show cfg.exp = [⟨.schema, b!"A", pA⟩] from rfl, hp]
  decide

end Ex

/-! ### C29 -/

/-- C29: if only finitely many external pointers can be met, resolution stops whatever the cycles among them, within a
recursion depth of their number plus one: a larger bound changes nothing. -/
theorem C29_terminates {cfg : Cfg} {c : Json} {U : List Str} (hres : ∀ p, cfg.res p ≠ .err .fuel)
    (hord : ∀ n l, Container.MapOrder l (cfg.ord n l)) (hU : FiniteRefs cfg c U) :
    ∃ r, r ≠ .err .fuel ∧ ∀ n, U.length + 1 ≤ n → resolve cfg n c = r :=
  ⟨resolve cfg (U.length + 1) c, (resolve_same hres hord hU _ (U.length + 1) (Nat.le_refl _) (Nat.le_refl _)).2,
    fun n hn => (resolve_same hres hord hU n (U.length + 1) hn (Nat.le_refl _)).1⟩

/-- C29: and on a tidy document all of whose references are pointers that resolve, it succeeds. -/
theorem C29_succeeds {cfg : Cfg} {c : Json} {U : List Str} (hs : Setting cfg c) (hsolv : Solvable cfg c U) {n : Nat}
    (hn : U.length + 1 ≤ n) : ∃ r, resolve cfg n c = .ok r := resolve_total hs.good hs.tidy hs.receives hsolv hn

/-- C29: where the stack suffices, more of it changes nothing, whatever can be met. -/
theorem C29_more_stack {cfg : Cfg} {c r : Json} {n m : Nat} (h : n ≤ m) (hr : resolve cfg n c = .ok r) : resolve cfg m c = .ok r :=
  resolve_more h hr

example : ∃ r, r ≠ .err .fuel ∧ ∀ n, 3 ≤ n → resolve Ex.cfg n Ex.doc = r :=
  C29_terminates (U := Ex.U) (by
    intro p h
    unfold Ex.cfg Ex.res at h
    simp only at h
    split at h
    · cases h
    · split at h <;> cases h) (fun _ => firsts_order) Ex.finiteRefs

example : ∃ r, resolve Ex.cfg 3 Ex.doc = .ok r := C29_succeeds Ex.setting Ex.solvable (Nat.le_refl _)

/-! ### C30 -/

/-- C30: the result of a resolution has no external reference, at any depth. -/
theorem C30_no_external_reference {cfg : Cfg} {c r : Json} {n : Nat} (hs : Setting cfg c) (h : resolve cfg n c = .ok r) :
    ∀ L x p, getAt r (L ++ [.key refKey]) = some (.str x) → Pointer.parse x = .ok p → p.url.scheme = [] := by
  obtain ⟨D, log, rfl, h2, h3, h4⟩ := resolve_ok hs.good hs.tidy hs.receives h
  intro L x p hx hp
  by_cases he : p.url.scheme = []
  · exact he
  · exact absurd ⟨hx, hp, he⟩ (result_noExt hs.good hs.bare hs.bares h2 h3 h4 L x p)

example : ∃ r, resolve Ex.cfg 3 Ex.doc = .ok r ∧
    ∀ L x p, getAt r (L ++ [.key refKey]) = some (.str x) → Pointer.parse x = .ok p → p.url.scheme = [] := by
  obtain ⟨r, h⟩ := C29_succeeds Ex.setting Ex.solvable (Nat.le_refl _)
  exact ⟨r, h, C30_no_external_reference Ex.setting h⟩

/-! ### C31 -/

/-- C31: the result is the expansion of the document, with one component for each exported pointer that is reachable: the
expansion of what it resolves to. -/
theorem C31_result_is_the_expansion {cfg : Cfg} {c r : Json} {n : Nat} (hs : Setting cfg c) (hcyc : CyclesExported cfg c)
    (h : resolve cfg n c = .ok r) :
    ∃ D T, r = addComponents T D ∧ Expansion cfg c D ∧ (T.map fun t => compLoc t.1).Nodup ∧
      ∀ e v, (e, v) ∈ T ↔ ∃ p d, Reach cfg c p ∧ Resolver.get cfg.exp p = some e ∧ cfg.res p = .ok d ∧ Expansion cfg d v := by
  obtain ⟨D, T, h1, h2, h3, h4, _⟩ := resolve_spec hs.good hs.tidy hs.receives hs.bare hs.bares hcyc h
  exact ⟨D, T, h4, h1, h2, h3⟩

theorem reach_ord {cfg : Cfg} {c : Json} {o} {p : Pointer} (h : Reach { cfg with ord := o } c p) : Reach cfg c p := by
  induction h with
  | doc h => exact .doc h
  | step _ h ih => exact .step ih h

theorem reach_ord' {cfg : Cfg} {c : Json} (o) {p : Pointer} (h : Reach cfg c p) : Reach { cfg with ord := o } c p := by
  induction h with
  | doc h => exact .doc h
  | step _ h ih => exact .step ih h

theorem setting_ord {cfg : Cfg} {c : Json} (hs : Setting cfg c) {o : Nat → List (Str × Json) → List (Str × Json)}
    (ho : ∀ n l, Container.MapOrder l (o n l)) : Setting { cfg with ord := o } c :=
  ⟨⟨hs.good.names, hs.good.apart, fun p q hp hq => hs.good.byString p q (reach_ord hp) (reach_ord hq), fun p d hp hd => hs.good.docs p d (reach_ord hp) hd, ho⟩, hs.tidy, hs.receives,
    hs.bare, fun p d hp hd => hs.bares p d (reach_ord hp) hd⟩

theorem solvable_ord {cfg : Cfg} {c : Json} {U : List Str} (hs : Solvable cfg c U) (o : Nat → List (Str × Json) → List (Str × Json)) :
    Solvable { cfg with ord := o } c U := by
  refine ⟨fun p h => hs.finite p (reach_ord h), fun p h => hs.resolves p (reach_ord h), fun x h => hs.parses x ?_⟩
  rcases h with h | ⟨p, d, h1, h2, h3⟩
  · exact Or.inl h
  · exact Or.inr ⟨p, d, reach_ord h1, h2, h3⟩

theorem expansion_ord {cfg : Cfg} {o} {j j' : Json} (h : Expansion { cfg with ord := o } j j') : Expansion cfg j j' := by
  induction h with
  | mk σ d v h1 h2 h3 h4 ih => exact .mk σ d v h1 h2 h3 ih

theorem expansion_ord' {cfg : Cfg} (o) {j j' : Json} (h : Expansion cfg j j') : Expansion { cfg with ord := o } j j' := by
  induction h with
  | mk σ d v h1 h2 h3 h4 ih => exact .mk σ d v h1 h2 h3 ih

theorem cycles_ord {cfg : Cfg} {c : Json} (h : CyclesExported cfg c) (o) : CyclesExported { cfg with ord := o } c := by
  intro pp j L x p h1 h2 h3
  refine h pp j L x p ?_ h2 h3
  clear h2 h3
  induction h1 with
  | top => exact .top
  | step _ h1 h2 h3 ih => exact .step ih h1 h2 h3

/-- C31: two runs with different iteration orders return the same document. -/
theorem C31_order_does_not_matter {cfg : Cfg} {c r r' : Json} {n n' : Nat} (hs : Setting cfg c) (hcyc : CyclesExported cfg c)
    {o : Nat → List (Str × Json) → List (Str × Json)} (ho : ∀ n l, Container.MapOrder l (o n l))
    (h : resolve cfg n c = .ok r) (h' : resolve { cfg with ord := o } n' c = .ok r') : r = r' := by
  obtain ⟨D, T, a1, a2, a3, a4, a5, a6⟩ := resolve_spec hs.good hs.tidy hs.receives hs.bare hs.bares hcyc h
  have hs' := setting_ord hs ho
  obtain ⟨D', T', b1, b2, b3, b4, b5, b6⟩ := resolve_spec hs'.good hs'.tidy hs'.receives hs'.bare hs'.bares (cycles_ord hcyc o) h'
  have hD : D = D' := expansion_unique (cfg := cfg) (cfg' := { cfg with ord := o }) rfl rfl a1 b1
  subst hD
  rw [a4, b4]
  refine add_set (cfg := cfg) a6 b6 ?_ ?_ a5
  · rintro ⟨e, v⟩
    rw [a3, b3]
    constructor
    · rintro ⟨p, d, h1, h2, h3, h4⟩
      exact ⟨p, d, reach_ord' o h1, h2, h3, expansion_ord' o h4⟩
    · rintro ⟨p, d, h1, h2, h3, h4⟩
      exact ⟨p, d, reach_ord h1, h2, h3, expansion_ord h4⟩
  · intro s hs t ht he
    rw [List.Nodup, List.pairwise_map] at a2
    by_cases hst : s = t
    · rw [hst]
    · exfalso
      suffices H : ∀ l : List (Export × Json), l.Pairwise (fun a b => compLoc a.1 ≠ compLoc b.1) → s ∈ l → t ∈ l → False from
        H T a2 hs ht
      intro l hl h1 h2
      induction l with
      | nil => cases h1
      | cons a l ih =>
        obtain ⟨p1, p2⟩ := List.pairwise_cons.1 hl
        rcases List.mem_cons.1 h1 with rfl | h1
        · rcases List.mem_cons.1 h2 with rfl | h2
          · exact hst rfl
          · exact p1 t h2 he
        · rcases List.mem_cons.1 h2 with rfl | h2
          · exact p1 s (by assumption) he.symm
          · exact ih p2 (by assumption) h2

/-- C31: so, where all references resolve, there is one document that every run returns. -/
theorem C31_one_result {cfg : Cfg} {c : Json} {U : List Str} (hs : Setting cfg c) (hcyc : CyclesExported cfg c) (hsolv : Solvable cfg c U) :
    ∃ r, ∀ (o : Nat → List (Str × Json) → List (Str × Json)), (∀ n l, Container.MapOrder l (o n l)) → ∀ n, U.length + 1 ≤ n →
      resolve { cfg with ord := o } n c = .ok r := by
  obtain ⟨r, hr⟩ := C29_succeeds hs hsolv (Nat.le_refl _)
  refine ⟨r, fun o ho n hn => ?_⟩
  obtain ⟨r', hr'⟩ := C29_succeeds (setting_ord hs ho) (solvable_ord hsolv o) hn
  rw [hr', C31_order_does_not_matter hs hcyc ho hr hr']

example : ∃ r, ∀ (o : Nat → List (Str × Json) → List (Str × Json)), (∀ n l, Container.MapOrder l (o n l)) → ∀ n, 3 ≤ n →
    resolve { Ex.cfg with ord := o } n Ex.doc = .ok r := C31_one_result Ex.setting Ex.cycles Ex.solvable

set_option maxRecDepth 20000 in
/-- The result in the example. -/
example : resolve Ex.cfg 3 Ex.doc = .ok (.obj [
    (b!"components", .obj [(b!"schemas", .obj [(b!"A", .obj [
      (b!"properties", .obj [(b!"a", refObj b!"#/components/schemas/A"), (b!"b", Ex.docB)]), (b!"type", .str b!"object")])])]),
    (b!"info", .obj []),
    (b!"paths", .obj [(b!"/v1.0", .obj [(b!"l", refObj b!"#/info")]), (b!"/x", .obj [(b!"s", refObj b!"#/components/schemas/A")])])]) := by decide

/-! ### C32 -/

/-- C32: what is neither at, above or below a reference object or an exported component is the same before and after. -/
theorem C32_rest_unchanged {cfg : Cfg} {c r : Json} {n : Nat} (hg : GoodCfg cfg c) (ht : Tidy c) (hc : CanReceive cfg c)
    (h : resolve cfg n c = .ok r) {L : Loc} (hr : ∀ R x p, RefAt c R x p → Apart L R) (he : ∀ e ∈ cfg.exp, Apart L (compLoc e)) :
    getAt r L = getAt c L := by
  obtain ⟨D, log, rfl, h2, h3, h4⟩ := resolve_ok hg ht hc h
  rw [getAt_addComponents h3.entries he h4]
  cases h2 with
  | mk σ d v hother =>
    have hn : ∀ A, A <+: L ∨ L <+: A → σ A = none := by
      intro A hA
      apply hother
      intro x p hR
      rcases hA with hA | hA
      · exact (hr A x p hR).2 hA
      · exact (hr A x p hR).1 hA
    rw [getAt_subst c (fun p hp _ => hn p (Or.inl hp))]
    cases getAt c L with
    | none => rfl
    | some w =>
      rw [Option.map_some, subst_none]
      intro l
      exact hn _ (Or.inr (List.prefix_append _ _))

theorem apart_of_scalar {j : Json} {L R : Loc} {v w : Json} (hL : getAt j L = some v) (hs : scalar v = true) (hR : getAt j R = some w)
    (hw : scalar w = false) : ¬ L <+: R := by
  rintro ⟨t, rfl⟩
  rw [Oapi.getAt_append, hL] at hR
  cases t with
  | nil => simp [getAt] at hR; rw [hR] at hs; rw [hs] at hw; cases hw
  | cons a t => cases v <;> cases a <;> simp [getAt, child, scalar] at hR hs

/-- C32: every string, number, boolean and null keeps its value, unless it is the text of an external reference. -/
theorem C32_scalars_unchanged {cfg : Cfg} {c r : Json} {n : Nat} (hg : GoodCfg cfg c) (ht : Tidy c) (hc : CanReceive cfg c)
    (h : resolve cfg n c = .ok r) {L : Loc} {v : Json} (hv : getAt c L = some v) (hs : scalar v = true)
    (hx : ∀ R x p, RefAt c R x p → L ≠ R ++ [.key refKey]) : getAt r L = some v := by
  rw [← hv]
  refine C32_rest_unchanged hg ht hc h ?_ ?_
  · intro R x p hR
    have hobj := ht.single R x p hR
    refine ⟨apart_of_scalar hv hs hobj rfl, ?_⟩
    rintro ⟨t, rfl⟩
    rw [Oapi.getAt_append, hobj] at hv
    match t, hv with
    | [], hv => simp [getAt, refObj] at hv; subst hv; cases hs
    | .idx i :: t, hv => simp [refObj, getAt, child] at hv
    | .key k :: t, hv =>
      simp only [Option.bind_some, refObj, getAt_obj_key] at hv
      by_cases hk : k = refKey
      · subst hk
        cases t with
        | nil => exact hx R x p hR rfl
        | cons a t =>
          simp only [Obj.lookup, if_true] at hv
          cases a <;> simp [getAt, child] at hv
      · rw [show Obj.lookup k [(refKey, Json.str x)] = none by simp [Obj.lookup]; exact hk] at hv
        cases hv
  · intro e hE
    constructor
    · intro hp
      obtain ⟨m, hm⟩ := ((hc e hE).2 L hp).1 v hv
      subst hm; cases hs
    · rintro ⟨t, rfl⟩
      rw [Oapi.getAt_append, (hc e hE).1] at hv
      cases hv

/-- C32: local references keep their text. -/
theorem C32_local_references_unchanged {cfg : Cfg} {c r : Json} {n : Nat} (hg : GoodCfg cfg c) (ht : Tidy c) (hc : CanReceive cfg c)
    (h : resolve cfg n c = .ok r) {L : Loc} {x : Str} (hx : getAt c (L ++ [.key refKey]) = some (.str x))
    (hl : ∀ p, ¬ ExtRef x p) : getAt r (L ++ [.key refKey]) = some (.str x) := by
  refine C32_scalars_unchanged hg ht hc h hx rfl ?_
  intro R y p hR he
  have : L = R := (List.append_inj' he rfl).1
  subst this
  have h1 := hR.1
  rw [hx] at h1
  cases h1
  exact hl p hR.2

example : ∃ r, resolve Ex.cfg 3 Ex.doc = .ok r ∧
    getAt r [.key b!"paths", .key b!"/v1.0", .key b!"l", .key refKey] = some (.str b!"#/info") := by
  obtain ⟨r, h⟩ := C29_succeeds Ex.setting Ex.solvable (Nat.le_refl _)
  exact ⟨r, h, C32_local_references_unchanged Ex.setting.good Ex.setting.tidy Ex.setting.receives h
    (L := [.key b!"paths", .key b!"/v1.0", .key b!"l"]) (by decide) (fun _ => Ex.ext_L)⟩

/-! ### C33 -/

/-- C33: every reference in the result is one that was in the document or in a resolved schema, or it is a local reference to
an exported component, which is in the result. -/
theorem C33_no_dangling_reference {cfg : Cfg} {c r : Json} {n : Nat} (hg : GoodCfg cfg c) (ht : Tidy c) (hc : CanReceive cfg c)
    (h : resolve cfg n c = .ok r) {x : Str} (hx : HasRef r x) :
    Authored cfg c x ∨ ∃ e ∈ cfg.exp, x = localText e ∧ ∃ v, getAt r (compLoc e) = some v := by
  obtain ⟨D, log, rfl, h2, h3, h4⟩ := resolve_ok hg ht hc h
  rcases result_refs hg h2 h3 h4 hx with h | ⟨e, hn, rfl⟩
  · exact Or.inl h
  · obtain ⟨v, hv⟩ := h3.2 e hn
    obtain ⟨v', h5, _⟩ := component_present h3.entries hv h4
    exact Or.inr ⟨e, (h3.entries _ hv).1, rfl, v', h5⟩

/-- C33: the tokens of a written local reference are the keys of the component's location (if its name has no '%'). -/
theorem C33_local_text_denotes_the_component {e : Export} (hn : CleanName e.name) (hp : (37 : UInt8) ∉ e.name) :
    ∃ p, Pointer.parse (localText e) = .ok p ∧ p.url.scheme = [] ∧ p.pkgPath = [] ∧ p.fragment.map Step.key = compLoc e := by
  have hf := fragment_eq hn
  have ht : localText e = [] ++ 35 :: Fragment.toStr e.fragment := by
    rw [← local_text hn]; rfl
  have hpc : (37 : UInt8) ∉ Fragment.toStr e.fragment := by
    have : Fragment.toStr e.fragment = b!"/components/" ++ e.kind.key ++ 47 :: e.name := by
      have h1 : 35 :: Fragment.toStr e.fragment = b!"#/components/" ++ e.kind.key ++ 47 :: e.name := by
        rw [show 35 :: Fragment.toStr e.fragment = localText e by rw [ht]; rfl]; rfl
      rw [show b!"#/components/" = 35 :: b!"/components/" by decide] at h1
      injection h1
    rw [this]
    have hk : (37 : UInt8) ∉ e.kind.key := by cases e.kind <;> decide
    intro hm
    simp only [List.mem_append, List.mem_cons] at hm
    rcases hm with (hm | hm) | hm | hm
    · revert hm; decide
    · exact hk hm
    · cases hm
    · exact hp hm
  obtain ⟨rf, h⟩ := Pointer.Parse_frag (raw := []) (by simp) (show Url.parse [] = some {} by decide) rfl hpc
  rw [← ht] at h
  refine ⟨⟨_, e.fragment⟩, Pointer.parse_of ?_ ?_ h (Fragment.new_toStr e.fragment), rfl, ?_, ?_⟩
  · rw [ht]; simp
  · rw [ht, hf]; simp [Fragment.toStr]
  · rfl
  · rw [hf]; rfl

/-- C33: which section each kind of component is stored in, and that the local reference names the same section. -/
theorem C33_sections {e : Export} (hn : CleanName e.name) (v : Json) :
    Container.setP (.obj []) e.path v =
      .ok (.obj [(b!"components", .obj [(sectionOf e.kind, .obj [(e.name, v)])])]) ∧
    Pointer.toStr { fragment := e.fragment } = b!"#/components/" ++ sectionOf e.kind ++ 47 :: e.name := by
  have hk : sectionOf e.kind = e.kind.key := by cases e.kind <;> rfl
  rw [hk]
  refine ⟨?_, local_text hn⟩
  rw [setP_comp hn v (by
    intro p _ _ v hv
    cases p with
    | nil => cases hv; exact ⟨_, rfl⟩
    | cons k t => cases hv)]
  rfl

example : Pointer.toStr { fragment := (⟨.header, b!"X-Rate", Pointer.newGoLoose b!"m/a" b!"R"⟩ : Export).fragment } =
    b!"#/components/invalid/X-Rate" := (C33_sections ⟨by decide, by decide, by decide, by decide⟩ .null).2

example : ∃ r, resolve Ex.cfg 3 Ex.doc = .ok r ∧ ∀ x, HasRef r x →
    Authored Ex.cfg Ex.doc x ∨ ∃ e ∈ Ex.cfg.exp, x = localText e ∧ ∃ v, getAt r (compLoc e) = some v := by
  obtain ⟨r, h⟩ := C29_succeeds Ex.setting Ex.solvable (Nat.le_refl _)
  exact ⟨r, h, fun x hx => C33_no_dangling_reference Ex.setting.good Ex.setting.tidy Ex.setting.receives h hx⟩

/-! ### C34 -/

namespace Cyc
/-- `A` refers to `B` and back; only `A` is exported. -/
def docA : Json := .obj [(b!"properties", .obj [(b!"b", refObj Ex.sB)])]
def docB : Json := .obj [(b!"properties", .obj [(b!"a", refObj Ex.sA)])]
def res (p : Pointer) : Res Json :=
  if p.toStr = Ex.sA then .ok docA else if p.toStr = Ex.sB then .ok docB else .err .notFound
def doc : Json := .obj [(b!"info", .obj []), (b!"paths", .obj [(b!"x", refObj Ex.sA), (b!"y", refObj Ex.sB)])]
def cfg (o : Nat → List (Str × Json) → List (Str × Json)) : Cfg := { exp := [⟨.schema, b!"A", Ex.pA⟩], res := res, ord := o }
/-- The result, with the given schema for property `b` of `A`. -/
def result (b : Json) : Json := .obj [
  (b!"components", .obj [(b!"schemas", .obj [(b!"A", .obj [(b!"properties", .obj [(b!"b", b)])])])]),
  (b!"info", .obj []),
  (b!"paths", .obj [(b!"x", refObj b!"#/components/schemas/A"),
    (b!"y", .obj [(b!"properties", .obj [(b!"a", refObj b!"#/components/schemas/A")])])])]
end Cyc

set_option maxRecDepth 40000 in
/-- C34: with an unexported type in a cycle the result depends on the iteration order: one order gives the complete schema of
`A`, another one an empty schema in place of the cyclic part, and a larger recursion bound makes no difference. -/
theorem C34_result_depends_on_the_order : ∃ (c : Json) (cfg : Cfg) (o : Nat → List (Str × Json) → List (Str × Json)) (r r' : Json),
    (∀ n l, Container.MapOrder l (cfg.ord n l)) ∧ (∀ n l, Container.MapOrder l (o n l)) ∧
    (∀ n, 3 ≤ n → resolve cfg n c = .ok r) ∧ (∀ n, 3 ≤ n → resolve { cfg with ord := o } n c = .ok r') ∧
    getAt r [.key b!"components", .key b!"schemas", .key b!"A", .key b!"properties", .key b!"b"] = some (.obj []) ∧
    getAt r' [.key b!"components", .key b!"schemas", .key b!"A", .key b!"properties", .key b!"b"] =
      some (.obj [(b!"properties", .obj [(b!"a", refObj b!"#/components/schemas/A")])]) := by
  have fin : ∀ o, FiniteRefs (Cyc.cfg o) Cyc.doc Ex.U := by
    intro o
    have hres : ∀ p d, (Cyc.cfg o).res p = .ok d → d = Cyc.docA ∨ d = Cyc.docB := by
      intro p d h
      have h : Cyc.res p = .ok d := h
      unfold Cyc.res at h
      split at h
      · cases h; exact Or.inl rfl
      · split at h
        · cases h; exact Or.inr rfl
        · cases h
    have hall : ∀ x p, x ∈ [Ex.sA, Ex.sB] → ExtRef x p → p.toStr ∈ Ex.U := by
      intro x p hx hp
      simp only [List.mem_cons, List.not_mem_nil, or_false] at hx
      rcases hx with rfl | rfl
      · simp [Ex.U, Ex.ext_A hp]
      · simp [Ex.U, Ex.ext_B hp]
    refine ⟨wfB_sound _ (by decide), ?_, ?_, ?_⟩
    · intro p d _ h
      rcases hres p d h with rfl | rfl <;> exact wfB_sound _ (by decide)
    · intro x p h hp
      have := refLike_mem (by decide) (by decide) h
      rw [show refsB Cyc.doc = [Ex.sA, Ex.sB] by decide] at this
      exact hall x p this hp
    · intro p d x q _ hd h hq
      rcases hres p d hd with rfl | rfl
      · have := refLike_mem (by decide) (by decide) h
        rw [show refsB Cyc.docA = [Ex.sB] by decide] at this
        exact hall x q (by simp_all) hq
      · have := refLike_mem (by decide) (by decide) h
        rw [show refsB Cyc.docB = [Ex.sA] by decide] at this
        exact hall x q (by simp_all) hq
  have nofuel : ∀ p, Cyc.res p ≠ .err .fuel := by
    intro p h
    unfold Cyc.res at h
    split at h
    · cases h
    · split at h <;> cases h
  refine ⟨Cyc.doc, Cyc.cfg fun _ => firsts, fun _ => lasts, Cyc.result (.obj []),
    Cyc.result (.obj [(b!"properties", .obj [(b!"a", refObj b!"#/components/schemas/A")])]),
    fun _ => firsts_order, fun _ => lasts_order, ?_, ?_, by decide, by decide⟩
  · intro n hn
    rw [(resolve_same (U := Ex.U) nofuel (fun _ => firsts_order) (fin _) n 3 hn (by decide)).1]
    decide
  · intro n hn
    show resolve (Cyc.cfg fun _ => lasts) n Cyc.doc = _
    rw [(resolve_same (cfg := Cyc.cfg fun _ => lasts) (U := Ex.U) nofuel (fun _ => lasts_order) (fin _) n 3 hn (by decide)).1]
    decide

/-! ### C35 -/

/-- C35: where an unexported type resolves to nothing but a reference to another unexported type, the reference is not replaced:
the result keeps the external reference and gains a member with the empty name. -/
theorem C35_bare_reference_is_not_resolved {cfg : Cfg} {c r : Json} {n : Nat} (hg : GoodCfg cfg c) (ht : Tidy c)
    (hc : CanReceive cfg c) (hb : NotBare c) (h : resolve cfg n c = .ok r) {L : Loc} {x y : Str} {p q : Pointer}
    (hL : RefAt c L x p) (hp : Resolver.get cfg.exp p = none) (hr : cfg.res p = .ok (refObj y)) (hy : ExtRef y q)
    (hq : Resolver.get cfg.exp q = none) : ∃ w, getAt r L = some (.obj [([], w), (refKey, .str y)]) := by
  have hne : L ≠ [] := by rintro rfl; exact hb x p hL
  obtain ⟨D, log, rfl, h2, h3, h4⟩ := resolve_ok hg ht hc h
  rw [getAt_addComponents h3.entries (fun e he => canReceive_apart hc hL he) h4]
  have hy' : RefAt (refObj y) [] y q := ⟨by simp [refObj, getAt, child, Obj.lookup], hy⟩
  cases h2 with
  | mk σ d v hother _ _ hres hrec =>
    obtain ⟨k1, k2⟩ := hres L x p hL (by simp) hp
    have k3 := hrec L x p hL (by simp) hp
    rw [hr] at k1
    have k1 : d L = refObj y := by injection k1 with e; exact e.symm
    rw [k1] at k3
    have hat := ht.single L x p hL
    have habove : ∀ A, A <+: L → A ≠ L → σ A = none := by
      rintro A ⟨t, rfl⟩ hA
      apply hother
      intro x' p' hR
      have hobj := ht.single A x' p' hR
      rw [Oapi.getAt_append, hobj] at hat
      match t, hat with
      | [], _ => exact hA (List.append_nil A).symm
      | .idx i :: t, hat => simp [refObj, getAt, child] at hat
      | .key k :: t, hat =>
        simp only [Option.bind_some, refObj, getAt_obj_key] at hat
        by_cases hk : k = refKey
        · subst hk
          simp only [Obj.lookup, if_true] at hat
          cases t with
          | nil => simp [getAt] at hat
          | cons a t => cases a <;> simp [getAt, child] at hat
        · rw [show Obj.lookup k [(refKey, Json.str x')] = none by simp [Obj.lookup]; exact hk] at hat
          cases hat
    rw [getAt_subst c habove, hat, Option.map_some, subst_some (by rw [List.append_nil]; exact k2), mkRepl, if_neg hne]
    generalize hv : v L = vL at k3
    cases k3 with
    | mk σ' d' v' _ _ hcyc' hres' =>
      by_cases hin : q.toStr ∈ [] ++ [p.toStr]
      · refine ⟨.obj [], ?_⟩
        rw [subst_some (hcyc' [] y q hy' hin (by intro e he; rw [hq] at he; cases he)), mkRepl, if_pos rfl]
      · refine ⟨v' [], ?_⟩
        rw [subst_some (hres' [] y q hy' hin hq).2, mkRepl, if_pos rfl]

namespace Over
/-- `A` is overridden by a reference to `B`, as in .conf.yaml; nothing is exported. -/
def res (p : Pointer) : Res Json :=
  if p.toStr = Ex.sA then .ok (refObj Ex.sB) else if p.toStr = Ex.sB then .ok Ex.docB else .err .notFound
def cfg : Cfg := { exp := [], res := res, ord := fun _ => firsts }
def doc : Json := .obj [(b!"x", refObj Ex.sA)]
end Over

example : ∃ r, resolve Over.cfg 3 Over.doc = .ok r ∧ ∃ w, getAt r [.key b!"x"] = some (.obj [([], w), (refKey, .str Ex.sB)]) := by
  have hr : ∃ r, resolve Over.cfg 3 Over.doc = .ok r := ⟨_, by
    set_option maxRecDepth 20000 in
    show _ = Res.ok (.obj [(b!"x", .obj [([], Ex.docB), (refKey, .str Ex.sB)])])
    decide⟩
  obtain ⟨r, h⟩ := hr
  have hbyS : ∀ p q : Pointer, p.toStr = q.toStr → Over.res p = Over.res q := by
    intro p q h; unfold Over.res; rw [h]
  have hdocs : ∀ p d, Over.res p = .ok d → Tidy d := by
    intro p d h
    unfold Over.res at h
    split at h
    · cases h; exact tidy_of_checks (by decide) (by decide) (by decide)
    · split at h
      · cases h; exact tidy_of_checks (by decide) (by decide) (by decide)
      · cases h
  refine ⟨r, h, C35_bare_reference_is_not_resolved (L := [.key b!"x"]) (x := Ex.sA) (p := Ex.pA)
    (q := { url := { scheme := b!"go", host := b!"p", fragment := b!"/B" }, fragment := [b!"B"] })
    ⟨(by intro e he; cases he), (by intro e he; cases he), fun p q _ _ => hbyS p q, fun p d _ hd => hdocs p d hd, fun _ => firsts_order⟩
    (tidy_of_checks (by decide) (by decide) (by decide)) (by intro e he; cases he) ?_ h ⟨by decide, by decide, by decide⟩
    rfl (by decide) ⟨by decide, by decide⟩ rfl⟩
  intro x p h
  have := h.1
  have hn : getAt Over.doc ([] ++ [.key refKey]) = none := by decide
  exact absurd (hn.symm.trans this) (by simp)

end Oapi.Props
