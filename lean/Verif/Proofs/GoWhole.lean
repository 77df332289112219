import Verif.Model.GoWhole
import Verif.Proofs.GoHeap17
import Verif.Proofs.GoTypes4
import Verif.Proofs.Det4

/-! A scan with one type scanner in memory. -/
namespace Oapi.GoWhole
open GoHeap (RSt MOrders M HFile HPrepared)
open Scan (Input Orders Outcome)
open Types Spec

/-! ### The resolver -/

section
variable {τ : Type}

/-- Both sides end alike, and the state of the resolver function is in order. -/
def Same (I : τ → Prop) (x : (RSt × τ) × Res Unit) (y : RSt × Res Unit) : Prop := I x.1.2 ∧ x.1.1 = y.1 ∧ x.2 = y.2

variable {I : τ → Prop} {cfg : Resolver.Cfg} {res : Pointer → τ → τ × Res Json} {f : Pointer → Res Json}

theorem visit_same (room : Nat) (hI : ∀ p t, I t → I (res p t).1 ∧ (res p t).2 = f p) {con : Nat} {call : Slice → Nat → RSt × τ → (RSt × τ) × Res Unit}
    {call' : Slice → Nat → RSt → RSt × Res Unit} (hc : ∀ pp i s, I s.2 → Same I (call pp i s) (call' pp i s.1)) (pp : Slice) (cx : Nat) (key : Str) (v : Json) {s : RSt × τ}
    (hs : I s.2) : Same I (visit room cfg res con call pp cx key v s) (GoHeap.visit room { cfg with res := f } con call' pp cx key v s.1) := by
  have still : ∀ x : Res Unit, Same I (s, x) (s.1, x) := fun x => ⟨hs, rfl, rfl⟩
  unfold visit GoHeap.visit
  cases v with
  | null => exact still _
  | bool _ => exact still _
  | num _ => exact still _
  | arr _ => exact still _
  | obj _ => exact still _
  | str t =>
    simp only
    cases Pointer.parse t with
    | err e => exact still _
    | panic => exact still _
    | ok p =>
      simp only
      by_cases h1 : p.isExternal = false
      · simp only [if_pos h1]; exact still _
      · simp only [if_neg h1]
        by_cases h2 : p.toStr ∈ Slice.view s.1.arrs pp
        · simp only [if_pos h2]; exact ⟨hs, rfl, rfl⟩
        · simp only [if_neg h2]
          obtain ⟨i1, e1⟩ := hI p s.2 hs
          cases hr : res p s.2 with
          | mk t' r =>
          rw [hr] at i1 e1
          simp only at i1 e1
          subst e1
          cases hf : f p with
          | err e => exact ⟨i1, rfl, rfl⟩
          | panic => exact ⟨i1, rfl, rfl⟩
          | ok nc =>
            simp only
            have := hc (Slice.append s.1.arrs pp [p.toStr] room).2 (GoHeap.make nc s.1.heap).2
              (⟨(GoHeap.make nc s.1.heap).1, (Slice.append s.1.arrs pp [p.toStr] room).1, s.1.clock⟩, t') i1
            generalize call _ _ _ = x at this
            obtain ⟨⟨s1, t1⟩, r1⟩ := x
            obtain ⟨k1, k2, k3⟩ := this
            simp only at k1 k2 k3
            generalize call' _ _ _ = y at k2 k3
            obtain ⟨s2, r2⟩ := y
            simp only at k2 k3
            subst k2
            subst k3
            cases r1 with
            | ok u => exact ⟨k1, rfl, rfl⟩
            | err e => exact ⟨k1, rfl, rfl⟩
            | panic => exact ⟨k1, rfl, rfl⟩

theorem loop_same (room : Nat) (hI : ∀ p t, I t → I (res p t).1 ∧ (res p t).2 = f p) {con : Nat} {call : Slice → Nat → RSt × τ → (RSt × τ) × Res Unit}
    {call' : Slice → Nat → RSt → RSt × Res Unit} (hc : ∀ pp i s, I s.2 → Same I (call pp i s) (call' pp i s.1)) (pp : Slice) (cx : Nat) : ∀ (refs : List (Str × Json)) {s : RSt × τ},
    I s.2 → Same I (loop room cfg res con call pp cx refs s) (GoHeap.loop room { cfg with res := f } con call' pp cx refs s.1)
  | [], s, hs => ⟨hs, rfl, rfl⟩
  | (key, v) :: t, s, hs => by
    have := visit_same (cfg := cfg) room hI (con := con) hc pp cx key v hs
    unfold loop GoHeap.loop
    generalize visit room cfg res con call pp cx key v s = x at this
    obtain ⟨⟨s1, t1⟩, r1⟩ := x
    obtain ⟨k1, k2, k3⟩ := this
    simp only at k1 k2 k3
    generalize GoHeap.visit _ _ _ _ _ _ _ _ _ = y at k2 k3
    obtain ⟨s2, r2⟩ := y
    simp only at k2 k3
    subst k2
    subst k3
    cases r1 with
    | ok u => exact loop_same room hI hc pp cx t (s := (s1, t1)) k1
    | err e => exact ⟨k1, rfl, rfl⟩
    | panic => exact ⟨k1, rfl, rfl⟩

theorem iter_same (room : Nat) (hI : ∀ p t, I t → I (res p t).1 ∧ (res p t).2 = f p) (con : Nat) : ∀ (n : Nat) (pp : Slice) (cx : Nat) (s : RSt × τ),
    I s.2 → Same I (iter room cfg res con n pp cx s) (GoHeap.iter room { cfg with res := f } con n pp cx s.1)
  | 0, _, _, s, hs => ⟨hs, rfl, rfl⟩
  | n + 1, pp, cx, s, hs => by
    unfold iter GoHeap.iter
    cases GoHeap.extract cx b!"$ref" s.1.heap with
    | err e => exact ⟨hs, rfl, rfl⟩
    | panic => exact ⟨hs, rfl, rfl⟩
    | ok refs => exact loop_same room hI (iter_same room hI con n) pp cx _ (s := ({ s.1 with clock := s.1.clock + 1 }, s.2)) hs

theorem resolve_same (room : Nat) (hI : ∀ p t, I t → I (res p t).1 ∧ (res p t).2 = f p) {t : τ} (ht : I t) (fuel c : Nat) :
    resolve room cfg res t fuel c = GoHeap.resolve room { cfg with res := f } fuel c := by
  funext h
  have := iter_same (cfg := cfg) room hI (GoHeap.cloneC (some c) h).2 fuel ⟨0, 0⟩ (GoHeap.cloneC (some c) h).2 (⟨(GoHeap.cloneC (some c) h).1, [[]], 0⟩, t) ht
  unfold resolve GoHeap.resolve
  simp only
  generalize iter _ _ _ _ _ _ _ _ = x at this
  obtain ⟨⟨s1, t1⟩, r1⟩ := x
  obtain ⟨k1, k2, k3⟩ := this
  simp only at k1 k2 k3
  generalize GoHeap.iter _ _ _ _ _ _ _ = y at k2 k3
  obtain ⟨s2, r2⟩ := y
  simp only at k2 k3
  subst k2
  subst k3
  cases r1 <;> rfl

end

/-! ### The type scanner -/

variable {F : Type} {inp : Input F} {o : Orders} {rt : Rt}

theorem scanPtr_ne_err (pr : Prog) (pkg : Str) (ptr : Pointer) (m : PMap) (e : Err) : Types.scanPtr pr pkg ptr m ≠ .err e := by
  unfold Types.scanPtr
  split
  · exact fun h => by cases h
  · split
    · exact fun h => by cases h
    · split
      · exact fun h => by cases h
      · split
        · exact fun h => by cases h
        · exact collect_fuel _ _ _ _ _ e

theorem scanPkg_ne_err (pr : Prog) (pkg : Str) (e : Err) : ∀ (ptrs : List Pointer) (m : PMap), Types.scanPkg pr pkg ptrs m ≠ .err e
  | [], m => fun h => by cases h
  | ptr :: t, m => by
    unfold Types.scanPkg
    cases h : Types.scanPtr pr pkg ptr m with
    | ok m1 => exact scanPkg_ne_err pr pkg e t m1
    | err e' => exact absurd h (scanPtr_ne_err _ _ _ _ _)
    | panic => exact fun h => by cases h

theorem scanPkgs_snoc (pr : Prog) (pkg : Str) (ptrs : List Pointer) {m1 m2 : PMap} (h2 : Types.scanPkg pr pkg ptrs m1 = .ok m2) : ∀ (runs : List (Str × List Pointer)) {m : PMap},
    Types.scanPkgs pr runs m = .ok m1 → Types.scanPkgs pr (runs ++ [(pkg, ptrs)]) m = .ok m2
  | [], m, h => by
    cases h
    simp only [List.nil_append, Types.scanPkgs, h2]
  | (k, l) :: t, m, h => by
    simp only [List.cons_append, Types.scanPkgs] at h ⊢
    cases hk : Types.scanPkg pr k l m with
    | ok m3 => rw [hk] at h; exact scanPkgs_snoc pr pkg ptrs h2 t h
    | err e => rw [hk] at h; cases h
    | panic => rw [hk] at h; cases h

/-- The scanner holds the points `m`, which some runs have registered. -/
def Holds (inp : Input F) (st : GoTypes.TSt) (m : PMap) : Prop := (∃ runs, Types.scanPkgs inp.prog runs [] = .ok m) ∧ st.OK ∧ st.content = m

/-- The type scanner is in the same state on both sides. -/
def TypesRel (inp : Input F) (s : GoTypes.TSt × Res Unit) : Res PMap → Prop
  | .ok m => s.2 = .ok () ∧ Holds inp s.1 m
  | .err e => s.2 = .err e
  | .panic => s.2 = .panic

theorem types_step (inp : Input F) (o : Orders) (rt : Rt) (pp : Pointers) : ∀ s t p, TypesRel inp s t →
    TypesRel inp ((typesScanner inp o rt pp).scan s p).1 ((Scan.typesScanner inp o pp).scan t p).1 ∧
      ((typesScanner inp o rt pp).scan s p).2 = ((Scan.typesScanner inp o pp).scan t p).2 := by
  rintro ⟨st, s⟩ t p hr
  cases t with
  | err e => simp only [TypesRel] at hr; subst hr; exact ⟨rfl, rfl⟩
  | panic => simp only [TypesRel] at hr; subst hr; exact ⟨rfl, rfl⟩
  | ok m =>
    obtain ⟨e, ⟨runs, hm⟩, ok, hc⟩ := hr
    simp only at e ok hc
    subst e
    obtain ⟨h1, h2, h3⟩ := GoTypes.scanPkg_sim (conf inp rt) inp.prog rfl (Scan.pathOf inp.heap p) ((o.pointers p pp).map Prod.snd) ok
    rw [hc] at h2 h3
    simp only [typesScanner, Scan.typesScanner]
    cases hg : GoTypes.scanPkg (conf inp rt) inp.prog.scope (Scan.pathOf inp.heap p) ((o.pointers p pp).map Prod.snd) st with
    | mk st1 r =>
    rw [hg] at h1 h2 h3
    simp only at h1 h2 h3
    cases hv : Types.scanPkg inp.prog (Scan.pathOf inp.heap p) ((o.pointers p pp).map Prod.snd) m with
    | err e => exact absurd hv (scanPkg_ne_err _ _ _ _ _)
    | panic => rw [hv] at h2; simp only at h2; subst h2; exact ⟨rfl, rfl⟩
    | ok m1 =>
      rw [hv] at h2
      simp only at h2
      subst h2
      exact ⟨⟨rfl, ⟨_, scanPkgs_snoc _ _ _ hv runs hm⟩, h1, h3 m1 hv⟩, rfl⟩

theorem types_crash (inp : Input F) (s : GoTypes.TSt × Res Unit) (t : Res PMap) (h : TypesRel inp s t) : Scan.Crashing.crashed s = Scan.Crashing.crashed t := by
  obtain ⟨g, s⟩ := s
  cases t with
  | ok q => obtain ⟨e, _⟩ := h; simp only at e; subst e; rfl
  | err e => simp only [TypesRel] at h; subst h; rfl
  | panic => simp only [TypesRel] at h; subst h; rfl

/-- Results that are alike. -/
def RRel {α β : Type} (R : α → β → Prop) : Res α → Res β → Prop
  | .ok a, .ok b => R a b
  | .err e, .err e' => e = e'
  | .panic, .panic => True
  | _, _ => False

theorem scanTypes_same (inp : Input F) (o : Orders) (rt : Rt) (pp : Pointers) (roots : List Nat) :
    RRel (Holds inp) (scanTypes inp o rt pp roots) (Scan.flat (Scan.walk inp o.heap₃ roots (Scan.typesScanner inp o pp) (.ok []))) := by
  have := Scan.walk_alike (inp := inp) (heap := o.heap₃) (roots := roots) (R := TypesRel inp) (s := ({}, .ok ())) (t := .ok [])
    (types_step inp o rt pp) (types_crash inp) ⟨rfl, ⟨[], rfl⟩, ⟨List.nodup_nil, List.nodup_nil, fun _ h => by cases h⟩, rfl⟩
  unfold scanTypes
  cases hg : Scan.walk inp o.heap₃ roots (Scan.typesScanner inp o pp) (.ok []) with
  | err e => rw [hg] at this; simp only at this; simp only [this]; rfl
  | panic => rw [hg] at this; simp only at this; simp only [this]; trivial
  | ok b =>
    rw [hg] at this
    obtain ⟨⟨st, r⟩, e, hr⟩ := this
    simp only [e, Scan.flat]
    cases b with
    | ok m => obtain ⟨e1, h1⟩ := hr; simp only at e1 h1; subst e1; exact h1
    | err e => simp only [TypesRel] at hr; subst hr; rfl
    | panic => simp only [TypesRel] at hr; subst hr; trivial

/-! ### The stages -/

/-- Two computations in memory end alike. -/
def MRel {α β : Type} (R : α → β → Prop) (x : GoHeap.Heap × Res α) (y : GoHeap.Heap × Res β) : Prop := x.1 = y.1 ∧ RRel R x.2 y.2

theorem bind_same {α γ δ : Type} {S : γ → δ → Prop} {x : M α} {f : α → M γ} {g : α → M δ} (hf : ∀ a h, MRel S (f a h) (g a h)) (h : GoHeap.Heap) :
    MRel S ((x >>= f) h) ((x >>= g) h) := by
  change MRel S (M.bind x f h) (M.bind x g h)
  unfold M.bind
  cases x h with
  | mk h' r =>
  cases r with
  | ok a => exact hf a h'
  | err e => exact ⟨rfl, rfl⟩
  | panic => exact ⟨rfl, trivial⟩

theorem bind_lift {α β γ δ : Type} {R : α → β → Prop} {S : γ → δ → Prop} {x : Res α} {y : Res β} (hx : RRel R x y) {f : α → M γ} {g : β → M δ}
    (hf : ∀ a b, R a b → ∀ h, MRel S (f a h) (g b h)) (h : GoHeap.Heap) : MRel S ((M.lift x >>= f) h) ((M.lift y >>= g) h) := by
  change MRel S (M.bind (M.lift x) f h) (M.bind (M.lift y) g h)
  unfold M.bind M.lift
  cases x with
  | ok a => cases y with
    | ok b => exact hf a b hx h
    | err e => exact hx.elim
    | panic => exact hx.elim
  | err e => cases y with
    | ok b => exact hx.elim
    | err e' => exact ⟨rfl, hx⟩
    | panic => exact hx.elim
  | panic => cases y with
    | ok b => exact hx.elim
    | err e' => exact hx.elim
    | panic => exact ⟨rfl, trivial⟩

/-- Both sides are prepared alike. -/
structure PreRel (inp : Input F) (a : TPrepared) (b : HPrepared) : Prop where
  exports : a.exports = b.exports
  cont : a.cont = b.cont
  types : Holds inp a.types b.points

theorem prepare_same (room : Nat) (inp : Input F) (o : Orders) (mo : MOrders) (rt : Rt) (h : GoHeap.Heap) :
    MRel (PreRel inp) (prepare room inp o mo rt h) (GoHeap.prepare room inp o mo h) := by
  unfold prepare GoHeap.prepare
  refine bind_same (fun roots => ?_) h
  refine bind_same (fun cmds => ?_)
  refine bind_same (fun exports => ?_)
  refine bind_same (fun ⟨files, ps⟩ => ?_)
  refine bind_same (fun c => ?_)
  refine bind_lift (scanTypes_same inp o rt _ roots) (fun st m hst => ?_)
  refine bind_same (fun _ h => ?_)
  exact ⟨rfl, rfl, rfl, hst⟩

/-- The resolver function has one answer to each pointer, whatever it was asked before. -/
def OneAnswer (inp : Input F) (rt : Rt) (st : GoTypes.TSt) (f : Pointer → Res Json) : Prop :=
  ∃ I : GoTypes.TSt × Nat → Prop, I (st, 0) ∧ ∀ p t, I t → I (resolveFn inp rt p t).1 ∧ (resolveFn inp rt p t).2 = f p

theorem finish_same (room : Nat) {mo : MOrders} (fuel : Nat) {a : TPrepared} {b : HPrepared} (hp : PreRel inp a b) (hf : OneAnswer inp rt a.types (Scan.resolveFn inp o b.points)) :
    finish room inp o mo rt fuel a = GoHeap.finish room inp o mo fuel b := by
  obtain ⟨I, h0, hI⟩ := hf
  unfold finish GoHeap.finish
  rw [resolve_same room hI h0, hp.cont, hp.exports]
  rfl

/-- If the answers are those of a scan with the orders `o'`, which differ only where types are picked, the whole scan is. -/
theorem scan_same (room : Nat) {mo : MOrders} (fuel : Nat) {o' : Orders} (ho' : o' = { o with types := o'.types, pick := o'.pick })
    (hf : ∀ b st, (GoHeap.prepare room inp o mo ⟨[], []⟩).2 = .ok b → Holds inp st b.points → OneAnswer inp rt st (Scan.resolveFn inp o' b.points)) :
    scan room inp o mo rt fuel = GoHeap.scan room inp o' mo fuel := by
  have hp : GoHeap.prepare room inp o' mo = GoHeap.prepare room inp o mo := by rw [ho']; rfl
  have hfin : ∀ a, finish room inp o mo rt fuel a = finish room inp o' mo rt fuel a := by intro a; rw [ho']; rfl
  unfold scan GoHeap.scan
  rw [hp]
  change GoHeap.outcome (M.bind _ _ _) = GoHeap.outcome (M.bind _ _ _)
  have := prepare_same room inp o mo rt ⟨[], []⟩
  unfold M.bind
  cases hx : prepare room inp o mo rt ⟨[], []⟩ with
  | mk h1 r1 =>
  rw [hx] at this
  cases hy : GoHeap.prepare room inp o mo ⟨[], []⟩ with
  | mk h2 r2 =>
  rw [hy] at this hf
  obtain ⟨e1, e2⟩ := this
  simp only at e1 e2 hf
  subst e1
  cases r1 with
  | ok a => cases r2 with
    | ok b =>
      simp only
      rw [hfin, finish_same room fuel e2 (hf b a.types rfl e2.types)]
    | err e => exact e2.elim
    | panic => exact e2.elim
  | err e => cases r2 with
    | ok b => exact e2.elim
    | err e' => have : e = e' := e2; subst this; rfl
    | panic => exact e2.elim
  | panic => cases r2 with
    | ok b => exact e2.elim
    | err e' => exact e2.elim
    | panic => rfl

end Oapi.GoWhole
