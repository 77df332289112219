import Verif.Model.GoResolver
import Verif.Proofs.GoHeap6
import Verif.Proofs.SliceHeap

/-! `Resolve` in memory does what it does on documents. -/
namespace Oapi.GoHeap
open Resolver (Cfg Cur St)

/-! ### Paths -/

/-- From `a` to `b` at most the places of array `pp.arr` behind the path were written, and arrays were added. -/
def AKeep (pp : Slice) (a b : Oapi.Heap) : Prop :=
  ∀ (i : Nat) (x : List Str), a[i]? = some x → ∃ y, b[i]? = some y ∧ (i ≠ pp.arr → y = x) ∧ y.length = x.length ∧ y.take pp.len = x.take pp.len

theorem AKeep.refl (pp : Slice) (a : Oapi.Heap) : AKeep pp a a := fun _ x h => ⟨x, h, fun _ => rfl, rfl, rfl⟩

theorem AKeep.trans {pp : Slice} {a b c : Oapi.Heap} (h1 : AKeep pp a b) (h2 : AKeep pp b c) : AKeep pp a c := by
  intro i x hx
  obtain ⟨y, g1, g2, g3, g4⟩ := h1 i x hx
  obtain ⟨z, k1, k2, k3, k4⟩ := h2 i y g1
  exact ⟨z, k1, fun hi => (k2 hi).trans (g2 hi), k3.trans g3, k4.trans g4⟩

theorem AKeep.view {pp : Slice} {a b : Oapi.Heap} (h : AKeep pp a b) (v : Slice.Valid a pp) : Slice.view b pp = Slice.view a pp ∧ Slice.Valid b pp := by
  obtain ⟨x, hx⟩ : ∃ x, a[pp.arr]? = some x := ⟨_, List.getElem?_eq_getElem v.1⟩
  obtain ⟨y, g1, _, g3, g4⟩ := h _ x hx
  have hl := (List.getElem?_eq_some_iff.1 g1).1
  refine ⟨?_, hl, ?_⟩
  · simp [Slice.view, List.getD, hx, g1, g4]
  · have := v.2
    simp only [Slice.cap, List.getD, hx, g1, Option.getD_some] at this ⊢
    omega

/-- Appending one pointer: the new path, and what calls with it may write. -/
theorem append_path {a : Oapi.Heap} {pp : Slice} (v : Slice.Valid a pp) (t : Str) (extra : Nat) :
    Slice.Valid (Slice.append a pp [t] extra).1 (Slice.append a pp [t] extra).2 ∧
      Slice.view (Slice.append a pp [t] extra).1 (Slice.append a pp [t] extra).2 = Slice.view a pp ++ [t] ∧
      ∀ b, AKeep (Slice.append a pp [t] extra).2 (Slice.append a pp [t] extra).1 b → AKeep pp a b := by
  obtain ⟨g1, g2⟩ := Slice.append_view v [t] extra
  refine ⟨g2, g1, ?_⟩
  unfold Slice.append
  split
  · rename_i hc
    intro b hb i x hx
    obtain ⟨hl, hlen⟩ := v
    by_cases hi : i = pp.arr
    · subst hi
      have hx' : (a.set pp.arr (Slice.writeArr (a.getD pp.arr []) pp.len [t]))[pp.arr]? = some (Slice.writeArr x pp.len [t]) := by
        simp [hl, List.getD, hx, (List.getElem?_eq_some_iff.1 hx).2]
      obtain ⟨y, k1, k2, k3, k4⟩ := hb _ _ hx'
      simp only [Slice.cap, List.getD, hx, Option.getD_some, List.length_singleton] at hc hlen
      refine ⟨y, k1, fun h => absurd rfl h, ?_, ?_⟩
      · rw [k3]; simp [Slice.writeArr]; omega
      · have := congrArg (List.take pp.len) k4
        simp only [List.take_take, List.length_singleton] at this
        rw [show min pp.len (pp.len + 1) = pp.len by omega] at this
        rw [this]
        rw [Slice.writeArr, List.append_assoc, List.take_append_of_le_length (by simp; omega), List.take_take]
        simp
    · have hx' : (a.set pp.arr (Slice.writeArr (a.getD pp.arr []) pp.len [t]))[i]? = some x := by
        rw [List.getElem?_set_ne (Ne.symm hi)]; exact hx
      obtain ⟨y, k1, k2, _, _⟩ := hb _ _ hx'
      have := k2 hi
      subst this
      exact ⟨y, k1, fun _ => rfl, rfl, rfl⟩
  · intro b hb i x hx
    have hl := (List.getElem?_eq_some_iff.1 hx).1
    obtain ⟨y, k1, k2, _, _⟩ := hb i x (by simp only [Slice.alloc]; rw [List.getElem?_append_left hl]; exact hx)
    have := k2 (by simp only [Slice.alloc]; omega)
    subst this
    exact ⟨y, k1, fun _ => rfl, rfl, rfl⟩

/-! ### Writing -/

/-- All containers but two keep their documents. -/
def Keeps (d d' : Docs) (con i : Nat) : Prop := ∀ x j, x ≠ con → x ≠ i → d x = some j → d' x = some j

theorem Keeps.refl (d : Docs) (con i : Nat) : Keeps d d con i := fun _ _ _ _ h => h

theorem Keeps.trans {d d' d'' : Docs} {con i : Nat} (h1 : Keeps d d' con i) (h2 : Keeps d' d'' con i) : Keeps d d'' con i :=
  fun x j hx hi h => h2 x j hx hi (h1 x j hx hi h)

theorem Keeps.upd {d : Docs} {con i c : Nat} (j : Json) (hc : c = con ∨ c = i) : Keeps d (d.upd c j) con i := by
  intro x k hx hi h
  simp only [Docs.upd]
  rw [if_neg, h]
  rintro rfl
  rcases hc with hc | hc
  · exact hx hc
  · exact hi hc

/-- A new container. -/
theorem Keeps.new {d : Docs} {con i n : Nat} (j : Json) (hn : d n = none) : Keeps d (d.upd n j) con i := by
  intro x k _ _ h
  simp only [Docs.upd]
  rw [if_neg, h]
  rintro rfl
  rw [hn] at h
  cases h

theorem upd_self (d : Docs) (c : Nat) (j : Json) : d.upd c j c = some j := by simp [Docs.upd]

theorem upd_ne (d : Docs) {c x : Nat} (j : Json) (h : x ≠ c) : d.upd c j x = d x := by simp [Docs.upd, h]

/-- What is written with `SetP` in a world of separate containers. -/
theorem setP_world (room : Nat) (p : Str) {h : Heap} {d : Docs} {c : Nat} {v : Val} {jc js : Json} {A : List Nat} (w : World h d) (hc : d c = some jc)
    (hs : Rep h.mem js v A) :
    match Container.setP jc p js with
    | .ok j' => ∃ h', setP room p v c h = .ok h' ∧ World h' (d.upd c j')
    | .err e => setP room p v c h = .err e
    | .panic => False := by
  obtain ⟨F, h1, h2⟩ := w
  have := setP_rep room p (h1 c jc hc).2 hs
  cases hg : Container.setP jc p js with
  | panic => exact absurd hg (setP_no_panic _ _ _)
  | err e => rw [hg] at this; exact this
  | ok j' =>
    rw [hg] at this
    obtain ⟨h', o', F', k1, k2, k3, k4, k5⟩ := this
    exact ⟨h', k1, world_upd h1 h2 hc ⟨[], by simpa using k2⟩ k3 k4 k5⟩

theorem World.rep {h : Heap} {d : Docs} (w : World h d) {c : Nat} {j : Json} (hc : d c = some j) : ∃ A, Rep h.mem j (data h (some c)) A := by
  obtain ⟨F, h1, _⟩ := w
  exact ⟨_, (h1 c j hc).2⟩

/-- The container a call works on, on both sides. -/
def CurIs (cx : Cur) (i con : Nat) (d : Docs) : Prop :=
  match cx with
  | none => i = con
  | some j => i ≠ con ∧ d i = some j

/-- Both sides of the resolution are in the same state. -/
structure RInv (s : RSt) (con i : Nat) (cx : Cur) (st : St) (d : Docs) : Prop where
  world : World s.heap d
  doc : d con = some st.con
  cur : CurIs cx i con d
  clock : s.clock = st.clock

theorem RInv.now {s : RSt} {con i : Nat} {cx : Cur} {st : St} {d : Docs} (I : RInv s con i cx st d) : d i = some (Resolver.readCur cx st) := by
  have := I.cur
  cases cx with
  | none => simp only [CurIs] at this; subst this; exact I.doc
  | some j => exact this.2

/-- Both sides end alike; `a` are the paths before. -/
def RSim (d : Docs) (con i : Nat) (pp : Slice) (a : Oapi.Heap) (r : RSt × Res Unit) : Res (Cur × St) → Prop
  | .ok (cx', st') => r.2 = .ok () ∧ (∃ d', RInv r.1 con i cx' st' d' ∧ Keeps d d' con i) ∧ AKeep pp a r.1.arrs
  | .err e => r.2 = .err e ∧ ∃ d', World r.1.heap d' ∧ Keeps d d' con i
  | .panic => r.2 = .panic ∧ ∃ d', World r.1.heap d' ∧ Keeps d d' con i

theorem RSim.before {d0 d : Docs} {con i : Nat} {pp : Slice} {a0 a : Oapi.Heap} {r : RSt × Res Unit} {x : Res (Cur × St)} (hk : Keeps d0 d con i) (ha : AKeep pp a0 a)
    (h : RSim d con i pp a r x) : RSim d0 con i pp a0 r x := by
  match x with
  | .ok (cx', st') =>
    obtain ⟨h1, ⟨d', h2, h3⟩, h4⟩ := h
    exact ⟨h1, ⟨d', h2, hk.trans h3⟩, ha.trans h4⟩
  | .err e =>
    obtain ⟨h1, d', h2, h3⟩ := h
    exact ⟨h1, d', h2, hk.trans h3⟩
  | .panic =>
    obtain ⟨h1, d', h2, h3⟩ := h
    exact ⟨h1, d', h2, hk.trans h3⟩

theorem setCur_sim (room : Nat) (key : Str) {s : RSt} {con i : Nat} {cx : Cur} {st : St} {d : Docs} {v : Val} {js : Json} {A : List Nat} (pp : Slice)
    (I : RInv s con i cx st d) (hv : Rep s.heap.mem js v A) : RSim d con i pp s.arrs (setR room key v i s) (Resolver.setCur cx st key js) := by
  have hs := setP_world room key I.world I.now hv
  unfold Resolver.setCur setR
  cases hg : Container.setP (Resolver.readCur cx st) key js with
  | panic => rw [hg] at hs; exact hs.elim
  | err e =>
    rw [hg] at hs
    simp only at hs
    simp only [hs]
    exact ⟨rfl, d, I.world, Keeps.refl _ _ _⟩
  | ok j =>
    rw [hg] at hs
    obtain ⟨h', k1, k2⟩ := hs
    simp only [k1]
    cases cx with
    | none =>
      have hi : i = con := I.cur
      subst hi
      exact ⟨rfl, ⟨_, ⟨k2, upd_self _ _ _, rfl, I.clock⟩, Keeps.upd _ (.inl rfl)⟩, AKeep.refl _ _⟩
    | some j0 =>
      obtain ⟨hi, hd⟩ := I.cur
      exact ⟨rfl, ⟨_, ⟨k2, by rw [upd_ne _ _ (Ne.symm hi)]; exact I.doc, ⟨hi, upd_self _ _ _⟩, I.clock⟩, Keeps.upd _ (.inr rfl)⟩, AKeep.refl _ _⟩

theorem RSim.fail {d : Docs} {con i : Nat} {cx : Cur} {st : St} {s : RSt} {pp : Slice} (I : RInv s con i cx st d) (e : Err) : RSim d con i pp s.arrs (s, .err e) (.err e) :=
  ⟨rfl, d, I.world, Keeps.refl _ _ _⟩

theorem replacePtr_sim (room : Nat) (key : Str) {s : RSt} {con i : Nat} {cx : Cur} {st : St} {d : Docs} {v : Val} {js : Json} {A : List Nat} (pp : Slice)
    (I : RInv s con i cx st d) (hv : Rep s.heap.mem js v A) : RSim d con i pp s.arrs (replacePtr room i key v s) (Resolver.replacePtr cx st key js) := by
  unfold replacePtr Resolver.replacePtr
  cases Resolver.isref key with
  | none => exact RSim.fail I _
  | some path => exact setCur_sim room _ pp I hv

theorem updateLocal_sim (room : Nat) (key : Str) (f : Fragment) {s : RSt} {con i : Nat} {cx : Cur} {st : St} {d : Docs} (pp : Slice)
    (I : RInv s con i cx st d) : RSim d con i pp s.arrs (updateLocal room i key f s) (Resolver.updateLocal cx st key f) := by
  unfold updateLocal Resolver.updateLocal
  cases Resolver.isref key with
  | none => exact RSim.fail I _
  | some path => exact setCur_sim room _ pp I (A := []) ⟨rfl, rfl⟩

theorem replaceEmpty_sim (room : Nat) (key : Str) {s : RSt} {con i : Nat} {cx : Cur} {st : St} {d : Docs} (pp : Slice)
    (I : RInv s con i cx st d) : RSim d con i pp s.arrs (replaceEmpty room i key s) (Resolver.replacePtr cx st key (.obj [])) := by
  obtain ⟨w1, w2⟩ := world_new I.world (Changes.grow [] s.heap.mem [.map []]) (rep_new s.heap.mem) (by simp)
  have hne : con ≠ s.heap.objs.length := by rintro h; rw [← h, I.doc] at w2; cases w2
  have hni : i ≠ s.heap.objs.length := by rintro h; rw [← h, I.now] at w2; cases w2
  have I' : RInv { s with heap := (new s.heap).1 } con i cx st (d.upd s.heap.objs.length (.obj [])) := by
    refine ⟨w1, by rw [upd_ne _ _ hne]; exact I.doc, ?_, I.clock⟩
    have := I.cur
    cases cx with
    | none => exact this
    | some j => exact ⟨this.1, by rw [upd_ne _ _ hni]; exact this.2⟩
  obtain ⟨A, hA⟩ := I'.world.rep (upd_self _ _ _)
  exact (replacePtr_sim room key pp I' hA).before (Keeps.new _ w2) (AKeep.refl _ _)

theorem setRecursive_sim (room : Nat) (cfg : Cfg) (p : Pointer) (key : Str) {s : RSt} {con i : Nat} {cx : Cur} {st : St} {d : Docs} (pp : Slice)
    (I : RInv s con i cx st d) : RSim d con i pp s.arrs (setRecursive room cfg i p key s) (Resolver.setRecursive cfg cx st p key) := by
  unfold setRecursive Resolver.setRecursive
  cases Resolver.get cfg.exp p with
  | none => exact replaceEmpty_sim room key pp I
  | some e =>
    simp only
    split
    · exact updateLocal_sim room key _ pp I
    · exact replaceEmpty_sim room key pp I

theorem setRef_sim (room : Nat) (cfg : Cfg) (p : Pointer) (key : Str) {s : RSt} {con i n : Nat} {cx : Cur} {st : St} {d : Docs} {js : Json} (pp : Slice)
    (I : RInv s con i cx st d) (hn : d n = some js) :
    RSim d con i pp s.arrs (setRef room cfg con i p key n s) (Resolver.set cfg cx st p key js) := by
  obtain ⟨A, hA⟩ := I.world.rep hn
  unfold setRef Resolver.set
  cases Resolver.get cfg.exp p with
  | none => exact replacePtr_sim room key pp I hA
  | some e =>
    have hs := setP_world room e.path I.world I.doc hA
    simp only [setR]
    cases hg : Container.setP st.con e.path js with
    | panic => rw [hg] at hs; exact hs.elim
    | err e' =>
      rw [hg] at hs
      simp only at hs
      simp only [hs]
      exact RSim.fail I _
    | ok j =>
      rw [hg] at hs
      obtain ⟨h', k1, k2⟩ := hs
      simp only [k1]
      have I' : RInv { s with heap := h' } con i cx { st with con := j } (d.upd con j) := by
        refine ⟨k2, upd_self _ _ _, ?_, I.clock⟩
        have := I.cur
        cases cx with
        | none => exact this
        | some j => exact ⟨this.1, by rw [upd_ne _ _ this.1]; exact this.2⟩
      exact (updateLocal_sim room key _ pp I').before (Keeps.upd _ (.inl rfl)) (AKeep.refl _ _)

/-! ### The recursion -/

/-- What the recursive calls do. -/
def CallSim (con : Nat) (call : Slice → Nat → RSt → RSt × Res Unit) (call' : List Str → Json → St → Res (Cur × St)) : Prop :=
  ∀ (pp : Slice) (i : Nat) (s : RSt) (j : Json) (st : St) (d : Docs), RInv s con i (some j) st d → Slice.Valid s.arrs pp →
    RSim d con i pp s.arrs (call pp i s) (call' (Slice.view s.arrs pp) j st)

/-- The paths a nested call is given. -/
theorem nested_keep {d d1 : Docs} {con i n : Nat} {j : Json} (hn : d n = none) (hk : Keeps (d.upd n j) d1 con n) : Keeps d d1 con i := by
  intro x k hx _ h
  have hxn : x ≠ n := by rintro rfl; rw [hn] at h; cases h
  exact hk x k hx hxn (by rw [upd_ne _ _ hxn]; exact h)

theorem visit_sim (room : Nat) (cfg : Cfg) (hw : ∀ p j, cfg.res p = .ok j → Json.WF j) {con : Nat} {call : Slice → Nat → RSt → RSt × Res Unit}
    {call' : List Str → Json → St → Res (Cur × St)} (hcall : CallSim con call call') (key : Str) (v : Json) {s : RSt} {i : Nat} {cx : Cur} {st : St} {d : Docs}
    {pp : Slice} (I : RInv s con i cx st d) (hv : Slice.Valid s.arrs pp) :
    RSim d con i pp s.arrs (visit room cfg con call pp i key v s) (Resolver.visit cfg call' (Slice.view s.arrs pp) cx st key v) := by
  have same : RSim d con i pp s.arrs (s, .ok ()) (.ok (cx, st)) := ⟨rfl, ⟨d, I, Keeps.refl _ _ _⟩, AKeep.refl _ _⟩
  cases v with
  | null => exact same
  | bool _ => exact same
  | num _ => exact same
  | arr _ => exact same
  | obj _ => exact same
  | str t =>
    simp only [visit, Resolver.visit]
    cases hp : Pointer.parse t with
    | err e => exact RSim.fail I e
    | panic => exact ⟨rfl, d, I.world, Keeps.refl _ _ _⟩
    | ok p =>
      simp only
      by_cases hext : p.isExternal = false
      · simp only [if_pos hext]
        exact same
      · simp only [if_neg hext]
        by_cases hin : p.toStr ∈ Slice.view s.arrs pp
        · simp only [if_pos hin]
          exact setRecursive_sim room cfg p key pp I
        · simp only [if_neg hin]
          cases hr : cfg.res p with
          | err e => exact RSim.fail I e
          | panic => exact ⟨rfl, d, I.world, Keeps.refl _ _ _⟩
          | ok nc =>
            simp only
            obtain ⟨F, g1, g2, g3⟩ := alloc_rep nc s.heap.mem (hw p nc hr)
            obtain ⟨w1, w2⟩ := world_new I.world g2 g1 g3
            have hne : con ≠ s.heap.objs.length := by rintro h; rw [← h, I.doc] at w2; cases w2
            have hni : i ≠ s.heap.objs.length := by rintro h; rw [← h, I.now] at w2; cases w2
            obtain ⟨a1, a2, a3⟩ := append_path hv p.toStr room
            have I1 : RInv ⟨(make nc s.heap).1, (Slice.append s.arrs pp [p.toStr] room).1, s.clock⟩ con (make nc s.heap).2 (some nc) st (d.upd s.heap.objs.length nc) :=
              ⟨w1, by rw [upd_ne _ _ hne]; exact I.doc, ⟨Ne.symm hne, upd_self _ _ _⟩, I.clock⟩
            have hc := hcall _ _ _ nc st _ I1 a1
            rw [a2] at hc
            cases hb : call (Slice.append s.arrs pp [p.toStr] room).2 (make nc s.heap).2 ⟨(make nc s.heap).1, (Slice.append s.arrs pp [p.toStr] room).1, s.clock⟩ with
            | mk s' r =>
            rw [hb] at hc
            cases hx : call' (Slice.view s.arrs pp ++ [p.toStr]) nc st with
            | err e =>
              rw [hx] at hc
              obtain ⟨e1, d', e2, e3⟩ := hc
              simp only at e1
              subst e1
              exact ⟨rfl, d', e2, nested_keep w2 e3⟩
            | panic =>
              rw [hx] at hc
              obtain ⟨e1, d', e2, e3⟩ := hc
              simp only at e1
              subst e1
              exact ⟨rfl, d', e2, nested_keep w2 e3⟩
            | ok q =>
              obtain ⟨cx', st'⟩ := q
              rw [hx] at hc
              obtain ⟨e1, ⟨d', e2, e3⟩, e4⟩ := hc
              simp only at e1 e2 e4
              subst e1
              have hk := nested_keep (i := i) w2 e3
              have I2 : RInv s' con i cx st' d' := by
                refine ⟨e2.world, e2.doc, ?_, e2.clock⟩
                have hcur := I.cur
                cases cx with
                | none => exact hcur
                | some j =>
                  exact ⟨hcur.1, e3 i j hcur.1 hni (by rw [upd_ne _ _ hni]; exact hcur.2)⟩
              simp only
              exact (setRef_sim room cfg p key pp I2 e2.now).before hk (a3 _ e4)

theorem loop_sim (room : Nat) (cfg : Cfg) (hw : ∀ p j, cfg.res p = .ok j → Json.WF j) {con : Nat} {call : Slice → Nat → RSt → RSt × Res Unit}
    {call' : List Str → Json → St → Res (Cur × St)} (hcall : CallSim con call call') {pp : Slice} {i : Nat} :
    ∀ (refs : List (Str × Json)) {s : RSt} {cx : Cur} {st : St} {d : Docs}, RInv s con i cx st d → Slice.Valid s.arrs pp →
      RSim d con i pp s.arrs (loop room cfg con call pp i refs s) (Resolver.loop cfg call' (Slice.view s.arrs pp) refs cx st)
  | [], s, cx, st, d, I, _ => ⟨rfl, ⟨d, I, Keeps.refl _ _ _⟩, AKeep.refl _ _⟩
  | (key, v) :: t, s, cx, st, d, I, hv => by
    have hs := visit_sim room cfg hw hcall key v I hv
    simp only [loop, Resolver.loop]
    cases hb : visit room cfg con call pp i key v s with
    | mk s' r =>
    rw [hb] at hs
    cases hx : Resolver.visit cfg call' (Slice.view s.arrs pp) cx st key v with
    | err e =>
      rw [hx] at hs
      obtain ⟨e1, e2⟩ := hs
      simp only at e1
      subst e1
      exact ⟨rfl, e2⟩
    | panic =>
      rw [hx] at hs
      obtain ⟨e1, e2⟩ := hs
      simp only at e1
      subst e1
      exact ⟨rfl, e2⟩
    | ok q =>
      obtain ⟨cx', st'⟩ := q
      rw [hx] at hs
      obtain ⟨e1, ⟨d', e2, e3⟩, e4⟩ := hs
      simp only at e1 e2 e4
      subst e1
      obtain ⟨k1, k2⟩ := e4.view hv
      have := loop_sim room cfg hw hcall t e2 k2
      rw [k1] at this
      exact this.before e3 e4

theorem iter_sim (room : Nat) (cfg : Cfg) (hw : ∀ p j, cfg.res p = .ok j → Json.WF j) {con : Nat} :
    ∀ (n : Nat) {pp : Slice} {i : Nat} {s : RSt} {cx : Cur} {st : St} {d : Docs}, RInv s con i cx st d → Slice.Valid s.arrs pp →
      RSim d con i pp s.arrs (iter room cfg con n pp i s) (Resolver.iter cfg n (Slice.view s.arrs pp) cx st)
  | 0, pp, i, s, cx, st, d, I, _ => RSim.fail I _
  | n + 1, pp, i, s, cx, st, d, I, hv => by
    simp only [iter, Resolver.iter, extract, I.world.doc I.now]
    cases Container.extractKey (Resolver.readCur cx st) b!"$ref" with
    | err e => exact RSim.fail I e
    | panic => exact ⟨rfl, d, I.world, Keeps.refl _ _ _⟩
    | ok refs =>
      simp only [I.clock]
      have hcall : CallSim con (iter room cfg con n) (fun pp j st => Resolver.iter cfg n pp (some j) st) :=
        fun pp i s j st d I hv => iter_sim room cfg hw n I hv
      exact loop_sim room cfg hw hcall (s := { s with clock := st.clock + 1 }) (st := { st with clock := st.clock + 1 }) _
        ⟨I.world, I.doc, I.cur, rfl⟩ hv

/-- `Resolve` works on a copy and ends as on documents. -/
theorem resolve_sim (room : Nat) (cfg : Cfg) (hw : ∀ p j, cfg.res p = .ok j → Json.WF j) (fuel : Nat) {h : Heap} {d : Docs} {c : Nat} {j : Json} (w : World h d)
    (hc : d c = some j) :
    ∃ d', World (resolve room cfg fuel c h).1 d' ∧ (∀ x k, d x = some k → d' x = some k) ∧
      match Resolver.resolve cfg fuel j with
      | .ok j' => ∃ n, d n = none ∧ (resolve room cfg fuel c h).2 = .ok n ∧ d' n = some j'
      | .err e => (resolve room cfg fuel c h).2 = .err e
      | .panic => (resolve room cfg fuel c h).2 = .panic := by
  obtain ⟨A, hA⟩ := w.rep hc
  obtain ⟨m, v, G, g1, g2, g3, g4⟩ := clone_total hA
  obtain ⟨w1, w2⟩ := world_new w g3 g2 g4
  have I : RInv ⟨⟨m, h.objs ++ [v]⟩, [[]], 0⟩ h.objs.length h.objs.length none ⟨j, 0⟩ (d.upd h.objs.length j) := ⟨w1, upd_self _ _ _, rfl, rfl⟩
  have hs := iter_sim room cfg hw fuel (pp := ⟨0, 0⟩) I ⟨by simp, by simp [Slice.cap]⟩
  have frame : ∀ d', Keeps (d.upd h.objs.length j) d' h.objs.length h.objs.length → ∀ x k, d x = some k → d' x = some k := by
    intro d' hk x k hx
    have hne : x ≠ h.objs.length := by rintro rfl; rw [w2] at hx; cases hx
    exact hk x k hne hne (by rw [upd_ne _ _ hne]; exact hx)
  unfold resolve Resolver.resolve
  simp only [g1]
  rw [show Slice.view [[]] ⟨0, 0⟩ = [] from rfl] at hs
  cases hb : iter room cfg h.objs.length fuel ⟨0, 0⟩ h.objs.length ⟨⟨m, h.objs ++ [v]⟩, [[]], 0⟩ with
  | mk s r =>
  rw [hb] at hs
  cases hx : Resolver.iter cfg fuel [] none ⟨j, 0⟩ with
  | err e =>
    rw [hx] at hs
    obtain ⟨e1, d', e2, e3⟩ := hs
    simp only at e1
    subst e1
    exact ⟨d', e2, frame d' e3, rfl⟩
  | panic =>
    rw [hx] at hs
    obtain ⟨e1, d', e2, e3⟩ := hs
    simp only at e1
    subst e1
    exact ⟨d', e2, frame d' e3, rfl⟩
  | ok q =>
    obtain ⟨cx', st'⟩ := q
    rw [hx] at hs
    obtain ⟨e1, ⟨d', e2, e3⟩, _⟩ := hs
    simp only at e1
    subst e1
    exact ⟨d', e2.world, frame d' e3, _, w2, rfl, e2.doc⟩

end Oapi.GoHeap
