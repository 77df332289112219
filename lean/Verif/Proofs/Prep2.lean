import Verif.Proofs.Prep1

/-! The stages before the resolution, in terms of the input (C77). -/
namespace Oapi.Scan
open Spec Container Types

/-! ### References do not matter for collisions -/

theorem hasRef_member {m : Obj} (hs : Obj.Sorted m) {k : Str} {v : Json} (hk : (k, v) ∈ m) {x : Str} (h : HasRef v x) : HasRef (.obj m) x := by
  obtain ⟨L, hL⟩ := h
  refine ⟨.key k :: L, ?_⟩
  rw [List.cons_append, getAt]
  simp only [child, Obj.lookup_of_mem (Obj.sorted_nodup hs) hk]
  exact hL

theorem hasRef_elem {xs : List Json} {v : Json} (hv : v ∈ xs) {x : Str} (h : HasRef v x) : HasRef (.arr xs) x := by
  obtain ⟨L, hL⟩ := h
  obtain ⟨i, hi⟩ := List.getElem?_of_mem hv
  refine ⟨.idx i :: L, ?_⟩
  rw [List.cons_append, getAt]
  simp only [child, hi]
  exact hL

mutual
theorem mapRefs_congr {f g : Str → Str} : ∀ (d : Json), Json.WF d → (∀ x, HasRef d x → f x = g x) → mapRefs f d = mapRefs g d
  | .obj m, hw, h => by
    simp only [mapRefs]
    rw [Json.WF_obj] at hw
    rw [mapRefsO_congr m hw.2]
    intro k v hk
    refine ⟨fun e s hv => h s ⟨[], ?_⟩, fun x hx => h x (hasRef_member hw.1 hk hx)⟩
    subst e hv
    simp [getAt, child, Obj.lookup_of_mem (Obj.sorted_nodup hw.1) hk]
  | .arr xs, hw, h => by
    simp only [mapRefs]
    simp only [Json.WF] at hw
    rw [mapRefsA_congr xs hw]
    exact fun v hv x hx => h x (hasRef_elem hv hx)
  | .str _, _, h => rfl
  | .num _, _, h => rfl
  | .bool _, _, h => rfl
  | .null, _, h => rfl
theorem mapRefsO_congr {f g : Str → Str} : ∀ (m : List (Str × Json)), Json.WFO m →
    (∀ k v, (k, v) ∈ m → (k = refKey → ∀ s, v = .str s → f s = g s) ∧ ∀ x, HasRef v x → f x = g x) → mapRefsO f m = mapRefsO g m
  | [], _, _ => rfl
  | (k, v) :: t, hw, h => by
    simp only [Json.WFO] at hw
    have h1 := mapRefs_congr v hw.1 (h k v (by simp)).2
    have h2 := mapRefsO_congr t hw.2 (fun k v hk => h k v (by simp [hk]))
    have h3 := (h k v (by simp)).1
    cases v with
    | str s =>
      simp only [mapRefsO, h2]
      by_cases e : k = refKey
      · simp [e, h3 e s rfl]
      · simp [e]
    | _ => simp only [mapRefsO, h2, h1]
theorem mapRefsA_congr {f g : Str → Str} : ∀ (xs : List Json), Json.WFL xs → (∀ v ∈ xs, ∀ x, HasRef v x → f x = g x) → mapRefsA f xs = mapRefsA g xs
  | [], _, _ => rfl
  | v :: t, hw, h => by
    simp only [Json.WFL] at hw
    simp only [mapRefsA]
    rw [mapRefs_congr v hw.1 (h v (by simp)), mapRefsA_congr t hw.2 (fun v hv => h v (by simp [hv]))]
end

/-- Is a node there, and is it an object? -/
def shape : Option Node → Option Bool
  | none => none
  | some .obj => some true
  | some (.leaf _) => some false

theorem lookup_mapRefsO (f : Str → Str) (k : Str) : ∀ (m : List (Str × Json)),
    (Obj.lookup k m = none ∧ Obj.lookup k (mapRefsO f m) = none) ∨ ∃ v w, Obj.lookup k m = some v ∧ Obj.lookup k (mapRefsO f m) = some w ∧
      (w = mapRefs f v ∨ (Json.isObj v = false ∧ Json.isObj w = false)) := by
  intro m
  induction m with
  | nil => exact .inl ⟨rfl, rfl⟩
  | cons e t ih =>
    obtain ⟨k', v⟩ := e
    by_cases hk : k = k'
    · subst hk
      right
      cases v with
      | str s => exact ⟨.str s, .str (if k = refKey then f s else s), by simp [Obj.lookup], by simp [Obj.lookup, mapRefsO], .inr ⟨rfl, rfl⟩⟩
      | _ => exact ⟨_, mapRefs f _, by simp [Obj.lookup]; rfl, by simp [Obj.lookup, mapRefsO], .inl rfl⟩
    · have e1 : Obj.lookup k ((k', v) :: t) = Obj.lookup k t := by simp [Obj.lookup, hk]
      have e2 : Obj.lookup k (mapRefsO f ((k', v) :: t)) = Obj.lookup k (mapRefsO f t) := by
        cases v <;> simp [mapRefsO, Obj.lookup, hk]
      rw [e1, e2]
      exact ih

theorem shape_mapRefs (f : Str → Str) : ∀ (p : List Str) (d : Json), shape (nodeAt (mapRefs f d) p) = shape (nodeAt d p) := by
  intro p
  induction p with
  | nil => intro d; cases d <;> simp [mapRefs, nodeAt, shape]
  | cons k p ih =>
    intro d
    cases d with
    | obj m =>
      simp only [mapRefs, nodeAt_obj_cons]
      rcases lookup_mapRefsO f k m with ⟨h1, h2⟩ | ⟨v, w, h1, h2, h3⟩
      · rw [h1, h2]
      · rw [h1, h2]
        change shape (nodeAt w p) = shape (nodeAt v p)
        rcases h3 with rfl | ⟨h3, h4⟩
        · exact ih v
        · cases p with
          | nil => rw [nodeAt_leaf h3, nodeAt_leaf h4]; rfl
          | cons a b => rw [nodeAt_leaf_cons h3, nodeAt_leaf_cons h4]
    | arr xs => rfl
    | _ => rfl

theorem shape_collide {a b : Json} : Collide a b ↔ ∃ p x y, shape (nodeAt a p) = some x ∧ shape (nodeAt b p) = some y ∧ (x && y) = false := by
  constructor
  · rintro ⟨p, x, y, h1, h2, h3⟩
    cases x with
    | obj => cases y with
      | obj => exact absurd ⟨rfl, rfl⟩ h3
      | leaf j => exact ⟨p, true, false, by rw [h1]; rfl, by rw [h2]; rfl, rfl⟩
    | leaf i => cases y with
      | obj => exact ⟨p, false, true, by rw [h1]; rfl, by rw [h2]; rfl, rfl⟩
      | leaf j => exact ⟨p, false, false, by rw [h1]; rfl, by rw [h2]; rfl, rfl⟩
  · rintro ⟨p, x, y, h1, h2, h3⟩
    cases ha : nodeAt a p with
    | none => rw [ha] at h1; cases h1
    | some u =>
      cases hb : nodeAt b p with
      | none => rw [hb] at h2; cases h2
      | some v =>
        refine ⟨p, u, v, ha, hb, ?_⟩
        rintro ⟨rfl, rfl⟩
        rw [ha] at h1
        rw [hb] at h2
        simp only [shape, Option.some.injEq] at h1 h2
        subst h1 h2
        cases h3

theorem collide_mapRefs (f g : Str → Str) (a b : Json) : Collide (mapRefs f a) (mapRefs g b) ↔ Collide a b := by
  rw [shape_collide, shape_collide]
  simp only [shape_mapRefs]

theorem collide_symm {a b : Json} (h : Collide a b) : Collide b a := by
  obtain ⟨p, x, y, h1, h2, h3⟩ := h
  exact ⟨p, y, x, h2, h1, fun h => h3 ⟨h.2, h.1⟩⟩

/-! ### The specifications -/

theorem exists_openapi (d : Obj) : existsP (.obj d) b!"openapi" = (Obj.lookup b!"openapi" d).isSome := by
  have e : Gabs.dotPathToSlice b!"openapi" = [b!"openapi"] := by decide
  have : Gabs.search [b!"openapi"] (.obj d) = Obj.lookup b!"openapi" d := by
    rw [Gabs.search]
    cases Obj.lookup b!"openapi" d <;> rfl
  rw [existsP, e, Gabs.existsAt, this]

theorem isSpec_exists {d : Json} (h : IsSpec d) : existsP d b!"openapi" = true := by
  obtain ⟨m, v, rfl, h⟩ := h
  rw [exists_openapi, h]; rfl

variable {F : Type} {inp : Input F} {o : Orders}

theorem exists_isSpec {d : Json} (hd : SpecFileOK d) (h : existsP d b!"openapi" = true) : IsSpec d := by
  obtain ⟨m, rfl⟩ := hd.object
  rw [exists_openapi, Option.isSome_iff_exists] at h
  obtain ⟨v, hv⟩ := h
  exact ⟨m, v, rfl, hv⟩

theorem visited_plan (hi : InputOK inp) {roots : List Nat} (hr : inp.load = .ok roots) (p : Nat) :
    p ∈ plan inp.stdpkg inp.heap roots ↔ Visited inp p := by
  rw [plan_mem (hi.graph roots hr)]
  constructor
  · rintro ⟨r, h1, h2⟩; exact ⟨roots, r, hr, h1, h2⟩
  · rintro ⟨roots', r, h0, h1, h2⟩
    rw [hr] at h0; cases h0
    exact ⟨r, h1, h2⟩

theorem filesOf_eq {p : Nat} {fs : List File} (h : inp.files p = .ok fs) : filesOf inp p = fs := by simp [filesOf, h]

theorem filesOf_ok {p : Nat} {f : File} (h : f ∈ filesOf inp p) : ∃ fs, inp.files p = .ok fs ∧ f ∈ fs := by
  unfold filesOf at h
  split at h
  · rename_i fs e; exact ⟨fs, e, h⟩
  · cases h

/-- All specifications, with their places. -/
theorem specAt_iff (hi : InputOK inp) {p i : Nat} {d : Json} : SpecAt inp p i d ↔
    Visited inp p ∧ ∃ f, (filesOf inp p)[i]? = some f ∧ f.doc = d ∧ existsP d b!"openapi" = true := by
  constructor
  · rintro ⟨h1, fs, f, h2, h3, rfl, h4⟩
    exact ⟨h1, f, by rw [filesOf_eq h2]; exact h3, rfl, isSpec_exists h4⟩
  · rintro ⟨h1, f, h2, rfl, h3⟩
    obtain ⟨fs, e, hm⟩ := filesOf_ok (List.mem_of_getElem? h2)
    rw [filesOf_eq e] at h2
    exact ⟨h1, fs, f, e, h2, rfl, exists_isSpec (hi.files p fs e f hm h3) h3⟩

theorem specAt_ok (hi : InputOK inp) {p i : Nat} {d : Json} (h : SpecAt inp p i d) : SpecFileOK d := by
  obtain ⟨_, fs, f, h2, h3, rfl, h4⟩ := h
  exact hi.files p fs h2 f (List.mem_of_getElem? h3) (isSpec_exists h4)

/-- The files that are merged. -/
def merging (inp : Input F) (l : List Nat) : List File := l.flatMap fun p => kept (pathOf inp.heap p) (filesOf inp p)

theorem mem_merging (hi : InputOK inp) {roots : List Nat} (hr : inp.load = .ok roots) {g : File} :
    g ∈ merging inp (plan inp.stdpkg inp.heap roots) → ∃ p i d, SpecAt inp p i d ∧ g.doc = mapRefs (Props.newRef (pathOf inp.heap p)) d := by
  intro h
  obtain ⟨p, hp, h⟩ := List.mem_flatMap.1 h
  obtain ⟨f, hf, rfl⟩ := List.mem_map.1 h
  obtain ⟨hf, ho⟩ := List.mem_filter.1 hf
  obtain ⟨i, hi'⟩ := List.getElem?_of_mem hf
  exact ⟨p, i, f.doc, (specAt_iff hi).2 ⟨(visited_plan hi hr p).1 hp, f, hi', rfl, ho⟩, rfl⟩

theorem merging_mem (hi : InputOK inp) {roots : List Nat} (hr : inp.load = .ok roots) {p i : Nat} {d : Json} (h : SpecAt inp p i d) :
    ∃ g ∈ merging inp (plan inp.stdpkg inp.heap roots), g.doc = mapRefs (Props.newRef (pathOf inp.heap p)) d := by
  obtain ⟨h1, f, h2, rfl, h3⟩ := (specAt_iff hi).1 h
  exact ⟨{ f with doc := mapRefs (Props.newRef (pathOf inp.heap p)) f.doc }, List.mem_flatMap.2 ⟨p, (visited_plan hi hr p).2 h1,
    List.mem_map.2 ⟨f, List.mem_filter.2 ⟨List.mem_of_getElem? h2, h3⟩, rfl⟩⟩, rfl⟩

theorem getElem_opt {α : Type} {l : List α} {i : Nat} (h : i < l.length) : l[i]? = some l[i] := List.getElem?_eq_getElem h

/-- The documents can be merged exactly if no two specifications collide. -/
theorem merging_apart (hi : InputOK inp) {roots : List Nat} (hr : inp.load = .ok roots) :
    ((merging inp (plan inp.stdpkg inp.heap roots)).Pairwise fun x y => ¬ Collide x.doc y.doc) ↔
    ∀ p i d p' i' d', SpecAt inp p i d → SpecAt inp p' i' d' → Collide d d' → p = p' ∧ i = i' := by
  have hnd := plan_nodup (std := inp.stdpkg) (hi.graph roots hr)
  unfold merging
  rw [List.pairwise_flatMap]
  simp only [kept, List.pairwise_map, List.pairwise_filter, collide_mapRefs]
  constructor
  · rintro ⟨h1, h2⟩ p i d p' i' d' ha hb hc
    obtain ⟨va, f, fa, rfl, oa⟩ := (specAt_iff hi).1 ha
    obtain ⟨vb, g, fb, rfl, ob⟩ := (specAt_iff hi).1 hb
    have va := (visited_plan hi hr p).2 va
    have vb := (visited_plan hi hr p').2 vb
    have key : ∀ (a b : Nat), a ∈ plan inp.stdpkg inp.heap roots → b ∈ plan inp.stdpkg inp.heap roots → a ≠ b →
        ∀ f g, f ∈ filesOf inp a → g ∈ filesOf inp b → existsP f.doc b!"openapi" = true → existsP g.doc b!"openapi" = true → ¬ Collide f.doc g.doc := by
      intro a b ha hb hab f g hf hg of og hc
      have hsym : ∀ x y, (∀ f ∈ filesOf inp x, ∀ g ∈ filesOf inp y, existsP f.doc b!"openapi" = true →
          existsP g.doc b!"openapi" = true → ¬ Collide f.doc g.doc) → ∀ f ∈ filesOf inp y, ∀ g ∈ filesOf inp x, existsP f.doc b!"openapi" = true →
          existsP g.doc b!"openapi" = true → ¬ Collide f.doc g.doc :=
        fun x y h f hf g hg of og hc => h g hg f hf og of (collide_symm hc)
      have h2' : (plan inp.stdpkg inp.heap roots).Pairwise fun a₁ a₂ => ∀ f ∈ filesOf inp a₁, ∀ g ∈ filesOf inp a₂, existsP f.doc b!"openapi" = true →
          existsP g.doc b!"openapi" = true → ¬ Collide f.doc g.doc := by
        refine h2.imp ?_
        intro x y h f hf g hg of og hc
        exact h _ (List.mem_map.2 ⟨f, List.mem_filter.2 ⟨hf, of⟩, rfl⟩) _ (List.mem_map.2 ⟨g, List.mem_filter.2 ⟨hg, og⟩, rfl⟩)
          ((collide_mapRefs _ _ _ _).2 hc)
      rw [List.pairwise_iff_getElem] at h2'
      obtain ⟨i, hi1, rfl⟩ := List.getElem_of_mem ha
      obtain ⟨j, hj1, rfl⟩ := List.getElem_of_mem hb
      rcases Nat.lt_trichotomy i j with h | rfl | h
      · exact h2' i j hi1 hj1 h f hf g hg of og hc
      · exact hab rfl
      · exact hsym _ _ (h2' j i hj1 hi1 h) f hf g hg of og hc
    by_cases hpp : p = p'
    · subst hpp
      refine ⟨rfl, ?_⟩
      have hp := List.pairwise_iff_getElem.1 (h1 p va)
      obtain ⟨la, ea⟩ := List.getElem?_eq_some_iff.1 fa
      obtain ⟨lb, eb⟩ := List.getElem?_eq_some_iff.1 fb
      rcases Nat.lt_trichotomy i i' with h | h | h
      · exact absurd hc (by have := hp i i' la lb h; rw [ea, eb] at this; exact this oa ob)
      · exact h
      · exact absurd (collide_symm hc) (by have := hp i' i lb la h; rw [ea, eb] at this; exact this ob oa)
    · exact absurd hc (key p p' va vb hpp f g (List.mem_of_getElem? fa) (List.mem_of_getElem? fb) oa ob)
  · intro h
    refine ⟨?_, ?_⟩
    · intro p hp
      rw [List.pairwise_iff_getElem]
      intro i j hi' hj hij oi oj hc
      have := (h p i _ p j _ ((specAt_iff hi).2 ⟨(visited_plan hi hr p).1 hp, _, getElem_opt hi', rfl, oi⟩)
        ((specAt_iff hi).2 ⟨(visited_plan hi hr p).1 hp, _, getElem_opt hj, rfl, oj⟩) hc).2
      omega
    · refine List.Pairwise.imp_of_mem ?_ hnd
      intro a b ha hb hab x hx y hy hc
      obtain ⟨f, hf, rfl⟩ := List.mem_map.1 hx
      obtain ⟨g, hg, rfl⟩ := List.mem_map.1 hy
      obtain ⟨hf, of⟩ := List.mem_filter.1 hf
      obtain ⟨hg, og⟩ := List.mem_filter.1 hg
      obtain ⟨i, hi'⟩ := List.getElem?_of_mem hf
      obtain ⟨j, hj⟩ := List.getElem?_of_mem hg
      exact hab (h a i _ b j _ ((specAt_iff hi).2 ⟨(visited_plan hi hr a).1 ha, _, hi', rfl, of⟩)
        ((specAt_iff hi).2 ⟨(visited_plan hi hr b).1 hb, _, hj, rfl, og⟩) ((collide_mapRefs _ _ _ _).1 hc)).1

/-! ### The commands -/

/-- The `i`-th command in the comments of the scanned package `p` exports pointer `ptr` under a name. -/
def CommandNo (inp : Input F) (p i : Nat) (name : Str) (ptr : Pointer) : Prop :=
  Visited inp p ∧ ∃ (cs : List Cmds.Cmd) (args : List Str), Cmds.scan (pathOf inp.heap p) (inp.comments p) = .ok cs ∧ cs[i]? = some (.schema args name ptr)

/-- Pointer `ptr` is asked for: by a command, or by a reference in a specification. -/
def AskedNo (inp : Input F) (ptr : Pointer) : Prop :=
  (∃ p i name, CommandNo inp p i name ptr) ∨
  ∃ p i d x, SpecAt inp p i d ∧ HasRef d x ∧ Means (pathOf inp.heap p) x ptr

/-- The object `name` of type `t` that the scanned package of path `pkg` declares is asked for, or a part of it. -/
def ObjectNo (inp : Input F) (pkg name : Str) (t : GoType) : Prop :=
  (∃ p, Visited inp p ∧ pathOf inp.heap p = pkg) ∧
  (∃ ptr, AskedNo inp ptr ∧ ptr.url.scheme = b!"go" ∧ ptr.pkgPath = pkg ∧ ptr.fragment.head? = some name) ∧
  inp.prog.scope pkg name = some t

theorem cmdsOf_eq {p : Nat} {cs : List Cmds.Cmd} (h : Cmds.scan (pathOf inp.heap p) (inp.comments p) = .ok cs) : cmdsOf inp p = cs := by
  simp [cmdsOf, h]

theorem cmdsOf_ok {p : Nat} {c : Cmds.Cmd} (h : c ∈ cmdsOf inp p) : Cmds.scan (pathOf inp.heap p) (inp.comments p) = .ok (cmdsOf inp p) := by
  unfold cmdsOf at h ⊢
  split at h
  · rename_i cs e; rw [e]
  · cases h

theorem commandNo_iff {p i : Nat} {name : Str} {ptr : Pointer} : CommandNo inp p i name ptr ↔
    Visited inp p ∧ ∃ args, (cmdsOf inp p)[i]? = some (.schema args name ptr) := by
  constructor
  · rintro ⟨h1, cs, args, h2, h3⟩
    exact ⟨h1, args, by rw [cmdsOf_eq h2]; exact h3⟩
  · rintro ⟨h1, args, h3⟩
    exact ⟨h1, _, args, cmdsOf_ok (List.mem_of_getElem? h3), h3⟩

/-- The commands of all packages. -/
def allCmds (inp : Input F) (l : List Nat) : List (Str × List Cmds.Cmd) := l.map fun p => (pathOf inp.heap p, cmdsOf inp p)

theorem schemaPtrs_mem {cs : List Cmds.Cmd} {name : Str} {ptr : Pointer} : (name, ptr) ∈ schemaPtrs cs ↔ ∃ args, .schema args name ptr ∈ cs := by
  unfold schemaPtrs
  rw [List.mem_filterMap]
  constructor
  · rintro ⟨c, hc, h⟩
    cases c with
    | root _ => cases h
    | schema a n p => cases h; exact ⟨a, hc⟩
  · rintro ⟨a, h⟩; exact ⟨_, h, rfl⟩

theorem allSchemas_allCmds (l : List Nat) : Props.allSchemas (allCmds inp l) = l.flatMap fun p => schemaPtrs (cmdsOf inp p) := by
  unfold Props.allSchemas allCmds schemaPtrs
  induction l with
  | nil => rfl
  | cons a t ih => simp only [List.map_cons, List.flatMap_cons, List.filterMap_append]; rw [ih]

theorem allSchemas_perm {a b : List (Str × List Cmds.Cmd)} (h : a.Perm b) : (Props.allSchemas a).Perm (Props.allSchemas b) :=
  (h.flatMap_right _).filterMap _

/-- Two commands that export pointers of the same text. -/
def SamePtr (a b : Cmds.Cmd) : Prop := ∃ x n p y m q, a = .schema x n p ∧ b = .schema y m q ∧ p.toStr = q.toStr

theorem samePtr_symm {a b : Cmds.Cmd} (h : SamePtr a b) : SamePtr b a := by
  obtain ⟨x, n, p, y, m, q, h1, h2, h3⟩ := h
  exact ⟨y, m, q, x, n, p, h2, h1, h3.symm⟩

theorem schemas_nodup (cs : List Cmds.Cmd) : (((schemaPtrs cs).map fun t => t.2.toStr).Nodup) ↔ cs.Pairwise fun a b => ¬ SamePtr a b := by
  unfold List.Nodup schemaPtrs
  rw [List.pairwise_map, List.pairwise_filterMap]
  constructor
  · intro h
    refine h.imp ?_
    rintro a b h ⟨x, n, p, y, m, q, rfl, rfl, e⟩
    exact h (n, p) rfl (m, q) rfl e
  · intro h
    refine h.imp ?_
    intro a b h s hs t ht e
    cases a with
    | root _ => cases hs
    | schema x n p =>
      cases b with
      | root _ => cases ht
      | schema y m q => cases hs; cases ht; exact h ⟨x, n, p, y, m, q, rfl, rfl, e⟩

theorem pairwise_places {α : Type} {R : α → α → Prop} (hs : ∀ a b, R a b → R b a) (l : List Nat) (hl : l.Nodup) (f : Nat → List α) :
    ((l.flatMap f).Pairwise fun a b => ¬ R a b) ↔
    ∀ p ∈ l, ∀ q ∈ l, ∀ (i j : Nat) a b, (f p)[i]? = some a → (f q)[j]? = some b → R a b → p = q ∧ i = j := by
  rw [List.pairwise_flatMap]
  constructor
  · rintro ⟨h1, h2⟩ p hp q hq i j a b ha hb hr
    by_cases hpq : p = q
    · subst hpq
      refine ⟨rfl, ?_⟩
      have h1 := List.pairwise_iff_getElem.1 (h1 p hp)
      obtain ⟨la, ea⟩ := List.getElem?_eq_some_iff.1 ha
      obtain ⟨lb, eb⟩ := List.getElem?_eq_some_iff.1 hb
      rcases Nat.lt_trichotomy i j with h | h | h
      · exact absurd hr (by have := h1 i j la lb h; rwa [ea, eb] at this)
      · exact h
      · exact absurd (hs _ _ hr) (by have := h1 j i lb la h; rwa [ea, eb] at this)
    · exfalso
      rw [List.pairwise_iff_getElem] at h2
      obtain ⟨x, hx, rfl⟩ := List.getElem_of_mem hp
      obtain ⟨y, hy, rfl⟩ := List.getElem_of_mem hq
      rcases Nat.lt_trichotomy x y with h | rfl | h
      · exact h2 x y hx hy h a (List.mem_of_getElem? ha) b (List.mem_of_getElem? hb) hr
      · exact hpq rfl
      · exact h2 y x hy hx h b (List.mem_of_getElem? hb) a (List.mem_of_getElem? ha) (hs _ _ hr)
  · intro h
    refine ⟨?_, ?_⟩
    · intro p hp
      rw [List.pairwise_iff_getElem]
      intro i j hi' hj hij hr
      have := (h p hp p hp i j _ _ (getElem_opt hi') (getElem_opt hj) hr).2
      omega
    · refine List.Pairwise.imp_of_mem ?_ hl
      intro p q hp hq hpq a ha b hb hr
      obtain ⟨i, hi'⟩ := List.getElem?_of_mem ha
      obtain ⟨j, hj⟩ := List.getElem?_of_mem hb
      exact hpq (h p hp q hq i j a b hi' hj hr).1

theorem exports_iff (hi : InputOK inp) {roots : List Nat} (hr : inp.load = .ok roots) {l : List (Str × List Cmds.Cmd)}
    (hl : l.Perm (allCmds inp (plan inp.stdpkg inp.heap roots))) :
    ((∃ e, Cmds.exportedComponents l = .ok e) ↔
      ∀ p i n ptr p' i' n' ptr', CommandNo inp p i n ptr → CommandNo inp p' i' n' ptr' → ptr.toStr = ptr'.toStr → p = p' ∧ i = i') ∧
    ∀ e, Cmds.exportedComponents l = .ok e → ∀ x : Resolver.Export, x ∈ e ↔ x.kind = .schema ∧ ∃ p i, CommandNo inp p i x.name x.ptr := by
  have hnd := plan_nodup (std := inp.stdpkg) (hi.graph roots hr)
  have hperm := allSchemas_perm hl
  have hN : ((Props.allSchemas l).map fun t => t.2.toStr).Nodup ↔
      ∀ p i n ptr p' i' n' ptr', CommandNo inp p i n ptr → CommandNo inp p' i' n' ptr' → ptr.toStr = ptr'.toStr → p = p' ∧ i = i' := by
    rw [(hperm.map _).nodup_iff]
    have e : Props.allSchemas (allCmds inp (plan inp.stdpkg inp.heap roots)) =
        schemaPtrs ((plan inp.stdpkg inp.heap roots).flatMap (cmdsOf inp)) := by
      unfold Props.allSchemas allCmds
      rw [List.flatMap_map]
    rw [e, schemas_nodup, pairwise_places (fun a b => samePtr_symm) _ hnd]
    constructor
    · intro h p i n ptr p' i' n' ptr' ha hb e
      obtain ⟨va, x, ha⟩ := commandNo_iff.1 ha
      obtain ⟨vb, y, hb⟩ := commandNo_iff.1 hb
      exact h p ((visited_plan hi hr p).2 va) p' ((visited_plan hi hr p').2 vb) i i' _ _ ha hb ⟨x, n, ptr, y, n', ptr', rfl, rfl, e⟩
    · rintro h p hp q hq i j a b ha hb ⟨x, n, ptr, y, n', ptr', rfl, rfl, e⟩
      exact h p i n ptr q j n' ptr' (commandNo_iff.2 ⟨(visited_plan hi hr p).1 hp, x, ha⟩) (commandNo_iff.2 ⟨(visited_plan hi hr q).1 hq, y, hb⟩) e
  rw [Props.exportedComponents_eq]
  refine ⟨?_, ?_⟩
  · rw [← hN]
    constructor
    · rintro ⟨e, h⟩
      by_cases hn : ((Props.allSchemas l).map fun t => t.2.toStr).Nodup
      · exact hn
      · rw [if_neg hn] at h; cases h
    · intro hn; rw [if_pos hn]; exact ⟨_, rfl⟩
  · intro e h x
    by_cases hn : ((Props.allSchemas l).map fun t => t.2.toStr).Nodup
    · rw [if_pos hn] at h
      cases h
      rw [List.mem_map]
      constructor
      · rintro ⟨⟨n, ptr⟩, hm, rfl⟩
        refine ⟨rfl, ?_⟩
        rw [hperm.mem_iff, allSchemas_allCmds, List.mem_flatMap] at hm
        obtain ⟨p, hp, hm⟩ := hm
        obtain ⟨args, hm⟩ := schemaPtrs_mem.1 hm
        obtain ⟨i, hi'⟩ := List.getElem?_of_mem hm
        exact ⟨p, i, commandNo_iff.2 ⟨(visited_plan hi hr p).1 hp, args, hi'⟩⟩
      · rintro ⟨hk, p, i, h⟩
        obtain ⟨hv, args, hc⟩ := commandNo_iff.1 h
        refine ⟨(x.name, x.ptr), ?_, by cases x; simp only at hk; subst hk; rfl⟩
        rw [hperm.mem_iff, allSchemas_allCmds, List.mem_flatMap]
        exact ⟨p, (visited_plan hi hr p).2 hv, schemaPtrs_mem.2 ⟨args, List.mem_of_getElem? hc⟩⟩
    · rw [if_neg hn] at h; cases h

/-! ### The objects asked for -/

theorem means_iff {pkg x : Str} (hp : ∀ c ∈ pkg, ImportByte c) {ptr : Pointer} : Means pkg x ptr ↔ Specs.rewriteRef pkg x = .ok ptr := by
  have hq : ∃ q, Pointer.parse (b!"go://" ++ pkg ++ b!"#/") = .ok q := by
    by_cases hne : pkg = []
    · subst hne; exact ⟨Pointer.parseLoose b!"go://#/", by decide⟩
    · obtain ⟨q, h1, _⟩ := Pointer.parse_go (f := [[]]) hne hp (by decide)
      exact ⟨q, by rw [← h1]; congr 1⟩
  obtain ⟨q, hq⟩ := hq
  have hloose : Pointer.newGoLoose pkg [] = q := by
    unfold Pointer.newGoLoose Pointer.parseLoose
    rcases Pointer.parse_inv hq with ⟨hx, _⟩ | ⟨ha, hb, hP, hf⟩
    · simp at hx
    · rw [List.append_nil, if_neg (by simp [ha, hb]), hP]
      simp only [hf]
  constructor
  · intro h
    cases h with
    | here h1 h2 h3 h4 =>
      rw [hq] at h4; cases h4
      simp [Specs.rewriteRef, h1, h2, h3, hloose]
    | other h1 h2 => simp [Specs.rewriteRef, h1, h2]
  · intro h
    unfold Specs.rewriteRef at h
    cases hx : Pointer.parse x with
    | err e => rw [hx] at h; cases h
    | panic => rw [hx] at h; cases h
    | ok p =>
      rw [hx] at h
      simp only at h
      split at h
      · rename_i hl
        cases h
        rw [hloose]
        exact .here hx hl.1 hl.2 hq
      · rename_i hl
        cases h
        exact .other hx hl

/-- The pointers that are looked for in the types are those asked for, up to their texts. -/
theorem pointers_asked (hi : InputOK inp) {roots : List Nat} (hr : inp.load = .ok roots) {cs : List (Str × List Cmds.Cmd)}
    (hcs : cs.Perm (allCmds inp (plan inp.stdpkg inp.heap roots))) {ps : Pointers} (hps : PtrOK ps)
    (hk : ∀ k, (∃ p, Pointers.get k ps = some p) ↔
        ∃ p ∈ plan inp.stdpkg inp.heap roots, ∃ f ∈ filesOf inp p, existsP f.doc b!"openapi" = true ∧ ∃ x, HasRef f.doc x ∧ Props.newRef (pathOf inp.heap p) x = k)
    (hrd : ∀ p i d x, SpecAt inp p i d → HasRef d x → ∃ ptr, Pointer.parse x = .ok ptr) :
    PtrOK (Pointers.merge (Pointers.merge [] (Cmds.mapPointers cs [])) ps) ∧
    ∀ k, (∃ p, Pointers.get k (Pointers.merge (Pointers.merge [] (Cmds.mapPointers cs [])) ps) = some p) ↔ ∃ ptr, AskedNo inp ptr ∧ ptr.toStr = k := by
  have hcp : PtrOK (Cmds.mapPointers cs []) := by
    refine mapPointers_ok fun pkg l args name p hm hs => ?_
    obtain ⟨q, hq, e⟩ := List.mem_map.1 (hcs.mem_iff.1 hm)
    cases e
    exact hi.commands q _ (cmdsOf_ok hs) args name p hs
  have hm := merge_ok (merge_ok .nil hcp) hps
  refine ⟨hm, ?_⟩
  have hcmd : ∀ k, (∃ p, Pointers.get k (Cmds.mapPointers cs []) = some p) ↔ ∃ p i name ptr, CommandNo inp p i name ptr ∧ ptr.toStr = k := by
    intro k
    constructor
    · rintro ⟨q, hq⟩
      obtain ⟨rfl, pkg, l, hm, args, name, hc⟩ := (Props.C48_pointers cs k).1 q hq
      obtain ⟨p, hp, e⟩ := List.mem_map.1 (hcs.mem_iff.1 hm)
      cases e
      obtain ⟨i, hi'⟩ := List.getElem?_of_mem hc
      exact ⟨p, i, name, q, commandNo_iff.2 ⟨(visited_plan hi hr p).1 hp, args, hi'⟩, rfl⟩
    · rintro ⟨p, i, name, ptr, h, rfl⟩
      obtain ⟨hv, args, hc⟩ := commandNo_iff.1 h
      obtain ⟨q, hq, _⟩ := (Props.C48_pointers cs ptr.toStr).2 (pathOf inp.heap p) (cmdsOf inp p) args name ptr
        (hcs.mem_iff.2 (List.mem_map.2 ⟨p, (visited_plan hi hr p).2 hv, rfl⟩)) (List.mem_of_getElem? hc)
      exact ⟨q, hq⟩
  have hsp : ∀ k, (∃ p, Pointers.get k ps = some p) ↔
      ∃ ptr p i d x, SpecAt inp p i d ∧ HasRef d x ∧ Specs.rewriteRef (pathOf inp.heap p) x = .ok ptr ∧ ptr.toStr = k := by
    intro k
    rw [hk]
    constructor
    · rintro ⟨p, hp, f, hf, of, x, hx, rfl⟩
      obtain ⟨i, hi'⟩ := List.getElem?_of_mem hf
      have hs : SpecAt inp p i f.doc := (specAt_iff hi).2 ⟨(visited_plan hi hr p).1 hp, f, hi', rfl, of⟩
      obtain ⟨q, hq⟩ := hrd p i f.doc x hs hx
      obtain ⟨ptr, hptr⟩ : ∃ ptr, Specs.rewriteRef (pathOf inp.heap p) x = .ok ptr := by
        unfold Specs.rewriteRef; rw [hq]; simp only; split <;> exact ⟨_, rfl⟩
      exact ⟨ptr, p, i, f.doc, x, hs, hx, hptr, by simp [Props.newRef, hptr]⟩
    · rintro ⟨ptr, p, i, d, x, hs, hx, hptr, rfl⟩
      obtain ⟨hv, f, hf, rfl, of⟩ := (specAt_iff hi).1 hs
      exact ⟨p, (visited_plan hi hr p).2 hv, f, List.mem_of_getElem? hf, of, x, hx, by simp [Props.newRef, hptr]⟩
  intro k
  have hget : (∃ p, Pointers.get k (Pointers.merge (Pointers.merge [] (Cmds.mapPointers cs [])) ps) = some p) ↔
      (∃ p, Pointers.get k (Cmds.mapPointers cs []) = some p) ∨ ∃ p, Pointers.get k ps = some p := by
    unfold Pointers.merge
    rw [Pointers.get_copyInto _ _ _ hps.nodup, Pointers.get_copyInto _ _ _ (copyInto_nodup _ _ (copyInto_nodup _ _ (by simp [Pointers.copyInto]))),
      Pointers.get_copyInto _ _ _ hcp.nodup]
    cases Pointers.get k ps <;> cases Pointers.get k (Cmds.mapPointers cs []) <;> simp [Pointers.copyInto, Pointers.get]
  rw [hget, hcmd, hsp]
  constructor
  · rintro (⟨p, i, name, ptr, h, e⟩ | ⟨ptr, p, i, d, x, h1, h2, h3, e⟩)
    · exact ⟨ptr, .inl ⟨p, i, name, h⟩, e⟩
    · exact ⟨ptr, .inr ⟨p, i, d, x, h1, h2, (means_iff (path_bytes hi p)).2 h3⟩, e⟩
  · rintro ⟨ptr, ⟨p, i, name, h⟩ | ⟨p, i, d, x, h1, h2, h3⟩, e⟩
    · exact .inl ⟨p, i, name, ptr, h, e⟩
    · exact .inr ⟨ptr, p, i, d, x, h1, h2, (means_iff (path_bytes hi p)).1 h3, e⟩

theorem asked_plain (hi : InputOK inp) {ptr : Pointer} (h : AskedNo inp ptr) : PlainPointer ptr := by
  rcases h with ⟨p, i, name, h⟩ | ⟨p, i, d, x, h1, h2, h3⟩
  · obtain ⟨_, args, hc⟩ := commandNo_iff.1 h
    have hm := List.mem_of_getElem? hc
    exact hi.commands p _ (cmdsOf_ok hm) args name ptr hm
  · exact plain_rewrite (path_bytes hi p) ((specAt_ok hi h1).refs x h2) ((means_iff (path_bytes hi p)).1 h3)

/-- The scan for types is asked for exactly the objects asked for. -/
theorem requested_iff (hi : InputOK inp) (ho : OrdersOK inp o) {roots : List Nat} (hr : inp.load = .ok roots) {pp : Pointers} (hp : PtrOK pp)
    (hk : ∀ k, (∃ p, Pointers.get k pp = some p) ↔ ∃ ptr, AskedNo inp ptr ∧ ptr.toStr = k) {pkg name : Str} {t : GoType} :
    Requested inp.prog (runsOf inp o pp (plan inp.stdpkg inp.heap roots)) pkg name t ↔ ObjectNo inp pkg name t := by
  constructor
  · rintro ⟨ptrs, h1, ptr, h2, h3, h4, h5, h6⟩
    obtain ⟨p, hpl, e⟩ := List.mem_map.1 h1
    cases e
    obtain ⟨⟨k, ptr'⟩, h7, e⟩ := List.mem_map.1 h2
    change ptr' = ptr at e
    subst e
    have h7 := (ho.pointers p pp).mem_iff.1 h7
    obtain ⟨hk1, x, p₀, f, hx, hx2, hx3⟩ := hp.ok k ptr' h7
    obtain ⟨q, hq, hqk⟩ := (hk k).1 ⟨ptr', (Pointers.get_eq_some hp.nodup).2 h7⟩
    obtain ⟨y, q₀, g, hy, hy2, hy3⟩ := asked_plain hi hq
    have hsame := Props.C07_equal_strings_same_target x y hx hy p₀ q₀ f g hx2 hy2 (by rw [← hx3, ← hy3, hk1, hqk])
    rw [← hx3, ← hy3] at hsame
    exact ⟨⟨p, (visited_plan hi hr p).1 hpl, rfl⟩, ⟨q, hq, by rw [← hsame.1.1]; exact h3, by rw [← hsame.2]; exact h4,
      by rw [← hsame.1.2.2.2.2.2.2.2]; exact h5⟩, h6⟩
  · rintro ⟨⟨p, hv, rfl⟩, ⟨q, hq, h3, h4, h5⟩, h6⟩
    obtain ⟨ptr, hptr⟩ := (hk q.toStr).2 ⟨q, hq, rfl⟩
    obtain ⟨hk1, x, p₀, f, hx, hx2, hx3⟩ := hp.get hptr
    obtain ⟨y, q₀, g, hy, hy2, hy3⟩ := asked_plain hi hq
    have hsame := Props.C07_equal_strings_same_target x y hx hy p₀ q₀ f g hx2 hy2 (by rw [← hx3, ← hy3, hk1])
    rw [← hx3, ← hy3] at hsame
    refine ⟨_, List.mem_map_of_mem (f := fun p => (pathOf inp.heap p, (o.pointers p pp).map Prod.snd)) ((visited_plan hi hr p).2 hv), ptr, ?_, ?_, ?_, ?_, h6⟩
    · exact List.mem_map.2 ⟨(q.toStr, ptr), (ho.pointers p pp).mem_iff.2 ((Pointers.get_eq_some hp.nodup).1 hptr), rfl⟩
    · rw [hsame.1.1]; exact h3
    · rw [hsame.2]; exact h4
    · rw [hsame.1.2.2.2.2.2.2.2]; exact h5

end Oapi.Scan
