import Verif.Proofs.GoHeap1

/-! gabs `Set` in memory does what the value-level model says. -/
namespace Oapi.GoHeap

/-- From `h` to `h'` only addresses in `F` and new ones have changed. -/
structure Changes (F : List Nat) (h h' : Mem) : Prop where
  le : h.length ≤ h'.length
  same : ∀ a, a < h.length → a ∉ F → h'[a]? = h[a]?

theorem Changes.refl (F : List Nat) (h : Mem) : Changes F h h := ⟨Nat.le_refl _, fun _ _ _ => rfl⟩

theorem Changes.mono {F F' : List Nat} {h h' : Mem} (c : Changes F h h') (hs : ∀ a ∈ F, a < h.length → a ∈ F') : Changes F' h h' :=
  ⟨c.le, fun a ha hn => c.same a ha fun hf => hn (hs a hf ha)⟩

theorem Changes.trans {F : List Nat} {h h' h'' : Mem} (c : Changes F h h') {F' : List Nat} (c' : Changes F' h' h'') (hs : ∀ a ∈ F', a < h.length → a ∈ F) :
    Changes F h h'' :=
  ⟨Nat.le_trans c.le c'.le, fun a ha hn => (c'.same a (Nat.lt_of_lt_of_le ha c.le) fun hf => hn (hs a hf ha)).trans (c.same a ha hn)⟩

theorem set_other {F : List Nat} {a b : Nat} (h : Mem) (n : Node) (hb : b ∈ F) (ha : a ∉ F) : (h.set a n)[b]? = h[b]? :=
  List.getElem?_set_ne (by rintro rfl; exact ha hb)

theorem Changes.set {F : List Nat} {a : Nat} (h : Mem) (n : Node) (ha : a ∈ F) : Changes F h (h.set a n) :=
  ⟨by simp, fun b _ hn => List.getElem?_set_ne (by rintro rfl; exact hn ha)⟩

theorem Changes.grow (F : List Nat) (h : Mem) (n : Mem) : Changes F h (h ++ n) :=
  ⟨by simp, fun b hb _ => List.getElem?_append_left hb⟩

theorem Changes.frame {F : List Nat} {h h' : Mem} (c : Changes F h h') {j : Json} {v : Val} {G : List Nat} (hr : Rep h j v G) (hd : ∀ a ∈ G, a ∉ F) : Rep h' j v G :=
  rep_frame j v G hr fun a ha => c.same a (rep_lt j v G hr a ha) (hd a ha)

theorem mapAt_of {h : Mem} {a : Nat} {m : GoMap} (e : h[a]? = some (.map m)) : h.mapAt a = m := by simp [Mem.mapAt, e]
theorem arrAt_of {h : Mem} {a : Nat} {xs : List Val} (e : h[a]? = some (.arr xs)) : h.arrAt a = xs := by simp [Mem.arrAt, e]

theorem getElem?_set_self' {h : Mem} {a : Nat} (n : Node) (ha : a < h.length) : (h.set a n)[a]? = some n := by simp [ha]

/-- A new empty map. -/
theorem rep_new (h : Mem) : Rep (h ++ [.map []]) (.obj []) (.map h.length) [h.length] :=
  ⟨trivial, h.length, [], [], rfl, by simp, ⟨rfl, rfl⟩, by simp, rfl⟩

theorem fill_rep {h : Mem} {oj : Option Json} {ov : Option Val} {A : List Nat} (hr : RepC h oj ov A) :
    ∃ C, Rep (fill ov h).1 (Gabs.fill oj) (fill ov h).2 C ∧ Changes [] h (fill ov h).1 ∧ (∀ a ∈ C, a ∈ A ∨ h.length ≤ a) := by
  have hnew : ∃ C, Rep (h ++ [.map []]) (.obj []) (.map h.length) C ∧ Changes [] h (h ++ [.map []]) ∧ (∀ a ∈ C, a ∈ A ∨ h.length ≤ a) :=
    ⟨[h.length], rep_new h, Changes.grow _ _ _, by simp⟩
  unfold RepC at hr
  split at hr
  · rename_i j v
    have hkeep : ∃ C, Rep h j v C ∧ Changes [] h h ∧ ∀ a ∈ C, a ∈ A ∨ h.length ≤ a := ⟨A, hr, Changes.refl _ _, fun a ha => .inl ha⟩
    cases j with
    | null =>
      obtain ⟨rfl, rfl⟩ := hr
      exact hnew
    | bool b => obtain ⟨rfl, rfl⟩ := hr; exact hkeep
    | num b => obtain ⟨rfl, rfl⟩ := hr; exact hkeep
    | str b => obtain ⟨rfl, rfl⟩ := hr; exact hkeep
    | arr xs =>
      obtain ⟨a, len, bs, G, rfl, -⟩ := hr
      exact hkeep
    | obj m =>
      obtain ⟨-, a, kvs, G, rfl, -⟩ := hr
      exact hkeep
  · exact hnew
  · exact hr.elim

/-- Writing a member of a map. -/
theorem write_member {h h2 : Mem} {a : Nat} {kvs : GoMap} {m : Obj} {G A A' C : List Nat} {k : Str} {j' : Json} {v' : Val}
    (hm : Obj.Sorted m) (he : h[a]? = some (.map kvs)) (ha : a ∉ G) (hsub : ∀ b ∈ A, b ∈ G) (hG : ∀ b ∈ G, b < h.length)
    (hput : ∀ {h' : Mem} {j' : Json} {v' : Val} {A' : List Nat}, Rep h' j' v' A' → (∀ a ∈ G, a ∉ A → h'[a]? = h[a]?) → (∀ a ∈ G, a ∉ A → a ∉ A') →
        ∃ F', RepO h' (Obj.insert k j' m) (put k v' kvs) F' ∧ ∀ a, a ∈ F' ↔ (a ∈ G ∧ a ∉ A) ∨ a ∈ A')
    (hc : Changes C h h2) (hC : ∀ b ∈ C, b ∈ A ∨ h.length ≤ b) (hr : Rep h2 j' v' A') (haA : a ∉ A') (hdis : ∀ b ∈ G, b ∉ A → b ∉ A') :
    ∃ F', Rep (h2.set a (.map (put k v' (h2.mapAt a)))) (.obj (Obj.insert k j' m)) (.map a) F' ∧
      Changes (a :: G) h (h2.set a (.map (put k v' (h2.mapAt a)))) ∧ ∀ b, b ∈ F' ↔ b = a ∨ (b ∈ G ∧ b ∉ A) ∨ b ∈ A' := by
  have hlt : a < h.length := (List.getElem?_eq_some_iff.1 he).1
  have haC : a ∉ C := fun hx => by
    rcases hC a hx with hx | hx
    · exact ha (hsub a hx)
    · omega
  have he2 : h2[a]? = some (.map kvs) := by rw [hc.same a hlt haC, he]
  rw [mapAt_of he2]
  have hr3 : Rep (h2.set a (.map (put k v' kvs))) j' v' A' :=
    rep_frame _ _ _ hr fun b hb => set_other _ _ hb haA
  obtain ⟨F', h1, h2'⟩ := hput hr3 (fun b hb hn => by
    rw [set_other _ _ hb ha]
    refine hc.same b (hG b hb) fun hx => ?_
    rcases hC b hx with hx | hx
    · exact hn hx
    · exact absurd (hG b hb) (by omega)) hdis
  have haF : a ∉ F' := fun hx => by
    rcases (h2' a).1 hx with hx | hx
    · exact ha hx.1
    · exact haA hx
  refine ⟨a :: F', ⟨Obj.insert_sorted k j' m hm, a, put k v' kvs, F', rfl, getElem?_set_self' _ (Nat.lt_of_lt_of_le hlt hc.le), h1, haF, rfl⟩, ?_, ?_⟩
  · refine (hc.mono (F' := a :: G) ?_).trans (Changes.set (F := [a]) h2 _ (by simp)) ?_
    · intro b hb hlt
      rcases hC b hb with hb | hb
      · exact List.mem_cons_of_mem _ (hsub b hb)
      · omega
    · simp
  · intro b
    rw [List.mem_cons, h2']

/-- Writing an element of a slice. -/
theorem write_elem {h h2 : Mem} {a len : Nat} {bs : List Val} {xs : List Json} {G A A' C : List Nat} {i : Nat} {j' : Json} {v' : Val}
    (he : h[a]? = some (.arr bs)) (hlen : len ≤ bs.length) (hi : i < xs.length) (hl : (bs.take len).length = xs.length) (ha : a ∉ G)
    (hsub : ∀ b ∈ A, b ∈ G) (hG : ∀ b ∈ G, b < h.length)
    (hput : ∀ {h' : Mem} {j' : Json} {v' : Val} {A' : List Nat}, i < xs.length → Rep h' j' v' A' → (∀ a ∈ G, a ∉ A → h'[a]? = h[a]?) → (∀ a ∈ G, a ∉ A → a ∉ A') →
        ∃ F', RepL h' (xs.set i j') ((bs.take len).set i v') F' ∧ ∀ a, a ∈ F' ↔ (a ∈ G ∧ a ∉ A) ∨ a ∈ A')
    (hc : Changes C h h2) (hC : ∀ b ∈ C, b ∈ A ∨ h.length ≤ b) (hr : Rep h2 j' v' A') (haA : a ∉ A') (hdis : ∀ b ∈ G, b ∉ A → b ∉ A') :
    ∃ F', Rep (h2.set a (.arr ((h2.arrAt a).set i v'))) (.arr (xs.set i j')) (.slice a len) F' ∧
      Changes (a :: G) h (h2.set a (.arr ((h2.arrAt a).set i v'))) ∧ ∀ b, b ∈ F' ↔ b = a ∨ (b ∈ G ∧ b ∉ A) ∨ b ∈ A' := by
  have hlt : a < h.length := (List.getElem?_eq_some_iff.1 he).1
  have haC : a ∉ C := fun hx => by
    rcases hC a hx with hx | hx
    · exact ha (hsub a hx)
    · omega
  have he2 : h2[a]? = some (.arr bs) := by rw [hc.same a hlt haC, he]
  rw [arrAt_of he2]
  have hr3 : Rep (h2.set a (.arr (bs.set i v'))) j' v' A' :=
    rep_frame _ _ _ hr fun b hb => set_other _ _ hb haA
  obtain ⟨F', h1, h2'⟩ := hput hi hr3 (fun b hb hn => by
    rw [set_other _ _ hb ha]
    refine hc.same b (hG b hb) fun hx => ?_
    rcases hC b hx with hx | hx
    · exact hn hx
    · exact absurd (hG b hb) (by omega)) hdis
  have haF : a ∉ F' := fun hx => by
    rcases (h2' a).1 hx with hx | hx
    · exact ha hx.1
    · exact haA hx
  have htake : (bs.set i v').take len = (bs.take len).set i v' := by rw [List.take_set]
  refine ⟨a :: F', ⟨a, len, bs.set i v', F', rfl, getElem?_set_self' _ (Nat.lt_of_lt_of_le hlt hc.le), by simpa using hlen, by rw [htake]; exact h1, haF, rfl⟩, ?_, ?_⟩
  · refine (hc.mono (F' := a :: G) ?_).trans (Changes.set (F := [a]) h2 _ (by simp)) ?_
    · intro b hb hlt
      rcases hC b hb with hb | hb
      · exact List.mem_cons_of_mem _ (hsub b hb)
      · omega
    · simp
  · intro b
    rw [List.mem_cons, h2']

/-- Appending to a slice. -/
theorem append_rep (room : Nat) {h h2 : Mem} {a len : Nat} {bs : List Val} {xs : List Json} {G A' : List Nat} {j' : Json} {v' : Val}
    (he : h[a]? = some (.arr bs)) (hlen : len ≤ bs.length) (hL : RepL h xs (bs.take len) G) (ha : a ∉ G)
    (hc : Changes [] h h2) (hr : Rep h2 j' v' A') (haA : a ∉ A') (hdis : ∀ b ∈ G, b ∉ A') :
    ∃ F', Rep (append1 room h2 a len v').1 (.arr (xs ++ [j'])) (append1 room h2 a len v').2 F' ∧
      Changes (a :: G) h (append1 room h2 a len v').1 ∧ ∀ b ∈ F', b = a ∨ b ∈ G ∨ b ∈ A' ∨ h2.length ≤ b := by
  have hlt : a < h.length := (List.getElem?_eq_some_iff.1 he).1
  have hG : ∀ b ∈ G, b < h.length := repL_lt _ _ _ hL
  have he2 : h2[a]? = some (.arr bs) := by rw [hc.same a hlt (by simp), he]
  have hL2 : RepL h2 xs (bs.take len) G := repL_frame _ _ _ hL fun b hb => hc.same b (hG b hb) (by simp)
  obtain ⟨F', h1, h2'⟩ := repL_snoc hr hL2 hdis
  unfold append1 Mem.elems
  rw [arrAt_of he2]
  have haF : a ∉ F' := fun hx => by
    rcases (h2' a).1 hx with hx | hx
    · exact ha hx
    · exact haA hx
  split
  · rename_i hroom
    refine ⟨a :: F', ⟨a, len + 1, bs.set len v', F', rfl, getElem?_set_self' _ (Nat.lt_of_lt_of_le hlt hc.le), by rw [List.length_set]; exact hroom, ?_, haF, rfl⟩, ?_, ?_⟩
    · have : (bs.set len v').take (len + 1) = bs.take len ++ [v'] := by
        rw [List.take_add_one, List.take_set_of_le (Nat.le_refl _)]
        simp [hroom]
      rw [this]
      exact repL_frame _ _ _ h1 fun b hb => set_other _ _ hb haF
    · exact (hc.mono (F' := a :: G) (by simp)).trans (Changes.set (F := [a]) h2 _ (by simp)) (by simp)
    · intro b hb
      rcases List.mem_cons.1 hb with rfl | hb
      · exact .inl rfl
      · rcases (h2' b).1 hb with hb | hb
        · exact .inr (.inl hb)
        · exact .inr (.inr (.inl hb))
  · rename_i hroom
    have hnF : h2.length ∉ F' := fun hx => absurd (repL_lt _ _ _ h1 _ hx) (by omega)
    refine ⟨h2.length :: F', ⟨h2.length, len + 1, bs.take len ++ v' :: List.replicate room .null, F', rfl, by simp, ?_, ?_, hnF, rfl⟩, ?_, ?_⟩
    · simp only [List.length_append, List.length_take, List.length_cons]
      omega
    · have : (bs.take len ++ v' :: List.replicate room .null).take (len + 1) = bs.take len ++ [v'] := by
        have e : (bs.take len).length = len := by simp [hlen]
        rw [List.take_append, e, List.take_of_length_le (by omega)]
        simp
      rw [this]
      exact repL_frame _ _ _ h1 fun b hb => List.getElem?_append_left (repL_lt _ _ _ h1 b hb)
    · exact (hc.mono (F' := a :: G) (by simp)).trans (Changes.grow [] h2 _) (by simp)
    · intro b hb
      rcases List.mem_cons.1 hb with rfl | hb
      · exact .inr (.inr (.inr (Nat.le_refl _)))
      · rcases (h2' b).1 hb with hb | hb
        · exact .inr (.inl hb)
        · exact .inr (.inr (.inl hb))

/-- What `setRec` does, given what the value-level model does. -/
def SetSpec (p : List Str) (h : Mem) (o : Val) (F G : List Nat) (r : Res (Mem × Val)) : Res Json → Prop
  | .ok j' => ∃ h' o' F', r = .ok (h', o') ∧ Rep h' j' o' F' ∧ Changes F h h' ∧ (∀ a ∈ F', a ∈ F ∨ a ∈ G ∨ h.length ≤ a) ∧ (p ≠ [] → ∀ a, o = .map a → o' = .map a)
  | .err e => r = .err e
  | .panic => r = .panic

/-- The results of the recursive calls, passed on. -/
def onOk {α β : Type} (f : α → β) : Res α → Res β
  | .ok x => .ok (f x)
  | .err e => .err e
  | .panic => .panic

theorem setGo_obj (jv : Json) (root : Bool) (seg s : Str) (q : List Str) (m : Obj) :
    Gabs.setGo jv root (seg :: s :: q) (.obj m) = onOk (fun c => .obj (Obj.insert seg c m)) (Gabs.setGo jv false (s :: q) (Gabs.fill (Obj.lookup seg m))) := by
  rw [Gabs.setGo]
  cases Gabs.setGo jv false (s :: q) (Gabs.fill (Obj.lookup seg m)) <;> rfl

theorem setRec_map (room : Nat) (v : Val) (root : Bool) (seg s : Str) (q : List Str) (a : Nat) (h : Mem) :
    setRec room v root (seg :: s :: q) (.map a) h = onOk (fun r => (r.1.set a (.map (put seg r.2 (r.1.mapAt a))), .map a))
      (setRec room v false (s :: q) (fill (look seg (h.mapAt a)) h).2 (fill (look seg (h.mapAt a)) h).1) := by
  rw [setRec]
  cases setRec room v false (s :: q) (fill (look seg (h.mapAt a)) h).2 (fill (look seg (h.mapAt a)) h).1 <;> rfl

theorem setGo_dash (jv : Json) (seg s : Str) (q : List Str) (xs : List Json) (hs : seg = b!"-") :
    Gabs.setGo jv false (seg :: s :: q) (.arr xs) = onOk (fun c => .arr (xs ++ [c])) (Gabs.setGo jv false (s :: q) (.obj [])) := by
  rw [Gabs.setGo]
  simp only [if_pos hs]
  cases Gabs.setGo jv false (s :: q) (.obj []) <;> rfl

theorem setRec_dash (room : Nat) (v : Val) (seg s : Str) (q : List Str) (a len : Nat) (h : Mem) (hs : seg = b!"-") :
    setRec room v false (seg :: s :: q) (.slice a len) h = onOk (fun r => append1 room r.1 a len r.2)
      (setRec room v false (s :: q) (.map h.length) (h ++ [.map []])) := by
  rw [setRec]
  simp only [if_pos hs]
  cases setRec room v false (s :: q) (.map h.length) (h ++ [.map []]) <;> rfl

theorem setGo_idx (jv : Json) (root : Bool) (seg s : Str) (q : List Str) (xs : List Json) (hs : seg ≠ b!"-") {i : Nat} (hi : Gabs.arrIndex seg xs.length = some i)
    {c : Json} (hx : xs[i]? = some c) (hc : c ≠ .null) :
    Gabs.setGo jv root (seg :: s :: q) (.arr xs) = onOk (fun c => .arr (xs.set i c)) (Gabs.setGo jv false (s :: q) c) := by
  rw [Gabs.setGo]
  simp only [if_neg hs, hi, hx]
  cases c with
  | null => exact absurd rfl hc
  | _ => cases Gabs.setGo jv false (s :: q) _ <;> rfl

theorem setRec_idx (room : Nat) (v : Val) (root : Bool) (seg s : Str) (q : List Str) (a len : Nat) (h : Mem) (hs : seg ≠ b!"-") {i : Nat} (hi : Gabs.arrIndex seg len = some i)
    {c : Val} (hx : (h.elems a len)[i]? = some c) (hc : c ≠ .null) :
    setRec room v root (seg :: s :: q) (.slice a len) h = onOk (fun r => (r.1.set a (.arr ((r.1.arrAt a).set i r.2)), .slice a len)) (setRec room v false (s :: q) c h) := by
  rw [setRec]
  simp only [if_neg hs, hi, hx]
  cases c with
  | null => exact absurd rfl hc
  | _ => cases setRec room v false (s :: q) _ h <;> rfl

theorem setRec_rep (room : Nat) {jv : Json} {v : Val} {G : List Nat} : ∀ (p : List Str) (root : Bool) {o : Val} {h : Mem} {j : Json} {F : List Nat},
    Rep h j o F → Rep h jv v G → (∀ a ∈ F, a ∉ G) → SetSpec p h o F G (setRec room v root p o h) (Gabs.setGo jv root p j)
  | [], root, o, h, j, F, hr, hv, hd => by
    have e : Gabs.setGo jv root [] j = .ok jv := by cases j <;> rfl
    have e' : setRec room v root [] o h = .ok (h, v) := by cases o <;> rfl
    rw [e, e']
    exact ⟨h, v, G, rfl, hv, Changes.refl _ _, fun a ha => .inr (.inl ha), fun h => absurd rfl h⟩
  | seg :: p, root, o, h, j, F, hr, hv, hd => by
    cases j with
    | null => obtain ⟨rfl, rfl⟩ := hr; rfl
    | bool b => obtain ⟨rfl, rfl⟩ := hr; rfl
    | num b => obtain ⟨rfl, rfl⟩ := hr; rfl
    | str b => obtain ⟨rfl, rfl⟩ := hr; rfl
    | obj m =>
      obtain ⟨hm, a, kvs, Gm, rfl, he, hO, ha, rfl⟩ := hr
      obtain ⟨A, hC, hsub, hput⟩ := repO_focus seg hm hO
      have hlt : a < h.length := (List.getElem?_eq_some_iff.1 he).1
      have hG : ∀ b ∈ Gm, b < h.length := repO_lt _ _ _ hO
      cases p with
      | nil =>
        obtain ⟨F', h1, h2, h3⟩ := write_member (h2 := h) (C := []) (j' := jv) (v' := v) (A' := G) hm he ha hsub hG (fun {h'} => hput) (Changes.refl _ _) (by simp) hv
          (hd a (by simp)) (fun b hb _ => hd b (by simp [hb]))
        refine ⟨_, _, F', rfl, h1, h2, ?_, fun _ b e => e⟩
        intro b hb
        rcases (h3 b).1 hb with rfl | hb | hb
        · exact .inl (by simp)
        · exact .inl (by simp [hb.1])
        · exact .inr (.inl hb)
      | cons s q =>
        obtain ⟨C, f1, f2, f3⟩ := fill_rep hC
        have hv1 := f2.frame hv (by simp)
        have hCG : ∀ b ∈ C, b ∉ G := by
          intro b hb hg
          rcases f3 b hb with hb | hb
          · exact hd b (by simp [hsub b hb]) hg
          · exact absurd (rep_lt _ _ _ hv b hg) (by omega)
        have ih := setRec_rep room (s :: q) false f1 hv1 hCG
        rw [setGo_obj, setRec_map, mapAt_of he]
        cases hs : Gabs.setGo jv false (s :: q) (Gabs.fill (Obj.lookup seg m)) with
        | err e => rw [hs] at ih; rw [show setRec _ _ _ _ _ _ = _ from ih]; exact rfl
        | panic => rw [hs] at ih; rw [show setRec _ _ _ _ _ _ = _ from ih]; exact rfl
        | ok j' =>
          rw [hs] at ih
          obtain ⟨h', o', F1, g1, g2, g3, g4, -⟩ := ih
          rw [g1]
          have c1 : Changes C h h' := (f2.mono (F' := C) (by simp)).trans g3 (fun _ h _ => h)
          have hnew : ∀ b, b < h.length → b ∈ F1 → b ∈ C ∨ b ∈ G := by
            intro b hb hf
            rcases g4 b hf with hf | hf | hf
            · exact .inl hf
            · exact .inr hf
            · have := f2.le; omega
          have haF1 : a ∉ F1 := fun hx => by
            rcases hnew a hlt hx with hx | hx
            · rcases f3 a hx with hx | hx
              · exact ha (hsub a hx)
              · omega
            · exact hd a (by simp) hx
          obtain ⟨F', h1, h2, h3⟩ := write_member (h2 := h') (C := C) (j' := j') (v' := o') (A' := F1) hm he ha hsub hG (fun {h'} => hput) c1 f3 g2 haF1
            (fun b hb hn hx => by
              rcases hnew b (hG b hb) hx with hx | hx
              · rcases f3 b hx with hx | hx
                · exact hn hx
                · exact absurd (hG b hb) (by omega)
              · exact hd b (by simp [hb]) hx)
          refine ⟨_, _, F', rfl, h1, h2, ?_, fun _ b e => e⟩
          intro b hb
          rcases (h3 b).1 hb with rfl | hb | hb
          · exact .inl (by simp)
          · exact .inl (by simp [hb.1])
          · by_cases hlb : b < h.length
            · rcases hnew b hlb hb with hx | hx
              · rcases f3 b hx with hx | hx
                · exact .inl (by simp [hsub b hx])
                · exact .inr (.inr hx)
              · exact .inr (.inl hx)
            · exact .inr (.inr (by omega))
    | arr xs =>
      obtain ⟨a, len, bs, Gm, rfl, he, hlen, hL, ha, rfl⟩ := hr
      have hlt : a < h.length := (List.getElem?_eq_some_iff.1 he).1
      have hG : ∀ b ∈ Gm, b < h.length := repL_lt _ _ _ hL
      have hll : (bs.take len).length = xs.length := repL_length hL
      have hxl : xs.length = len := by rw [← hll]; simp [hlen]
      have hel : h.elems a len = bs.take len := by unfold Mem.elems; rw [arrAt_of he]
      by_cases hseg : seg = b!"-"
      · cases root with
        | true =>
          have e1 : Gabs.setGo jv true (seg :: p) (.arr xs) = .err .outOfBounds := by cases p <;> simp [Gabs.setGo, hseg]
          have e2 : setRec room v true (seg :: p) (.slice a len) h = .err .outOfBounds := by cases p <;> simp [setRec, hseg]
          rw [e1, e2]
          exact rfl
        | false =>
          cases p with
          | nil =>
            have e1 : Gabs.setGo jv false [seg] (.arr xs) = .ok (.arr (xs ++ [jv])) := by rw [Gabs.setGo]; simp only [if_pos hseg]; rfl
            have e2 : setRec room v false [seg] (.slice a len) h = .ok (append1 room h a len v) := by rw [setRec]; simp only [if_pos hseg]; rfl
            rw [e1, e2]
            obtain ⟨F', h1, h2, h3⟩ := append_rep room (h2 := h) he hlen hL ha (Changes.refl _ _) hv (hd a (by simp)) (fun b hb => hd b (by simp [hb]))
            refine ⟨_, _, F', rfl, h1, h2, ?_, fun _ b e => by cases e⟩
            intro b hb
            rcases h3 b hb with rfl | hb | hb | hb
            · exact .inl (by simp)
            · exact .inl (by simp [hb])
            · exact .inr (.inl hb)
            · exact .inr (.inr hb)
          | cons s q =>
            have c0 := Changes.grow [] h [Node.map []]
            have hv1 := c0.frame hv (by simp)
            have ih := setRec_rep room (s :: q) false (rep_new h) hv1 (by
              intro b hb hg
              rw [List.mem_singleton] at hb
              exact absurd (rep_lt _ _ _ hv b hg) (by omega))
            rw [setGo_dash _ _ _ _ _ hseg, setRec_dash _ _ _ _ _ _ _ _ hseg]
            cases hs : Gabs.setGo jv false (s :: q) (.obj []) with
            | err e => rw [hs] at ih; rw [show setRec _ _ _ _ _ _ = _ from ih]; exact rfl
            | panic => rw [hs] at ih; rw [show setRec _ _ _ _ _ _ = _ from ih]; exact rfl
            | ok j' =>
              rw [hs] at ih
              obtain ⟨h', o', F1, g1, g2, g3, g4, -⟩ := ih
              rw [g1]
              have c1 : Changes [] h h' := c0.trans g3 (by
                intro b hb hlt
                rw [List.mem_singleton] at hb
                omega)
              have hnew : ∀ b, b < h.length → b ∈ F1 → b ∈ G := by
                intro b hb hf
                rcases g4 b hf with hf | hf | hf
                · rw [List.mem_singleton] at hf; omega
                · exact hf
                · have := c0.le; omega
              obtain ⟨F', h1, h2, h3⟩ := append_rep room (h2 := h') he hlen hL ha c1 g2 (fun hx => hd a (by simp) (hnew a hlt hx))
                (fun b hb hx => hd b (by simp [hb]) (hnew b (hG b hb) hx))
              refine ⟨_, _, F', rfl, h1, h2, ?_, fun _ b e => by cases e⟩
              intro b hb
              rcases h3 b hb with rfl | hb | hb | hb
              · exact .inl (by simp)
              · exact .inl (by simp [hb])
              · by_cases hlb : b < h.length
                · exact .inr (.inl (hnew b hlb hb))
                · exact .inr (.inr (by omega))
              · exact .inr (.inr (Nat.le_trans c1.le hb))
      · cases hi : Gabs.arrIndex seg xs.length with
        | none =>
          have e1 : Gabs.setGo jv root (seg :: p) (.arr xs) = .err .outOfBounds := by cases p <;> simp [Gabs.setGo, hseg, hi]
          have e2 : setRec room v root (seg :: p) (.slice a len) h = .err .outOfBounds := by rw [hxl] at hi; cases p <;> simp [setRec, hseg, hi]
          rw [e1, e2]
          exact rfl
        | some i =>
          have hi' : Gabs.arrIndex seg len = some i := by rw [← hxl]; exact hi
          have hil : i < xs.length := by
            unfold Gabs.arrIndex at hi
            split at hi
            · split at hi
              · cases hi; assumption
              · cases hi
            · cases hi
          obtain ⟨A, hC, hsub, hput⟩ := repL_focus i hL
          cases p with
          | nil =>
            have e1 : Gabs.setGo jv root [seg] (.arr xs) = .ok (.arr (xs.set i jv)) := by rw [Gabs.setGo]; simp only [if_neg hseg, hi]
            have e2 : setRec room v root [seg] (.slice a len) h = .ok (h.set a (.arr ((h.arrAt a).set i v)), .slice a len) := by rw [setRec]; simp only [if_neg hseg, hi']
            rw [e1, e2]
            obtain ⟨F', h1, h2, h3⟩ := write_elem (h2 := h) (C := []) (j' := jv) (v' := v) (A' := G) he hlen hil hll ha hsub hG (fun {h'} => hput) (Changes.refl _ _) (by simp) hv
              (hd a (by simp)) (fun b hb _ => hd b (by simp [hb]))
            refine ⟨_, _, F', rfl, h1, h2, ?_, fun _ b e => by cases e⟩
            intro b hb
            rcases (h3 b).1 hb with rfl | hb | hb
            · exact .inl (by simp)
            · exact .inl (by simp [hb.1])
            · exact .inr (.inl hb)
          | cons s q =>
            obtain ⟨c, hc⟩ : ∃ c, xs[i]? = some c := ⟨xs[i], by simp [hil]⟩
            obtain ⟨w, hw⟩ : ∃ w, (bs.take len)[i]? = some w := ⟨(bs.take len)[i]'(by omega), List.getElem?_eq_getElem _⟩
            rw [hc, hw] at hC
            have hC' : Rep h c w A := hC
            by_cases hcn : c = .null
            · subst hcn
              obtain ⟨rfl, rfl⟩ := hC'
              have e1 : Gabs.setGo jv root (seg :: s :: q) (.arr xs) = .err .notFound := by rw [Gabs.setGo]; simp only [if_neg hseg, hi, hc]
              have e2 : setRec room v root (seg :: s :: q) (.slice a len) h = .err .notFound := by rw [setRec]; simp only [if_neg hseg, hi', hel, hw]
              rw [e1, e2]
              exact rfl
            · have hwn : w ≠ .null := by
                rintro rfl
                cases c with
                | null => exact hcn rfl
                | bool b => exact Val.noConfusion hC'.1
                | num b => exact Val.noConfusion hC'.1
                | str b => exact Val.noConfusion hC'.1
                | arr b => obtain ⟨_, _, _, _, e, _⟩ := hC'; cases e
                | obj b => obtain ⟨_, _, _, _, e, _⟩ := hC'; cases e
              have ih := setRec_rep room (s :: q) false hC' hv (fun b hb hg => hd b (by simp [hsub b hb]) hg)
              rw [setGo_idx _ _ _ _ _ _ hseg hi hc hcn, setRec_idx _ _ _ _ _ _ _ _ _ hseg hi' (hel ▸ hw) hwn]
              cases hs : Gabs.setGo jv false (s :: q) c with
              | err e => rw [hs] at ih; rw [show setRec _ _ _ _ _ _ = _ from ih]; exact rfl
              | panic => rw [hs] at ih; rw [show setRec _ _ _ _ _ _ = _ from ih]; exact rfl
              | ok j' =>
                rw [hs] at ih
                obtain ⟨h', o', F1, g1, g2, g3, g4, -⟩ := ih
                rw [g1]
                have hnew : ∀ b, b < h.length → b ∈ F1 → b ∈ A ∨ b ∈ G := by
                  intro b hb hf
                  rcases g4 b hf with hf | hf | hf
                  · exact .inl hf
                  · exact .inr hf
                  · omega
                obtain ⟨F', h1, h2, h3⟩ := write_elem (h2 := h') (C := A) (j' := j') (v' := o') (A' := F1) he hlen hil hll ha hsub hG (fun {h'} => hput) g3 (fun b hb => .inl hb) g2
                  (fun hx => by
                    rcases hnew a hlt hx with hx | hx
                    · exact ha (hsub a hx)
                    · exact hd a (by simp) hx)
                  (fun b hb hn hx => by
                    rcases hnew b (hG b hb) hx with hx | hx
                    · exact hn hx
                    · exact hd b (by simp [hb]) hx)
                refine ⟨_, _, F', rfl, h1, h2, ?_, fun _ b e => by cases e⟩
                intro b hb
                rcases (h3 b).1 hb with rfl | hb | hb
                · exact .inl (by simp)
                · exact .inl (by simp [hb.1])
                · by_cases hlb : b < h.length
                  · rcases hnew b hlb hb with hx | hx
                    · exact .inl (by simp [hsub b hx])
                    · exact .inr (.inl hx)
                  · exact .inr (.inr (by omega))

end Oapi.GoHeap
