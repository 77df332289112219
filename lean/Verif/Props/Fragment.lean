import Verif.Spec.Fragment
import Verif.Proofs.SliceHeap

/-! Properties C01–C05. -/
namespace Oapi.Props
open Oapi

/-- C01: every fragment survives print and parse. -/
theorem C01_fragment_roundtrip (f : Fragment) : Fragment.new f.toStr = .ok f :=
  Fragment.new_toStr f

/-- C01: different fragments print differently. -/
theorem C01_fragment_print_injective (f g : Fragment) (h : f.toStr = g.toStr) : f = g :=
  Fragment.toStr_inj h

-- a fragment with an empty token, '/', '~' and both escape sequences as data
example : Fragment.toStr [b!"a/b", [], b!"~1", b!"~0x~"] = b!"/a~1b//~01/~00x~0" := by decide
example : Fragment.new b!"/a~1b//~01/~00x~0" = .ok [b!"a/b", [], b!"~1", b!"~0x~"] := by decide

/-- C02: exactly the strings that are empty or start with '/' are accepted; the only other
outcome is an error. -/
theorem C02_fragment_accepts_iff (s : Str) :
    (s = [] ∨ ∃ t, s = 47 :: t) ↔ ∃ f, Fragment.new s = .ok f := by
  cases s with
  | nil => simp [Fragment.new, Fragment.parseFragment]
  | cons c t =>
    simp only [Fragment.new, Fragment.parseFragment, Fragment.sepByte]
    by_cases h : c = 47 <;> simp [h]

theorem C02_fragment_rejects_with_error (s : Str) (h : ¬ ∃ f, Fragment.new s = .ok f) :
    Fragment.new s = .err .syntaxErr := by
  cases s with
  | nil => simp [Fragment.new, Fragment.parseFragment] at h
  | cons c t =>
    simp only [Fragment.new, Fragment.parseFragment] at h ⊢
    split <;> simp_all

/-- C02: an accepted string prints back unchanged exactly when it has RFC 6901 syntax. -/
theorem C02_fragment_canonical_iff (s : Str) (f : Fragment) (h : Fragment.new s = .ok f) :
    f.toStr = s ↔ Spec.TildesEscaped s := by
  rw [Fragment.toStr_new_iff s f h, Fragment.tildeOk_iff]; rfl

/-- C02: whatever was accepted, the printed form is canonical: it has RFC 6901 syntax and denotes the same fragment. -/
theorem C02_fragment_printed_canonical (s : Str) (f : Fragment) (_ : Fragment.new s = .ok f) :
    Spec.TildesEscaped f.toStr ∧ Fragment.new f.toStr = .ok f :=
  ⟨(C02_fragment_canonical_iff f.toStr f (Fragment.new_toStr f)).1 rfl, Fragment.new_toStr f⟩

example : Fragment.new b!"/a~2/~" = .ok [b!"a~2", b!"~"] ∧
    Fragment.toStr [b!"a~2", b!"~"] = b!"/a~02/~0" := by decide
example : Fragment.new b!"abc" = .err .syntaxErr := by decide

/-- C03: `Descendant` never fails; a fragment other than the one printed "/" is extended by the tokens of the
path, where a missing leading '/' is added. -/
theorem C03_descendant_extends (p : Fragment) (path : Str) (hp : p ≠ [[]]) :
    ∃ q, Fragment.new (if path.head? = some 47 then path else 47 :: path) = .ok q ∧
      p.descendant path = .ok (p ++ q) := by
  obtain ⟨d, hd⟩ := Slice.descendant_parse path
  have hpre : Str.hasPrefix path Fragment.separator = true ↔ path.head? = some 47 := by
    cases path with
    | nil => simp [Str.hasPrefix, Fragment.separator]
    | cons c t => simp only [Str.hasPrefix, Fragment.separator, List.isPrefixOf, Bool.and_true, beq_iff_eq, List.head?_cons, Option.some.injEq]; exact eq_comm
  refine ⟨d, ?_, ?_⟩
  · by_cases h : path.head? = some 47
    · rw [if_pos (hpre.2 h)] at hd; simpa [h, Fragment.new] using hd
    · rw [if_neg (fun e => h (hpre.1 e))] at hd; simpa [h, Fragment.new, Fragment.sepByte] using hd
  · unfold Fragment.descendant
    simp only [hd, Fragment.toStr_eq_slash, hp, if_false]

/-- C03: the fragment holding one empty token is replaced instead of extended. -/
theorem C03_descendant_of_slash (path : Str) :
    ∃ q, Fragment.new (if path.head? = some 47 then path else 47 :: path) = .ok q ∧
      Fragment.descendant [[]] path = .ok q := by
  obtain ⟨q, h1, h2⟩ := C03_descendant_extends [] path (by simp)
  refine ⟨q, h1, ?_⟩
  have e : Fragment.toStr ([[]] : Fragment) = Fragment.separator := rfl
  have e2 : Fragment.toStr ([] : Fragment) ≠ Fragment.separator := by decide
  unfold Fragment.descendant at h2 ⊢
  simp only [e, e2, if_true, if_false] at h2 ⊢
  split at h2 <;> simp_all

/-- C03: descending by a single printed token appends exactly that token. -/
theorem C03_descendant_token (p : Fragment) (t : Str) (hp : p ≠ [[]]) :
    p.descendant (47 :: Fragment.escapeToken t) = .ok (p ++ [t]) := by
  obtain ⟨q, h1, h2⟩ := C03_descendant_extends p (47 :: Fragment.escapeToken t) hp
  have : Fragment.new (47 :: Fragment.escapeToken t) = .ok [t] := by
    have := Fragment.new_toStr [t]
    simpa [Fragment.toStr, Fragment.sepByte] using this
  simp only [List.head?_cons, if_true] at h1
  rw [this] at h1
  cases h1
  exact h2

/-- C03: `RawDescendant` takes its arguments as tokens, without parsing them: for every fragment, the empty token included. -/
theorem C03_raw_descendant (p : Fragment) (toks : List Str) :
    (p.rawDescendant toks).length = p.length + toks.length ∧
    (∀ i : Nat, i < p.length → (p.rawDescendant toks)[i]? = p[i]?) ∧
    (∀ i : Nat, (p.rawDescendant toks)[p.length + i]? = toks[i]?) ∧
    (p.rawDescendant toks).toStr = p.toStr ++ Fragment.toStr toks := by
  refine ⟨by simp [Fragment.rawDescendant], fun i hi => List.getElem?_append_left hi,
    fun i => ?_, ?_⟩
  · show (p ++ toks)[p.length + i]? = _
    rw [List.getElem?_append_right (Nat.le_add_right _ _)]; congr 1; omega
  unfold Fragment.rawDescendant
  induction p with
  | nil => simp [Fragment.toStr]
  | cons t r ih => simp [Fragment.toStr, ih]

example : Fragment.descendant [b!"T"] b!"a/b~1c" = .ok [b!"T", b!"a", b!"b/c"] := by decide
example : Fragment.descendant [[]] b!"a" = .ok [b!"a"] := by decide

/-- C04: in-range replacement. -/
theorem C04_replace_in_range (f : Fragment) (n : Nat) (e : Str) (h : n < f.length) :
    ∃ g, f.replace n e = .ok g ∧ g.length = f.length ∧ g[n]? = some e ∧
      ∀ i, i ≠ n → g[i]? = f[i]? := by
  refine ⟨f.set n e, ?_, by simp, by simp [h], fun i hi => by simp [Ne.symm hi]⟩
  unfold Fragment.replace
  rw [if_neg (by omega)]
  simp [h]

/-- C04: out-of-range indices are errors … -/
theorem C04_replace_out_of_range (f : Fragment) (n : Int) (e : Str) (h : n < 0 ∨ n > f.length) :
    f.replace n e = .err .range := by
  unfold Fragment.replace; rw [if_pos (by omega)]

/-- C04: … except the index just past the end, which panics, for every fragment. -/
theorem C04_replace_at_length_panics (f : Fragment) (e : Str) : f.replace f.length e = .panic := by
  unfold Fragment.replace; rw [if_neg (by omega)]; simp

/-- C04: replacing leaves the original and every other fragment of the program unchanged. -/
theorem C04_replace_leaves_original (h : Heap) (s t : Slice) (n : Nat) (e : Str)
    (vt : t.arr < h.length) :
    Slice.view (Slice.replace h s n e).1 t = Slice.view h t := by
  have := (Slice.replace_props (h := h) s n e).1.2 t.arr vt
  simp only [Slice.view, this]

example : Fragment.replace [b!"a", b!"b"] 1 b!"z" = .ok [b!"a", b!"z"] := by decide
example : Fragment.replace [b!"a", b!"b"] 2 b!"z" = .panic := by decide

private theorem step_refines (s : SliceState) (i : s.Inv) (op : SliceOp) :
    (s.step op).Inv ∧ (s.step op).regs.map (Slice.view (s.step op).heap) =
      Spec.valueStep (s.regs.map (Slice.view s.heap)) op := by
  cases op with
  | fresh f extra =>
    have := SliceState.push_props i (p := Slice.alloc s.heap f extra) (Slice.alloc_ext _ _ _) (Slice.alloc_valid _ _ _)
    rw [Slice.alloc_view] at this
    exact this
  | clone r =>
    simp only [SliceState.step, Spec.valueStep, List.getElem?_map]
    cases hr : s.regs[r]? with
    | none => exact ⟨i, rfl⟩
    | some x =>
      obtain ⟨e, v, w, _⟩ := Slice.clone_props (h := s.heap) x
      have := SliceState.push_props i e v
      rw [w] at this
      exact this
  | replace r n el =>
    simp only [SliceState.step, Spec.valueStep, List.getElem?_map]
    cases hr : s.regs[r]? with
    | none => exact ⟨i, rfl⟩
    | some x =>
      obtain ⟨e, v, w⟩ := Slice.replace_props (h := s.heap) x n el
      have := SliceState.push_props i e v
      rw [w] at this
      exact this
  | withDescendant r path extra =>
    simp only [SliceState.step, Spec.valueStep, List.getElem?_map]
    cases hr : s.regs[r]? with
    | none => exact ⟨i, rfl⟩
    | some x =>
      obtain ⟨e, v, w⟩ := Slice.withDescendant_props (h := s.heap) x path extra
      have := SliceState.push_props i e v
      simp only [Option.map_some, w]
      exact this

private theorem run_refines (ops : List SliceOp) (s : SliceState) (i : s.Inv) :
    (s.run ops).Inv ∧ (s.run ops).regs.map (Slice.view (s.run ops).heap) =
      ops.foldl Spec.valueStep (s.regs.map (Slice.view s.heap)) := by
  induction ops generalizing s with
  | nil => exact ⟨i, rfl⟩
  | cons op ops ih =>
    obtain ⟨i1, e1⟩ := step_refines s i op
    have := ih (s.step op) i1
    simp only [SliceState.run, List.foldl_cons] at this ⊢
    rw [e1] at this
    exact this

/-- C05: over any history of the operations the code uses (fresh, clone, replace, clone-then-descend), whatever
capacities the runtime picks, slices with shared backing arrays behave exactly like plain values. -/
theorem C05_slices_behave_as_values (ops : List SliceOp) (i : Nat) :
    (SliceState.init.run ops).read i = (Spec.valueRun ops)[i]? := by
  have := (run_refines ops SliceState.init (by simp [SliceState.Inv, SliceState.init])).2
  simp only [SliceState.read, ← List.getElem?_map, this]
  rfl

private theorem valueStep_prefix (fs : List Fragment) (op : SliceOp) : fs <+: Spec.valueStep fs op := by
  cases op <;> simp only [Spec.valueStep] <;> repeat' split
  all_goals simp

/-- C05: a fragment obtained at some point keeps its tokens for ever. -/
theorem C05_fragment_never_changes (ops later : List SliceOp) (i : Nat) (f : Fragment)
    (h : (SliceState.init.run ops).read i = some f) :
    (SliceState.init.run (ops ++ later)).read i = some f := by
  rw [C05_slices_behave_as_values] at h ⊢
  simp only [Spec.valueRun, List.foldl_append] at h ⊢
  have pre : ∀ (later : List SliceOp) (fs : List Fragment), fs <+: later.foldl Spec.valueStep fs := by
    intro later
    induction later with
    | nil => simp
    | cons op l ih => intro fs; exact (valueStep_prefix fs op).trans (ih _)
  obtain ⟨r, hr⟩ := pre later (ops.foldl Spec.valueStep [])
  rw [← hr]
  rw [List.getElem?_append_left]
  · exact h
  · exact (List.getElem?_eq_some_iff.1 h).1

/-- C05: without the clone it fails, for every fragment with spare capacity and every two different tokens: the
second extension rewrites the fragment returned by the first. -/
theorem C05_raw_descendant_aliases (h : Heap) (p : Slice) (a b : Str) (x1 x2 : Nat)
    (hv : p.arr < h.length) (hspare : p.len < Slice.cap h p) :
    let r1 := Slice.rawDescendant h p [a] x1
    let r2 := Slice.rawDescendant r1.1 p [b] x2
    Slice.view r1.1 r1.2 = Slice.view h p ++ [a] ∧ Slice.view r2.1 r1.2 = Slice.view h p ++ [b] := by
  intro r1 r2
  have v : Slice.Valid h p := ⟨hv, by omega⟩
  have e1 : r1 = (h.set p.arr (Slice.writeArr (h.getD p.arr []) p.len [a]), ⟨p.arr, p.len + 1⟩) := by
    show Slice.append h p [a] x1 = _
    unfold Slice.append; rw [if_pos (by simp; omega)]; rfl
  have hc : Slice.cap r1.1 p = Slice.cap h p := by
    rw [e1]; simp only [Slice.cap, Slice.getD_set_self _ _ _ hv, Slice.writeArr]
    unfold Slice.cap at hspare
    simp only [List.length_append, List.length_take, List.length_drop, List.length_cons, List.length_nil]; omega
  have v1 : Slice.Valid r1.1 p := ⟨by rw [e1]; simpa using hv, by omega⟩
  have w1 : Slice.view r1.1 p = Slice.view h p := by
    rw [e1]; simp only [Slice.view, Slice.getD_set_self _ _ _ hv, Slice.writeArr]
    unfold Slice.cap at hspare
    rw [List.append_assoc, List.take_append_of_le_length (by simp only [List.length_take]; omega), List.take_take]
    congr 1; omega
  have e2 : r2.2 = r1.2 := by
    have : r2.2 = ⟨p.arr, p.len + 1⟩ := by
      show (Slice.append r1.1 p [b] x2).2 = _
      unfold Slice.append; rw [if_pos (by rw [hc]; simp; omega)]; rfl
    rw [this, e1]
  refine ⟨(Slice.append_view v [a] x1).1, ?_⟩
  rw [← e2, ← w1]
  exact (Slice.append_view v1 [b] x2).1

-- the history: parse "/T" with spare capacity, then two descents from it
example : (SliceState.init.run [.fresh [b!"T"] 31, .withDescendant 0 b!"a" 0, .withDescendant 0 b!"b" 5,
    .withDescendant 1 b!"[]" 2]).read 1 = some [b!"T", b!"a"] := by decide
-- `NewPointer` (pointer.go:29-33) hands out fragments with spare capacity
example : let h : Heap := [[b!"T"] ++ List.replicate 31 []]
    let p : Slice := ⟨0, 1⟩
    p.len < Slice.cap h p := by decide

/-- C67: `Head` is the first token; there is none exactly for the empty fragment. -/
theorem C67_head (f : Fragment) :
    (f.isEmpty = true ↔ f.toStr = []) ∧ (f.head = none ↔ f.isEmpty = true) ∧ ∀ t r, f = t :: r → f.head = some t := by
  refine ⟨?_, ?_, ?_⟩
  · cases f <;> simp [Fragment.isEmpty, Fragment.toStr]
  · cases f <;> simp [Fragment.head, Fragment.isEmpty]
  · intro t r e; simp [e, Fragment.head]

/-- C67: `Last` and `Tail` both give the last token; there is none exactly for the empty fragment. -/
theorem C67_last_and_tail (f : Fragment) :
    f.tail = f.last ∧ (f.last = none ↔ f.isEmpty = true) ∧ ∀ r t, f = r ++ [t] → f.last = some t := by
  refine ⟨?_, ?_, ?_⟩
  · cases f <;> simp [Fragment.tail, Fragment.last]
  · cases f <;> simp [Fragment.last, Fragment.isEmpty, Fragment.lastIndex]
  · intro r t e; subst e; simp [Fragment.last, Fragment.lastIndex]

/-- C67: descending by a token makes it the last one and, below a non-empty fragment, keeps the first one. -/
theorem C67_descend (p q : Fragment) (t : Str) (hp : p ≠ [[]]) (h : p.descendant (47 :: Fragment.escapeToken t) = .ok q) :
    q.last = some t ∧ (p.isEmpty = false → q.head = p.head) := by
  rw [C03_descendant_token p t hp] at h
  cases h
  refine ⟨(C67_last_and_tail _).2.2 p t rfl, fun he => ?_⟩
  cases p with
  | nil => simp [Fragment.isEmpty] at he
  | cons a r => rfl

example : Fragment.last [b!"T", b!"f", b!"[]"] = some b!"[]" ∧ Fragment.tail [b!"T", b!"f", b!"[]"] = some b!"[]" ∧
    Fragment.head [b!"T", b!"f", b!"[]"] = some b!"T" := by decide
example : Fragment.descendant [b!"T"] (47 :: Fragment.escapeToken b!"a/b") = .ok [b!"T", b!"a/b"] := by decide

private theorem view_write (a : List Str) (n : Nat) (xs : List Str) (h : n ≤ a.length) :
    (Slice.writeArr a n xs).take (n + xs.length) = a.take n ++ xs := by
  unfold Slice.writeArr
  rw [List.take_append_of_le_length (by simp; omega), List.take_of_length_le (by simp; omega)]

/-- C68: if the backing array of a fragment has room for the first descendant, the second one is written over it: the fragment
got first reads like the one got last (as far as it reaches). -/
theorem C68_second_descendant_overwrites (h : Heap) (s : Slice) (xs ys : List Str) (e₁ e₂ : Nat)
    (hs : s.arr < h.length) (hl : s.len ≤ Slice.cap h s) (hl₂ : xs.length = ys.length) (room : s.len + xs.length ≤ Slice.cap h s) :
    let a := Slice.rawDescendant h s xs e₁
    let b := Slice.rawDescendant a.1 s ys e₂
    Slice.view a.1 a.2 = Slice.view h s ++ xs ∧ Slice.view b.1 a.2 = Slice.view h s ++ ys := by
  have hg : h.getD s.arr [] = h[s.arr] := by simp [List.getD, hs]
  simp only [Slice.cap, hg] at hl room
  have hw : ∀ (zs : List Str), zs.length = ys.length → (Slice.writeArr h[s.arr] s.len zs).length = h[s.arr].length := by
    intro zs e; simp [Slice.writeArr]; omega
  have hset : ∀ z : List Str, (h.set s.arr z).getD s.arr [] = z := by intro z; simp [List.getD, hs]
  have h1 : Slice.rawDescendant h s xs e₁ = (h.set s.arr (Slice.writeArr h[s.arr] s.len xs), ⟨s.arr, s.len + xs.length⟩) := by
    unfold Slice.rawDescendant Slice.append
    rw [if_pos (by simp only [Slice.cap, hg]; exact room), hg]
  have h2 : Slice.rawDescendant (h.set s.arr (Slice.writeArr h[s.arr] s.len xs)) s ys e₂
      = (h.set s.arr (Slice.writeArr (Slice.writeArr h[s.arr] s.len xs) s.len ys), ⟨s.arr, s.len + ys.length⟩) := by
    have hg' : (h.set s.arr (Slice.writeArr h[s.arr] s.len xs)).getD s.arr [] = Slice.writeArr h[s.arr] s.len xs := by
      simp [List.getD, hs]
    unfold Slice.rawDescendant Slice.append
    rw [if_pos (by simp only [Slice.cap, hg', hw xs hl₂]; omega), hg']
    simp
  simp only [h1, h2]
  constructor
  · simp only [Slice.view, hset, hg]
    rw [view_write _ _ _ hl]
  · simp only [Slice.view, hset, hg]
    rw [hl₂, view_write _ _ _ (by rw [hw xs hl₂]; exact hl)]
    simp [Slice.writeArr, Nat.min_eq_left hl]

/-- C68: if it has no room, every descendant gets an array of its own and keeps its tokens whatever is derived later. -/
theorem C68_full_array_is_safe (h : Heap) (s : Slice) (xs ys : List Str) (e₁ e₂ : Nat)
    (full : Slice.cap h s < s.len + xs.length) (hs : s.arr < h.length) :
    let a := Slice.rawDescendant h s xs e₁
    let b := Slice.rawDescendant a.1 s ys e₂
    Slice.view a.1 a.2 = Slice.view h s ++ xs ∧ Slice.view b.1 a.2 = Slice.view h s ++ xs := by
  have h1 : Slice.rawDescendant h s xs e₁ = Slice.alloc h (Slice.view h s ++ xs) e₁ := by
    unfold Slice.rawDescendant Slice.append; rw [if_neg (by omega)]
  simp only [h1]
  refine ⟨Slice.alloc_view _ _ _, ?_⟩
  have hv := Slice.alloc_view h (Slice.view h s ++ xs) e₁
  unfold Slice.rawDescendant Slice.append
  split
  · simp only [Slice.view, Slice.alloc] at hv ⊢
    have hne : h.length ≠ s.arr := by omega
    simpa [List.getD, List.getElem?_set, Ne.symm hne] using hv
  · simp only [Slice.view, Slice.alloc, List.getD] at hv ⊢
    simpa using hv

-- a fragment with three tokens in an array of four
example : let h : Heap := [[b!"a", b!"b", b!"c", []]]
    let a := Slice.rawDescendant h ⟨0, 3⟩ [b!"x"] 0
    let b := Slice.rawDescendant a.1 ⟨0, 3⟩ [b!"y"] 0
    Slice.view a.1 a.2 = [b!"a", b!"b", b!"c", b!"x"] ∧ Slice.view b.1 a.2 = [b!"a", b!"b", b!"c", b!"y"] := by decide

end Oapi.Props
