import Verif.Model.SliceHeap
import Verif.Proofs.Fragment

namespace Oapi
namespace Slice

/-- the slice lies inside its backing array -/
def Valid (h : Heap) (s : Slice) : Prop := s.arr < h.length ∧ s.len ≤ cap h s

/-- `h'` has the same first `n` arrays as `h` (and at least `n` arrays) -/
def Ext (n : Nat) (h h' : Heap) : Prop := n ≤ h'.length ∧ ∀ i, i < n → h'.getD i [] = h.getD i []

theorem Ext.refl (h : Heap) : Ext h.length h h := ⟨Nat.le_refl _, fun _ _ => rfl⟩

theorem Ext.trans {n m : Nat} {a b c : Heap} (h1 : Ext n a b) (h2 : Ext m b c) (hnm : n ≤ m) : Ext n a c :=
  ⟨Nat.le_trans hnm h2.1, fun i hi => (h2.2 i (Nat.lt_of_lt_of_le hi hnm)).trans (h1.2 i hi)⟩

theorem view_ext {h h' : Heap} {s : Slice} (e : Ext h.length h h') (v : Valid h s) :
    view h' s = view h s := by
  unfold view; rw [e.2 _ v.1]

theorem valid_ext {h h' : Heap} {s : Slice} (e : Ext h.length h h') (v : Valid h s) : Valid h' s := by
  refine ⟨Nat.lt_of_lt_of_le v.1 e.1, ?_⟩
  have := v.2; unfold cap at *; rw [e.2 _ v.1]; exact this

theorem alloc_ext (h : Heap) (xs : List Str) (extra : Nat) : Ext h.length h (alloc h xs extra).1 := by
  refine ⟨by simp [alloc], fun i hi => ?_⟩
  simp [alloc, List.getD, List.getElem?_append_left hi]

theorem alloc_valid (h : Heap) (xs : List Str) (extra : Nat) :
    Valid (alloc h xs extra).1 (alloc h xs extra).2 := by
  simp [alloc, Valid, cap, List.getD]

theorem alloc_view (h : Heap) (xs : List Str) (extra : Nat) :
    view (alloc h xs extra).1 (alloc h xs extra).2 = xs := by
  simp [alloc, view, List.getD]

@[simp] theorem alloc_arr (h : Heap) (xs : List Str) (extra : Nat) :
    (alloc h xs extra).2.arr = h.length := rfl
@[simp] theorem alloc_len (h : Heap) (xs : List Str) (extra : Nat) :
    (alloc h xs extra).2.len = xs.length := rfl

theorem view_length {h : Heap} {s : Slice} (v : Valid h s) : (view h s).length = s.len := by
  have := v.2; unfold cap at this
  simp only [view, List.length_take]; omega

theorem getD_set_self (h : Heap) (i : Nat) (x : List Str) (hi : i < h.length) :
    (h.set i x).getD i [] = x := by
  simp [List.getD, hi]

theorem getD_set_ne (h : Heap) (i j : Nat) (x : List Str) (hij : i ≠ j) :
    (h.set i x).getD j [] = h.getD j [] := by
  simp [List.getD, hij]

theorem append_view {h : Heap} {s : Slice} (v : Valid h s) (xs : List Str) (extra : Nat) :
    view (append h s xs extra).1 (append h s xs extra).2 = view h s ++ xs ∧
    Valid (append h s xs extra).1 (append h s xs extra).2 := by
  unfold append
  split
  · rename_i hc
    have hv := v.2
    unfold cap at hc hv
    generalize ha : h.getD s.arr [] = a at *
    constructor
    · simp only [view, getD_set_self _ _ _ v.1, ha, writeArr]
      rw [List.take_append_of_le_length (by simp; omega)]
      rw [List.take_of_length_le (by simp; omega)]
    · refine ⟨by simpa using v.1, ?_⟩
      simp only [cap, getD_set_self _ _ _ v.1, writeArr]
      simp
      omega
  · exact ⟨alloc_view _ _ _, alloc_valid _ _ _⟩

theorem append_ext {h0 h : Heap} {n : Nat} {s : Slice} (e : Ext n h0 h) (hs : n ≤ s.arr)
    (xs : List Str) (extra : Nat) : Ext n h0 (append h s xs extra).1 := by
  unfold append
  split
  · refine ⟨by simpa using e.1, fun i hi => ?_⟩
    rw [← e.2 i hi, getD_set_ne]; omega
  · exact e.trans (alloc_ext h _ _) e.1

theorem clone_props {h : Heap} (s : Slice) :
    Ext h.length h (clone h s).1 ∧ Valid (clone h s).1 (clone h s).2 ∧
    view (clone h s).1 (clone h s).2 = view h s ∧ (clone h s).2.arr = h.length :=
  ⟨alloc_ext _ _ _, alloc_valid _ _ _, alloc_view _ _ _, rfl⟩

/-- The tokens `Descendant` appends: the path with its optional leading '/' normalised. -/
theorem descendant_parse (path : Str) :
    ∃ d, Fragment.parseFragment
      (if Str.hasPrefix path Fragment.separator then path else Fragment.sepByte :: path) = .ok d := by
  by_cases hp : Str.hasPrefix path Fragment.separator = true
  · simp only [hp, if_true]
    cases path with
    | nil => simp [Str.hasPrefix, Fragment.separator] at hp
    | cons c t =>
      simp [Str.hasPrefix, Fragment.separator, List.isPrefixOf] at hp
      subst hp
      simp [Fragment.parseFragment, Fragment.sepByte]
  · simp [hp, Fragment.parseFragment, Fragment.sepByte]

theorem descendant_props {h0 h : Heap} {n : Nat} {s : Slice} (e : Ext n h0 h) (v : Valid h s)
    (hs : n ≤ s.arr) (path : Str) (extra : Nat) :
    Ext n h0 (descendant h s path extra).1 ∧
    Valid (descendant h s path extra).1 (descendant h s path extra).2 ∧
    Fragment.descendant (view h s) path =
      .ok (view (descendant h s path extra).1 (descendant h s path extra).2) := by
  obtain ⟨d, hd⟩ := descendant_parse path
  unfold descendant Fragment.descendant
  simp only [hd]
  have e1 := alloc_ext h d 0
  have v1 := valid_ext e1 v
  have w1 := view_ext e1 v
  rw [w1]
  split
  · exact ⟨e.trans e1 e.1, alloc_valid _ _ _, by rw [alloc_view]⟩
  · have := append_view v1 d extra
    refine ⟨append_ext (e.trans e1 e.1) hs d extra, this.2, ?_⟩
    rw [this.1, w1]

theorem replace_props {h : Heap} (s : Slice) (n : Nat) (el : Str) :
    Ext h.length h (replace h s n el).1 ∧ Valid (replace h s n el).1 (replace h s n el).2 ∧
    view (replace h s n el).1 (replace h s n el).2 = (view h s).set n el := by
  obtain ⟨e, v, w, a⟩ := clone_props (h := h) s
  unfold replace
  refine ⟨⟨by simpa using e.1, fun i hi => ?_⟩, ⟨by simpa using v.1, ?_⟩, ?_⟩
  · rw [← e.2 i hi]; exact getD_set_ne _ _ _ _ (by rw [a]; omega)
  · have := v.2
    simp only [cap] at *
    rw [getD_set_self _ _ _ v.1]; simpa using this
  · rw [← w]; simp only [view]
    rw [getD_set_self _ _ _ v.1, List.take_set]

theorem withDescendant_props {h : Heap} (s : Slice) (path : Str) (extra : Nat) :
    Ext h.length h (withDescendant h s path extra).1 ∧
    Valid (withDescendant h s path extra).1 (withDescendant h s path extra).2 ∧
    Fragment.descendant (view h s) path =
      .ok (view (withDescendant h s path extra).1 (withDescendant h s path extra).2) := by
  obtain ⟨e, v, w, a⟩ := clone_props (h := h) s
  have := descendant_props e v (by rw [a]; exact Nat.le_refl _) path extra
  rw [w] at this
  exact this

end Slice

namespace SliceState

def Inv (s : SliceState) : Prop := ∀ x ∈ s.regs, Slice.Valid s.heap x

theorem push_props {s : SliceState} (i : Inv s) {p : Heap × Slice}
    (e : Slice.Ext s.heap.length s.heap p.1) (v : Slice.Valid p.1 p.2) :
    Inv (s.push p) ∧ (s.push p).regs.map (Slice.view (s.push p).heap)
      = s.regs.map (Slice.view s.heap) ++ [Slice.view p.1 p.2] := by
  constructor
  · intro x hx
    simp [push] at hx
    rcases hx with hx | rfl
    · exact Slice.valid_ext e (i x hx)
    · exact v
  · simp only [push, List.map_append, List.map_cons, List.map_nil]
    congr 1
    apply List.map_congr_left
    intro x hx
    exact Slice.view_ext e (i x hx)

end SliceState
end Oapi
