import Verif.Proofs.JsonEnc

/- Copying a tree through its JSON text. -/
namespace Oapi.JsonText
open Spec Spec.JsonText
open Spec.PtrJson (hexOf Hex4 Elem JsonString shorts Quotable)

theorem mapNumbersL_eq (f : Int → Int) (xs : List Json) : mapNumbersL f xs = xs.map (mapNumbers f) := by
  induction xs with
  | nil => rfl
  | cons x t ih => simp only [mapNumbersL, List.map_cons, ih]

theorem mapNumbersO_eq (f : Int → Int) (o : List (Str × Json)) : mapNumbersO f o = o.map fun p => (p.1, mapNumbers f p.2) := by
  induction o with
  | nil => rfl
  | cons x t ih => obtain ⟨k, x⟩ := x; simp only [mapNumbersO, List.map_cons, ih]

theorem keys_mapNumbersO (f : Int → Int) (o : Obj) : Obj.keys (mapNumbersO f o) = Obj.keys o := by
  rw [mapNumbersO_eq]
  simp [Obj.keys, List.map_map, Function.comp_def]

theorem sorted_mapNumbersO (f : Int → Int) {o : Obj} (h : Obj.Sorted o) : Obj.Sorted (mapNumbersO f o) := by
  induction o with
  | nil => trivial
  | cons p t ih =>
    obtain ⟨k, x⟩ := p
    simp only [mapNumbersO]
    rw [Obj.Sorted] at h ⊢
    rw [keys_mapNumbersO]
    exact ⟨h.1, ih h.2⟩

theorem lookup_mapNumbersO (f : Int → Int) (k : Str) (o : Obj) : Obj.lookup k (mapNumbersO f o) = (Obj.lookup k o).map (mapNumbers f) := by
  induction o with
  | nil => rfl
  | cons p t ih =>
    obtain ⟨k', x⟩ := p
    simp only [mapNumbersO, Obj.lookup, ih]
    split <;> rfl

theorem lastOf_mapNumbersO (f : Int → Int) (k : Str) (ms : List (Str × Json)) : lastOf (mapNumbersO f ms) k = (lastOf ms k).map (mapNumbers f) := by
  unfold lastOf
  rw [mapNumbersO_eq, ← List.map_reverse, List.find?_map]
  cases h : List.find? ((fun e => decide (e.1 = k)) ∘ fun p : Str × Json => (p.1, mapNumbers f p.2)) ms.reverse with
  | none =>
    have : ms.reverse.find? (fun e => decide (e.1 = k)) = none := h
    rw [this]; rfl
  | some e =>
    have : ms.reverse.find? (fun e => decide (e.1 = k)) = some e := h
    rw [this]; rfl

theorem collect_map (f : Int → Int) {ms : List (Str × Json)} {o : Obj} (h : Collect ms o) : Collect (mapNumbersO f ms) (mapNumbersO f o) :=
  ⟨sorted_mapNumbersO f h.1, fun k => by rw [lookup_mapNumbersO, lastOf_mapNumbersO, h.2]⟩

/-- The same for pieces. -/
def mapWhat (f : Int → Int) : What → What
  | .value j => .value (mapNumbers f j)
  | .elems l => .elems (mapNumbersL f l)
  | .members l => .members (mapNumbersO f l)

theorem means_map {N N' : Str → Int → Prop} {S : Str → Str → Prop} {f : Int → Int} (h : ∀ t n, N t n → N' t (f n)) {x : What} {w : Str} (hm : Means N S x w) :
    Means N' S (mapWhat f x) w := by
  induction hm with
  | null => exact .null
  | true_ => exact .true_
  | false_ => exact .false_
  | num hn => exact .num (h _ _ hn)
  | str hs => exact .str hs
  | arr0 hw => exact .arr0 hw
  | arr _ ih => exact .arr ih
  | obj0 hw => exact .obj0 hw
  | obj _ hc ih => exact .obj ih (collect_map f hc)
  | elem a _ b ih => exact .elem a ih b
  | elems a _ b _ ih ih' => exact .elems a ih b ih'
  | member a k b c _ d ih => exact .member a k b c ih d
  | members a k b c _ d _ ih ih' => exact .members a k b c ih d ih'

theorem means_mono {N : Str → Int → Prop} {S S' : Str → Str → Prop} (h : ∀ k s, S k s → S' k s) {x : What} {w : Str} (hm : Means N S x w) : Means N S' x w := by
  induction hm with
  | null => exact .null
  | true_ => exact .true_
  | false_ => exact .false_
  | num hn => exact .num hn
  | str hs => exact .str (h _ _ hs)
  | arr0 hw => exact .arr0 hw
  | arr _ ih => exact .arr ih
  | obj0 hw => exact .obj0 hw
  | obj _ hc ih => exact .obj ih hc
  | elem a _ b ih => exact .elem a ih b
  | elems a _ b _ ih ih' => exact .elems a ih b ih'
  | member a k b c _ d ih => exact .member a (h _ _ k) b c ih d
  | members a k b c _ d _ ih ih' => exact .members a (h _ _ k) b c ih d ih'

theorem doc_mono {N : Str → Int → Prop} {S S' : Str → Str → Prop} (h : ∀ k s, S k s → S' k s) {t : Str} {j : Json} (hd : Doc N S t j) : Doc N S' t j := by
  obtain ⟨a, w, b, h1, h2, h3, h4⟩ := hd
  exact ⟨a, w, b, h1, h2, h3, means_mono h h4⟩

theorem means_doc {N : Str → Int → Prop} {S : Str → Str → Prop} {t : Str} {j : Json} (h : Means N S (.value j) t) : Doc N S t j :=
  ⟨[], t, [], blank_none, blank_none, by simp, h⟩

/-! ### Unicode -/

theorem unicode_append {a b : Str} (ha : Unicode a) (hb : Unicode b) : Unicode (a ++ b) := by
  obtain ⟨rs, rfl, h1⟩ := ha
  obtain ⟨qs, rfl, h2⟩ := hb
  exact ⟨rs ++ qs, (Route.utf8s_append _ _).symm, fun r hr => (List.mem_append.1 hr).elim (h1 r) (h2 r)⟩

theorem unicode_rune {n : Nat} (h : Scalar n) : Unicode (utf8 n) := ⟨[n], by simp [utf8s], fun r hr => by rw [List.mem_singleton.1 hr]; exact h⟩

theorem unicode_byte {c : UInt8} (h : c < 128) : Unicode [c] := by
  have h' := UInt8.lt_iff_toNat_lt.1 h
  have e : (128 : UInt8).toNat = 128 := rfl
  have : [c] = utf8 c.toNat := by unfold utf8; rw [if_pos (by omega)]; simp
  rw [this]
  exact unicode_rune (.inl (by omega))

theorem body_unicode {b s : Str} (h : GoBody b s) : Unicode s := by
  induction h with
  | nil => exact ⟨[], rfl, nofun⟩
  | elem he _ ih =>
    refine unicode_append ?_ ih
    rename_i e _ _ _
    cases e with
    | plain n => exact unicode_rune he.1
    | short l m =>
      refine unicode_byte ?_
      simp only [Elem.ok, shorts, List.mem_cons, List.not_mem_nil, or_false, Prod.mk.injEq] at he
      rcases he with ⟨rfl, rfl⟩ | ⟨rfl, rfl⟩ | ⟨rfl, rfl⟩ | ⟨rfl, rfl⟩ | ⟨rfl, rfl⟩ | ⟨rfl, rfl⟩ | ⟨rfl, rfl⟩ <;> decide
    | slash => exact unicode_byte (by decide)
    | uni h => exact unicode_rune he
    | pair a b =>
      obtain ⟨h1, h2, h3, h4⟩ := he
      exact unicode_rune (.inr (by omega))
  | bad _ _ _ ih => exact unicode_append (unicode_rune (by unfold Scalar; omega)) ih
  | lone _ _ _ _ ih => exact unicode_append (unicode_rune (by unfold Scalar; omega)) ih

theorem allTextsO_iff (p : Str → Prop) (o : List (Str × Json)) : AllTextsO p o ↔ ∀ e ∈ o, p e.1 ∧ AllTexts p e.2 := by
  induction o with
  | nil => simp [AllTextsO]
  | cons e t ih =>
    obtain ⟨k, x⟩ := e
    rw [AllTextsO, ih]
    constructor
    · rintro ⟨h1, h2, h3⟩ e he
      rcases List.mem_cons.1 he with rfl | he
      · exact ⟨h1, h2⟩
      · exact h3 e he
    · intro h
      exact ⟨(h (k, x) (by simp)).1, (h (k, x) (by simp)).2, fun e he => h e (by simp [he])⟩

theorem allTextsL_iff (p : Str → Prop) (xs : List Json) : AllTextsL p xs ↔ ∀ x ∈ xs, AllTexts p x := by
  induction xs with
  | nil => simp [AllTextsL]
  | cons x t ih => rw [AllTextsL, ih]; simp

theorem allNumbersO_iff (p : Int → Prop) (o : List (Str × Json)) : AllNumbersO p o ↔ ∀ e ∈ o, AllNumbers p e.2 := by
  induction o with
  | nil => simp [AllNumbersO]
  | cons e t ih => obtain ⟨k, x⟩ := e; rw [AllNumbersO, ih]; simp

theorem allNumbersL_iff (p : Int → Prop) (xs : List Json) : AllNumbersL p xs ↔ ∀ x ∈ xs, AllNumbers p x := by
  induction xs with
  | nil => simp [AllNumbersL]
  | cons x t ih => rw [AllNumbersL, ih]; simp

theorem lastOf_in {ms : List (Str × Json)} {k : Str} {v : Json} (h : lastOf ms k = some v) : (k, v) ∈ ms := by
  unfold lastOf at h
  obtain ⟨e, he, rfl⟩ := Option.map_eq_some_iff.1 h
  have h1 := List.find?_some he
  have h2 := List.mem_of_find?_eq_some he
  simp only [decide_eq_true_eq] at h1
  subst h1
  exact List.mem_reverse.1 h2

theorem collect_in {ms : List (Str × Json)} {o : Obj} (h : Collect ms o) : ∀ e ∈ o, e ∈ ms := by
  rintro ⟨k, v⟩ he
  have := Obj.lookup_of_mem (Obj.sorted_nodup h.1) he
  rw [h.2] at this
  exact lastOf_in this

/-- The document is in the form Go maps have. -/
def wfWhat : What → Prop
  | .value j => Json.WF j
  | .elems l => ∀ j ∈ l, Json.WF j
  | .members l => ∀ e ∈ l, Json.WF e.2

theorem means_wf {N : Str → Int → Prop} {S : Str → Str → Prop} {x : What} {w : Str} (hm : Means N S x w) : wfWhat x := by
  induction hm with
  | null => simp [wfWhat, Json.WF]
  | true_ => simp [wfWhat, Json.WF]
  | false_ => simp [wfWhat, Json.WF]
  | num hn => simp [wfWhat, Json.WF]
  | str hs => simp [wfWhat, Json.WF]
  | arr0 hw => simp [wfWhat, Json.WF, Json.WFL]
  | arr _ ih => simp only [wfWhat, Json.WF]; exact (Json.WFL_iff _).2 ih
  | obj0 hw => simp [wfWhat, Json.WF, Json.WFO, Obj.Sorted]
  | obj _ hc ih => simp only [wfWhat, Json.WF]; exact ⟨hc.1, (Json.WFO_iff _).2 fun p hp => ih p (collect_in hc p hp)⟩
  | elem a _ b ih => simpa [wfWhat] using ih
  | elems a _ b _ ih ih' => intro j hj; exact (List.mem_cons.1 hj).elim (fun h => by rw [h]; exact ih) (ih' j)
  | member a k b c _ d ih => simpa [wfWhat] using ih
  | members a k b c _ d _ ih ih' => intro j hj; exact (List.mem_cons.1 hj).elim (fun h => by rw [h]; exact ih) (ih' j)

/-- What is read is Unicode. -/
def uniWhat : What → Prop
  | .value j => AllTexts Unicode j
  | .elems l => ∀ j ∈ l, AllTexts Unicode j
  | .members l => ∀ e ∈ l, Unicode e.1 ∧ AllTexts Unicode e.2

theorem means_unicode {N : Str → Int → Prop} {x : What} {w : Str} (hm : Means N GoString x w) : uniWhat x := by
  have hs : ∀ {k s : Str}, GoString k s → Unicode s := fun ⟨_, hb, _⟩ => body_unicode hb
  induction hm with
  | null => simp [uniWhat, AllTexts]
  | true_ => simp [uniWhat, AllTexts]
  | false_ => simp [uniWhat, AllTexts]
  | num hn => simp [uniWhat, AllTexts]
  | str h => simp only [uniWhat, AllTexts]; exact hs h
  | arr0 hw => simp [uniWhat, AllTexts, AllTextsL]
  | arr _ ih => simp only [uniWhat, AllTexts]; exact (allTextsL_iff _ _).2 ih
  | obj0 hw => simp [uniWhat, AllTexts, AllTextsO]
  | obj _ hc ih => simp only [uniWhat, AllTexts]; exact (allTextsO_iff _ _).2 fun p hp => ih p (collect_in hc p hp)
  | elem a _ b ih => simpa [uniWhat] using ih
  | elems a _ b _ ih ih' => intro j hj; exact (List.mem_cons.1 hj).elim (fun h => by rw [h]; exact ih) (ih' j)
  | member a k b c _ d ih => intro e he; rw [List.mem_singleton.1 he]; exact ⟨hs k, ih⟩
  | members a k b c _ d _ ih ih' => intro e he; exact (List.mem_cons.1 he).elim (fun h => by rw [h]; exact ⟨hs k, ih⟩) (ih' e)

/-- All numbers of what is read have texts. -/
def numWhat (P : Int → Prop) : What → Prop
  | .value j => AllNumbers P j
  | .elems l => ∀ j ∈ l, AllNumbers P j
  | .members l => ∀ e ∈ l, AllNumbers P e.2

theorem means_numbers {N : Str → Int → Prop} {S : Str → Str → Prop} {P : Int → Prop} (hP : ∀ t n, N t n → P n) {x : What} {w : Str} (hm : Means N S x w) : numWhat P x := by
  induction hm with
  | null => simp [numWhat, AllNumbers]
  | true_ => simp [numWhat, AllNumbers]
  | false_ => simp [numWhat, AllNumbers]
  | num hn => simp only [numWhat, AllNumbers]; exact hP _ _ hn
  | str h => simp [numWhat, AllNumbers]
  | arr0 hw => simp [numWhat, AllNumbers, AllNumbersL]
  | arr _ ih => simp only [numWhat, AllNumbers]; exact (allNumbersL_iff _ _).2 ih
  | obj0 hw => simp [numWhat, AllNumbers, AllNumbersO]
  | obj _ hc ih => simp only [numWhat, AllNumbers]; exact (allNumbersO_iff _ _).2 fun p hp => ih p (collect_in hc p hp)
  | elem a _ b ih => simpa [numWhat] using ih
  | elems a _ b _ ih ih' => intro j hj; exact (List.mem_cons.1 hj).elim (fun h => by rw [h]; exact ih) (ih' j)
  | member a k b c _ d ih => simpa [numWhat] using ih
  | members a k b c _ d _ ih ih' => intro j hj; exact (List.mem_cons.1 hj).elim (fun h => by rw [h]; exact ih) (ih' j)

/-! ### Fixed points -/

mutual
theorem mapNumbers_fixed (f : Int → Int) (j : Json) : mapNumbers f j = j ↔ AllNumbers (fun n => f n = n) j := by
  match j with
  | .null => simp [mapNumbers, AllNumbers]
  | .bool b => simp [mapNumbers, AllNumbers]
  | .num n => simp [mapNumbers, AllNumbers]
  | .str s => simp [mapNumbers, AllNumbers]
  | .arr xs => rw [mapNumbers, AllNumbers, Json.arr.injEq]; exact mapNumbersL_fixed f xs
  | .obj o => rw [mapNumbers, AllNumbers, Json.obj.injEq]; exact mapNumbersO_fixed f o
termination_by structural j
theorem mapNumbersL_fixed (f : Int → Int) (xs : List Json) : mapNumbersL f xs = xs ↔ AllNumbersL (fun n => f n = n) xs := by
  match xs with
  | [] => simp [mapNumbersL, AllNumbersL]
  | x :: xs => rw [mapNumbersL, AllNumbersL, List.cons.injEq, mapNumbers_fixed f x, mapNumbersL_fixed f xs]
termination_by structural xs
theorem mapNumbersO_fixed (f : Int → Int) (o : List (Str × Json)) : mapNumbersO f o = o ↔ AllNumbersO (fun n => f n = n) o := by
  match o with
  | [] => simp [mapNumbersO, AllNumbersO]
  | (k, x) :: o => rw [mapNumbersO, AllNumbersO, List.cons.injEq, Prod.mk.injEq, mapNumbers_fixed f x, mapNumbersO_fixed f o]; simp
termination_by structural o
end

end Oapi.JsonText
