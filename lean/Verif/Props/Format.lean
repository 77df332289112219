import Verif.Spec.Format
import Verif.Proofs.Json

/-! C54–C56: formatting. -/
namespace Oapi.Props
open Spec
open Format (Item Members SortedBy items order indexOf indexFrom)

/-! ### C54 -/

variable {m : Obj} {out : List Item}

/-- The members as key/value pairs. -/
def pairs (l : List Item) : List (Str × Json) := l.map fun i => (i.key, i.val)

theorem members_perm (h : Members order m out) : out.Perm (items order m) := by
  obtain ⟨it, s, h1, h2, h3⟩ := h
  exact h3.1.trans (h2.1.trans (h1.map _))

theorem members_sorted (h : Members order m out) : out.Pairwise fun x y => ¬ y.index < x.index := by
  obtain ⟨it, s, h1, h2, h3⟩ := h
  exact h3.2

theorem items_pairs (ord : List Str) (m : List (Str × Json)) : pairs (items ord m) = m := by
  unfold pairs items
  rw [List.map_map]
  conv => rhs; rw [← List.map_id m]
  exact List.map_congr_left fun _ _ => rfl

theorem item_index (h : Members order m out) {x : Item} (hx : x ∈ out) : x.index = indexOf x.key order := by
  obtain ⟨e, _, rfl⟩ := List.mem_map.1 ((members_perm h).mem_iff.1 hx)
  rfl

theorem index_eq (k : Str) : indexOf k order =
    if k = b!"openapi" then 0 else if k = b!"info" then 1 else if k = b!"components" then 2 else if k = b!"paths" then 3 else -1 := by
  simp [indexOf, order, indexFrom]

theorem index_known {k : Str} : k ∈ wellKnown ↔ 0 ≤ indexOf k order := by
  rw [index_eq]
  constructor
  · intro h
    simp only [wellKnown, List.mem_cons, List.not_mem_nil, or_false] at h
    rcases h with rfl | rfl | rfl | rfl <;> decide
  · intro h
    simp only [wellKnown, List.mem_cons, List.not_mem_nil, or_false]
    by_cases h1 : k = b!"openapi"
    · simp [h1]
    by_cases h2 : k = b!"info"
    · simp [h2]
    by_cases h3 : k = b!"components"
    · simp [h3]
    by_cases h4 : k = b!"paths"
    · simp [h4]
    · rw [if_neg h1, if_neg h2, if_neg h3, if_neg h4] at h; omega

/-- C54: the formatted document has exactly the members of the document, each once. -/
theorem C54_same_members (hm : (Obj.keys m).Nodup) (h : Members order m out) :
    (pairs out).Perm m ∧ (out.map Item.key).Nodup := by
  have hp := members_perm h
  have h1 : (pairs out).Perm m := by
    have := hp.map fun i : Item => (i.key, i.val)
    rw [show (items order m).map (fun i : Item => (i.key, i.val)) = m from items_pairs order m] at this
    exact this
  refine ⟨h1, ?_⟩
  have : out.map Item.key = (pairs out).map Prod.fst := by unfold pairs; rw [List.map_map]; rfl
  rw [this]
  exact (h1.map _).nodup_iff.2 hm

theorem precedes_of {l : List Item} (hs : l.Pairwise fun x y => ¬ y.index < x.index) {x y : Item} (hx : x ∈ l) (hy : y ∈ l)
    (hlt : x.index < y.index) : Precedes (l.map Item.key) x.key y.key := by
  obtain ⟨a, b, rfl⟩ := List.append_of_mem hx
  rcases List.mem_append.1 hy with hy | hy
  · rw [List.pairwise_append] at hs
    exact absurd hlt (hs.2.2 y hy x (by simp))
  · rcases List.mem_cons.1 hy with rfl | hy
    · omega
    · obtain ⟨c, d, rfl⟩ := List.append_of_mem hy
      exact ⟨a.map Item.key, c.map Item.key, d.map Item.key, by simp⟩

/-- C54: the well-known sections that are present stand in the order openapi, info, components, paths. -/
theorem C54_known_in_order (h : Members order m out) (i j : Nat) (a b : Str) (hij : i < j) (ha : wellKnown[i]? = some a)
    (hb : wellKnown[j]? = some b) (hpa : a ∈ out.map Item.key) (hpb : b ∈ out.map Item.key) : Precedes (out.map Item.key) a b := by
  obtain ⟨x, hx, rfl⟩ := List.mem_map.1 hpa
  obtain ⟨y, hy, rfl⟩ := List.mem_map.1 hpb
  apply precedes_of (members_sorted h) hx hy
  rw [item_index h hx, item_index h hy]
  have hlt : ∀ (i j : Fin 4), i < j → indexOf (wellKnown[i.val]'(i.isLt)) order < indexOf (wellKnown[j.val]'(j.isLt)) order := by decide
  obtain ⟨hi, ha⟩ := List.getElem?_eq_some_iff.1 ha
  obtain ⟨hj, hb⟩ := List.getElem?_eq_some_iff.1 hb
  rw [← ha, ← hb]
  exact hlt ⟨i, hi⟩ ⟨j, hj⟩ hij

/-- C54: all other members come before them. -/
theorem C54_others_first (h : Members order m out) (a b : Str) (ha : a ∉ wellKnown) (hb : b ∈ wellKnown)
    (hpa : a ∈ out.map Item.key) (hpb : b ∈ out.map Item.key) : Precedes (out.map Item.key) a b := by
  obtain ⟨x, hx, rfl⟩ := List.mem_map.1 hpa
  obtain ⟨y, hy, rfl⟩ := List.mem_map.1 hpb
  apply precedes_of (members_sorted h) hx hy
  rw [item_index h hx, item_index h hy]
  have h1 := index_known.1 hb
  have h2 : ¬ 0 ≤ indexOf x.key order := fun h => ha (index_known.2 h)
  omega

/-! ### C55 -/

/-- C55: there always is an output. -/
theorem C55_some_output (m : Obj) : ∃ out, Members order m out := by
  refine ⟨(items order m).mergeSort (fun x y => decide (x.index ≤ y.index)), m,
    (items order m).mergeSort (fun x y => decide (x.index ≤ y.index)), .refl _, ?_, ?_⟩
  · refine ⟨List.mergeSort_perm _ _, ?_⟩
    have := List.pairwise_mergeSort (le := fun x y : Item => decide (x.index ≤ y.index))
      (by intro a b c h1 h2; simp only [decide_eq_true_eq] at *; omega)
      (by intro a b; simp only [Bool.or_eq_true, decide_eq_true_eq]; omega) (items order m)
    exact this.imp fun h => by simp only [decide_eq_true_eq] at h; omega
  · refine ⟨.refl _, ?_⟩
    have := List.pairwise_mergeSort (le := fun x y : Item => decide (x.index ≤ y.index))
      (by intro a b c h1 h2; simp only [decide_eq_true_eq] at *; omega)
      (by intro a b; simp only [Bool.or_eq_true, decide_eq_true_eq]; omega) (items order m)
    exact this.imp fun h => by simp only [decide_eq_true_eq] at h; omega

/-- Members that are not well-known sections. -/
def others (m : Obj) : List (Str × Json) := m.filter fun e => decide (e.1 ∉ wellKnown)

theorem index_inj {k l : Str} (hk : k ∈ wellKnown) (h : indexOf k order = indexOf l order) : k = l := by
  have hl : l ∈ wellKnown := index_known.2 (by rw [← h]; exact index_known.1 hk)
  have : ∀ a ∈ wellKnown, ∀ b ∈ wellKnown, indexOf a order = indexOf b order → a = b := by decide
  exact this k hk l hl h

theorem unique_of_distinct : ∀ {a b : List Item}, (a.Pairwise fun x y => ¬ y.index < x.index) → (b.Pairwise fun x y => ¬ y.index < x.index) →
    (∀ x ∈ a, ∀ y ∈ a, x.index = y.index → x = y) → a.Perm b → a = b := by
  intro a
  induction a with
  | nil => intro b _ _ _ h; exact (List.nil_perm.1 h).symm
  | cons x a ih =>
    intro b ha hb hd h
    cases b with
    | nil => exact absurd h (by simp)
    | cons y b =>
      rw [List.pairwise_cons] at ha hb
      have : x = y := by
        have hx : x ∈ y :: b := h.mem_iff.1 (by simp)
        have hy : y ∈ x :: a := h.mem_iff.2 (by simp)
        rcases List.mem_cons.1 hx with h1 | h1
        · exact h1
        · rcases List.mem_cons.1 hy with h2 | h2
          · exact h2.symm
          · have h3 := hb.1 x h1
            have h4 := ha.1 y h2
            exact hd x (by simp) y (by simp [h2]) (by omega)
      subst this
      rw [ih ha.2 hb.2 (fun u hu v hv => hd u (by simp [hu]) v (by simp [hv])) (List.Perm.cons_inv h)]

/-- C55: with at most one member outside the well-known ones the output is the same whatever the map order and the sorting
algorithm. -/
theorem C55_deterministic (hm : (Obj.keys m).Nodup) (ho : (others m).length ≤ 1) {out₁ out₂ : List Item}
    (h₁ : Members order m out₁) (h₂ : Members order m out₂) : out₁ = out₂ := by
  apply unique_of_distinct (members_sorted h₁) (members_sorted h₂) ?_ ((members_perm h₁).trans (members_perm h₂).symm)
  intro x hx y hy hxy
  have hnd := (C54_same_members hm h₁).2
  obtain ⟨ex, hex, rfl⟩ := List.mem_map.1 ((members_perm h₁).mem_iff.1 hx)
  obtain ⟨ey, hey, rfl⟩ := List.mem_map.1 ((members_perm h₁).mem_iff.1 hy)
  simp only at hxy
  have hkey : ex.1 = ey.1 := by
    by_cases hk : ex.1 ∈ wellKnown
    · exact index_inj hk hxy
    · have hk' : ey.1 ∉ wellKnown := fun h => hk (by rw [index_inj h hxy.symm] at h; exact h)
      have m1 : ex ∈ others m := List.mem_filter.2 ⟨hex, by simpa using hk⟩
      have m2 : ey ∈ others m := List.mem_filter.2 ⟨hey, by simpa using hk'⟩
      match ho' : others m, ho with
      | [], _ => rw [ho'] at m1; cases m1
      | [z], _ =>
        rw [ho', List.mem_singleton] at m1 m2
        rw [m1, m2]
  have hv : ex.2 = ey.2 := by
    have a1 := Obj.lookup_of_mem hm hex
    have a2 := Obj.lookup_of_mem hm hey
    rw [hkey] at a1
    rw [a1] at a2
    exact Option.some.inj a2
  rw [show ex = ey from Prod.ext hkey hv]

theorem two_orders {a b : Str × Json} {rest : List (Str × Json)} (hp : (a :: b :: rest).Perm m)
    (ha : a.1 ∉ wellKnown) :
    ∃ out t, Members order m out ∧ out = ⟨a.1, a.2, -1⟩ :: t := by
  have ia : indexOf a.1 order = -1 := by
    have h : ¬ 0 ≤ indexOf a.1 order := fun h => ha (index_known.2 h)
    rw [index_eq] at h ⊢
    repeat' split
    all_goals first | rfl | (exfalso; simp_all)
  have hge : ∀ k, -1 ≤ indexOf k order := by
    intro k; rw [index_eq]; repeat' split
    all_goals omega
  have hpair : ∀ (l : List Item), ((l.mergeSort fun x y => decide (x.index ≤ y.index))).Pairwise (fun x y => ¬ y.index < x.index) := by
    intro l
    have := List.pairwise_mergeSort (le := fun x y : Item => decide (x.index ≤ y.index))
      (by intro a b c h1 h2; simp only [decide_eq_true_eq] at *; omega)
      (by intro a b; simp only [Bool.or_eq_true, decide_eq_true_eq]; omega) l
    exact this.imp fun h => by simp only [decide_eq_true_eq] at h; omega
  let t := (items order (b :: rest)).mergeSort fun x y => decide (x.index ≤ y.index)
  have hs : SortedBy (items order (a :: b :: rest)) (⟨a.1, a.2, -1⟩ :: t) := by
    refine ⟨?_, ?_⟩
    · have : items order (a :: b :: rest) = ⟨a.1, a.2, -1⟩ :: items order (b :: rest) := by
        show (⟨a.1, a.2, indexOf a.1 order⟩ : Item) :: _ = _
        rw [ia]; rfl
      rw [this]
      exact (List.mergeSort_perm _ _).cons _
    · rw [List.pairwise_cons]
      refine ⟨?_, hpair _⟩
      intro x hx
      obtain ⟨e, _, rfl⟩ := List.mem_map.1 ((List.mergeSort_perm _ _).mem_iff.1 hx)
      have := hge e.1
      show ¬ indexOf e.1 order < -1
      omega
  exact ⟨_, t, ⟨_, _, hp, hs, .refl _, hs.2⟩, rfl⟩

/-- C55: with two or more such members there are two runs whose outputs start with different members … -/
theorem C55_nondeterministic (hm : (Obj.keys m).Nodup) (ho : 2 ≤ (others m).length) :
    ∃ out₁ out₂, Members order m out₁ ∧ Members order m out₂ ∧ ∃ k l, (out₁.map Item.key).head? = some k ∧
      (out₂.map Item.key).head? = some l ∧ k ≠ l := by
  obtain ⟨a, b, r, hr⟩ : ∃ a b r, others m = a :: b :: r := by
    match h : others m, ho with
    | a :: b :: r, _ => exact ⟨a, b, r, rfl⟩
  have hsplit : (others m ++ m.filter fun e => ! decide (e.1 ∉ wellKnown)).Perm m := List.filter_append_perm _ _
  rw [hr] at hsplit
  have ha : a.1 ∉ wellKnown := by
    have : a ∈ others m := by rw [hr]; simp
    simpa using (List.mem_filter.1 this).2
  have hb : b.1 ∉ wellKnown := by
    have : b ∈ others m := by rw [hr]; simp
    simpa using (List.mem_filter.1 this).2
  obtain ⟨o₁, t₁, h₁, e₁⟩ := two_orders (by simpa using hsplit) ha
  obtain ⟨o₂, t₂, h₂, e₂⟩ := two_orders (a := b) (b := a) ((List.Perm.swap a b _).trans (by simpa using hsplit)) hb
  refine ⟨o₁, o₂, h₁, h₂, a.1, b.1, by rw [e₁]; rfl, by rw [e₂]; rfl, ?_⟩
  intro e
  have : (Obj.keys (a :: b :: (r ++ m.filter fun e => ! decide (e.1 ∉ wellKnown)))).Nodup :=
    (List.Perm.nodup_iff ((show (a :: b :: (r ++ m.filter fun e => ! decide (e.1 ∉ wellKnown))).Perm m by simpa using hsplit).map Prod.fst)).2 hm
  have h2 := (List.nodup_cons.1 this).1
  exact h2 (by rw [e]; simp)

/-- C55: … so that, keys being quoted in a self-delimiting way, the texts differ. -/
theorem C55_texts_differ (quote : Str → Str) (enc : Json → Str) (hq : SelfDelimiting quote) (hm : (Obj.keys m).Nodup)
    (ho : 2 ≤ (others m).length) :
    ∃ out₁ out₂, Members order m out₁ ∧ Members order m out₂ ∧
      Format.objectText quote enc out₁ ≠ Format.objectText quote enc out₂ := by
  obtain ⟨o₁, o₂, h₁, h₂, k, l, hk, hl, hne⟩ := C55_nondeterministic hm ho
  refine ⟨o₁, o₂, h₁, h₂, ?_⟩
  have key : ∀ (o : List Item) (k : Str), (o.map Item.key).head? = some k → ∃ s, Format.objectText quote enc o = 123 :: (quote k ++ s) := by
    intro o k hk
    match o with
    | [] => cases hk
    | [x] =>
      simp at hk; subst hk
      exact ⟨58 :: enc x.val ++ [125], by simp [Format.objectText, Format.memberTexts]⟩
    | x :: y :: t =>
      simp at hk; subst hk
      exact ⟨58 :: enc x.val ++ 44 :: Format.memberTexts quote enc (y :: t) ++ [125], by simp [Format.objectText, Format.memberTexts]⟩
  obtain ⟨s, hs⟩ := key o₁ k hk
  obtain ⟨t, ht⟩ := key o₂ l hl
  rw [hs, ht]
  intro e
  injection e with _ e
  exact hne (hq k l s t e)

/-! A document with one other section, and one with two. -/
def docOne : Obj := [(b!"components", .obj []), (b!"info", .obj []), (b!"openapi", .str b!"3.0.0"), (b!"paths", .obj []), (b!"tags", .arr [])]
def docTwo : Obj := [(b!"components", .obj []), (b!"openapi", .str b!"3.0.0"), (b!"security", .arr []), (b!"tags", .arr [])]

example : (Obj.keys docOne).Nodup ∧ (others docOne).length = 1 ∧ (Obj.keys docTwo).Nodup ∧ (others docTwo).length = 2 := by decide
example : ∃ out, Members order docOne out ∧ out.map Item.key = [b!"tags", b!"openapi", b!"info", b!"components", b!"paths"] := by
  let out : List Item := [⟨b!"tags", .arr [], -1⟩, ⟨b!"openapi", .str b!"3.0.0", 0⟩, ⟨b!"info", .obj [], 1⟩,
    ⟨b!"components", .obj [], 2⟩, ⟨b!"paths", .obj [], 3⟩]
  refine ⟨out, ⟨pairs out, out, ?_, ⟨.refl _, by decide⟩, ⟨.refl _, by decide⟩⟩, by decide⟩
  have h1 : pairs out = [(b!"tags", .arr []), (b!"openapi", .str b!"3.0.0"), (b!"info", .obj []), (b!"components", .obj []), (b!"paths", .obj [])] := rfl
  rw [h1]
  decide
/-- Plain quoting of keys without quotes is self-delimiting. -/
example : ∀ a b s t : Str, (34 : UInt8) ∉ a → (34 : UInt8) ∉ b → (34 :: a ++ [34]) ++ s = (34 :: b ++ [34]) ++ t → a = b := by
  intro a
  induction a with
  | nil =>
    intro b s t _ hb h
    cases b with
    | nil => rfl
    | cons c b => simp at h; exact absurd h.1.symm (fun e => hb (by rw [e]; simp))
  | cons c a ih =>
    intro b s t ha hb h
    cases b with
    | nil => simp at h; exact absurd h.1 (fun e => ha (by rw [← e]; simp))
    | cons d b =>
      simp only [List.mem_cons, not_or] at ha hb
      simp at h
      rw [h.1, ih b s t ha.2 hb.2 (by simp [h.2])]

/-! ### C56 -/

theorem rawLiteral_spec (v r : Str) (h : (96 : UInt8) ∉ v) : rawLiteral (v ++ 96 :: r) = some (v.filter (· ≠ 13), r) := by
  induction v with
  | nil => simp [rawLiteral]
  | cons c v ih =>
    simp only [List.mem_cons, not_or] at h
    rw [List.cons_append, rawLiteral, if_neg (fun e => h.1 e.symm), ih h.2]
    simp only [Option.some.injEq, Prod.mk.injEq, and_true]
    by_cases hc : c = 13
    · rw [if_pos hc]; simp [hc]
    · rw [if_neg hc]; simp [hc]

theorem firstRaw_spec (a s : Str) (h : (96 : UInt8) ∉ a) : firstRaw (a ++ 96 :: s) = rawLiteral s := by
  induction a with
  | nil => simp [firstRaw]
  | cons c a ih =>
    simp only [List.mem_cons, not_or] at h
    rw [List.cons_append, firstRaw, if_neg (fun e => h.1 e.symm), ih h.2]

theorem header_no_quote {pkg : Str} (h : (96 : UInt8) ∉ pkg) : (96 : UInt8) ∉ Format.header pkg := by
  unfold Format.header
  simp only [List.mem_append, not_or]
  exact ⟨⟨by decide, h⟩, by decide⟩

/-- C56: for every JSON text without backquote and carriage return the constant's value is exactly that text, and the file ends
after it. -/
theorem C56_exact (pkg json : Str) (hp : (96 : UInt8) ∉ pkg) (h1 : (96 : UInt8) ∉ json) (h2 : (13 : UInt8) ∉ json) :
    firstRaw (Format.goFile pkg json) = some (json, b!"\n") := by
  unfold Format.goFile
  rw [List.append_assoc, List.cons_append, firstRaw_spec _ _ (header_no_quote hp), rawLiteral_spec _ _ h1]
  rw [List.filter_eq_self.2]
  intro c hc
  simpa using fun e : c = 13 => h2 (by rw [← e]; exact hc)

/-- C56: with a backquote in the text the literal ends there: its value is at most what comes before the first backquote, and
something else than the end of the file follows. -/
theorem C56_backquote_breaks (pkg a b : Str) (hp : (96 : UInt8) ∉ pkg) (ha : (96 : UInt8) ∉ a) :
    ∃ v r, firstRaw (Format.goFile pkg (a ++ 96 :: b)) = some (v, r) ∧ v.length ≤ a.length ∧ v ≠ a ++ 96 :: b ∧ r = b ++ 96 :: b!"\n" := by
  unfold Format.goFile
  rw [List.append_assoc, List.cons_append, firstRaw_spec _ _ (header_no_quote hp), List.append_assoc, List.cons_append, rawLiteral_spec _ _ ha]
  refine ⟨_, _, rfl, List.length_filter_le .., ?_, by simp⟩
  intro e
  have h1 := List.length_filter_le (fun x : UInt8 => decide (x ≠ 13)) a
  rw [e] at h1
  simp at h1
  omega

/-- C56: so the file holds the document if and only if the text has no backquote (texts without carriage return: JSON escapes
them). -/
theorem C56_iff (pkg json : Str) (hp : (96 : UInt8) ∉ pkg) (h2 : (13 : UInt8) ∉ json) :
    firstRaw (Format.goFile pkg json) = some (json, b!"\n") ↔ (96 : UInt8) ∉ json := by
  constructor
  · intro h hm
    have hsp : ∀ s : Str, (96 : UInt8) ∈ s → ∃ a b, s = a ++ 96 :: b ∧ (96 : UInt8) ∉ a := by
      intro s
      induction s with
      | nil => intro h; cases h
      | cons c t ih =>
        intro hm
        by_cases hc : c = 96
        · exact ⟨[], t, by rw [hc]; rfl, by simp⟩
        · rcases List.mem_cons.1 hm with h | h
          · exact absurd h.symm hc
          · obtain ⟨a, b, rfl, ha⟩ := ih h
            exact ⟨c :: a, b, rfl, by simp only [List.mem_cons, not_or]; exact ⟨fun e => hc e.symm, ha⟩⟩
    obtain ⟨a, b, rfl, ha⟩ := hsp json hm
    obtain ⟨v, r, h3, _, h4, _⟩ := C56_backquote_breaks pkg a b hp ha
    rw [h] at h3
    simp only [Option.some.injEq, Prod.mk.injEq] at h3
    exact h4 h3.1.symm
  · intro h; exact C56_exact pkg json hp h h2

/-- C56: the `go` format is that file, in package main, around the JSON encoding. -/
theorem C56_format (yaml jsn pretty : Res Str) (json : Str) (h : jsn = .ok json) :
    Format.format yaml jsn pretty b!"go" = .ok (Format.goFile b!"main" json) := by
  rw [h]; rfl

/-- C56: which encoding each of the other formats gives. -/
theorem C56_encodings (yaml jsn pretty : Res Str) :
    Format.format yaml jsn pretty b!"yaml" = yaml ∧ Format.format yaml jsn pretty b!"yml" = yaml ∧
    Format.format yaml jsn pretty b!"json" = jsn ∧ Format.format yaml jsn pretty b!"json:pretty" = pretty := by
  refine ⟨rfl, rfl, rfl, rfl⟩

/-- C56: unknown formats are errors. -/
theorem C56_unknown_format (yaml jsn pretty : Res Str) (f : Str) (h : f ∉ [b!"yaml", b!"yml", b!"json", b!"json:pretty", b!"go"]) :
    ∃ e, Format.format yaml jsn pretty f = .err e := by
  simp only [List.mem_cons, List.not_mem_nil, or_false, not_or] at h
  exact ⟨.unsupported, by simp [Format.format, h]⟩

example : firstRaw (Format.goFile b!"main" b!"{\"a\":\"x\"}") = some (b!"{\"a\":\"x\"}", b!"\n") := by decide
example : firstRaw (Format.goFile b!"main" b!"{\"a\":\"`x`\"}") = some (b!"{\"a\":\"", b!"x`\"}`\n") := by decide

end Oapi.Props
