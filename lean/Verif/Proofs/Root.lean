import Verif.Proofs.Merge2
import Verif.Model.OAPI
import Verif.Spec.OAPI

namespace Oapi.OAPI
open Oapi Spec Container Json

theorem merge_empty {f : Merger} (hk : KeepsWF f) {m : Obj} (hm : WF (.obj m)) :
    merge (.obj []) (.obj m) f = .ok (.obj m) := by
  have hw0 : WF (.obj []) := by simp [Obj.Sorted]
  rw [merge_local hk [] hw0]
  have hn := Obj.sorted_nodup ((WF_obj m).1 hm).1
  obtain ⟨r, hr⟩ := localMap_ok (f := f) m hn [] (fun k v _ => ⟨canon v, by simp [localVal]⟩)
  rw [hr]
  have : r = m := by
    apply Obj.ext_lookup ((WF_obj r).1 (localMap_WF hk m [] r hw0 hr)).1 ((WF_obj m).1 hm).1
    intro k
    have := localMap_spec m hn [] r hr k
    cases hl : Obj.lookup k m with
    | none => rw [hl] at this; simpa using this
    | some v =>
      rw [hl] at this
      obtain ⟨x, hx, hr⟩ := this
      simp [localVal] at hx
      rw [hr, ← hx, canon_of_WF _ (WF_lookup hm hl)]
  rw [this]

theorem merge_nonobj {f : Merger} {c s : Json} (h : isObj s = false) : merge c s f = .ok c := by
  cases s <;> first | rfl | simp [isObj] at h

/-- overriding with something that already covers it changes nothing -/
theorem fills_covered {s z r : Json} (hs : WF s) (hr : WF r) (hc : ∀ p n, nodeAt z p = some n → nodeAt s p ≠ none ∨ Shadowed s p)
    (h : Fills s z r) : r = s := by
  apply nodeAt_ext r s hr hs
  intro p
  have hp := h p
  cases hsn : nodeAt s p with
  | some n => exact hp.1 n hsn
  | none =>
    by_cases hsh : Shadowed s p
    · exact hp.2.1 hsn hsh
    · rw [hp.2.2 hsn hsh]
      cases hz : nodeAt z p with
      | none => rfl
      | some n => rcases hc p n hz with h1 | h1
                  · exact absurd hsn h1
                  · exact absurd h1 hsh

theorem rule_covers {R : Rule} {z y s : Json} (h : R.holds z y s) (p : List Str) (n : Node) (hz : nodeAt z p = some n) :
    nodeAt s p ≠ none ∨ Shadowed s p := by
  cases R with
  | docWins => left; rw [(h p).1 n hz]; simp
  | disjoint => left; rw [h.2 p, hz]; simp
  | rootWins =>
    have hp := h p
    cases hy : nodeAt y p with
    | some n' => left; rw [hp.1 n' hy]; simp
    | none =>
      by_cases hs : Shadowed y p
      · right
        obtain ⟨q, j, hq, hj⟩ := hs
        exact ⟨q, j, hq, (h q).1 _ hj⟩
      · left; rw [hp.2.2 hy hs, hz]; simp

/-- what each strategy does to two objects -/
def Implements (f : Merger) (R : Rule) : Prop := KeepsWF f ∧
  ∀ z y : Obj, WF (.obj z) → WF (.obj y) →
    (∃ r, merge (.obj z) (.obj y) f = .ok (.obj r) ∧ WF (.obj r) ∧ R.holds (.obj z) (.obj y) (.obj r)) ∨
    (merge (.obj z) (.obj y) f = .err .collision ∧ R.fails (.obj z) (.obj y))

theorem implements_default : Implements mergeDefault .docWins := by
  refine ⟨keepsWF_default, fun z y hz hy => Or.inl ?_⟩
  rw [merge_localVal keepsWF_default hz]
  obtain ⟨x, hx⟩ := localVal_total (f := mergeDefault) (fun a _ => ⟨a, rfl⟩) (.obj y) (some (.obj z))
  have hn := localVal_default hy hx
  have hw := localVal_WF keepsWF_default (.obj y) (some (.obj z)) x (by intro w hw; cases hw; exact hz) hx
  rcases isObj_cases x with h1 | ⟨r, rfl⟩
  · have := hn []; rw [firstWins_nil, nodeAt_leaf h1] at this; simp at this
  · exact ⟨r, hx, hw, fills_of rfl hn⟩

theorem implements_override : Implements mergeOverride .rootWins := by
  refine ⟨keepsWF_override, fun z y hz hy => Or.inl ?_⟩
  rw [merge_localVal keepsWF_override hz]
  obtain ⟨x, hx⟩ := localVal_total (f := mergeOverride) (fun _ b => ⟨b, rfl⟩) (.obj y) (some (.obj z))
  have hn := localVal_override hy hx
  have hw := localVal_WF keepsWF_override (.obj y) (some (.obj z)) x (by intro w hw; cases hw; exact hz) hx
  rcases isObj_cases x with h1 | ⟨r, rfl⟩
  · have := hn []; rw [firstWins_nil, nodeAt_leaf h1] at this; simp at this
  · exact ⟨r, hx, hw, fills_of rfl hn⟩

theorem implements_strict : Implements mergeStrict .disjoint := by
  refine ⟨keepsWF_strict, fun z y hz hy => ?_⟩
  rcases merge_strict hz hy with ⟨hc, he⟩ | ⟨hc, r, hr, hw, hu⟩
  · exact Or.inr ⟨he, hc⟩
  · exact Or.inl ⟨r, hr, hw, hc, hu⟩

theorem section_obj (m : Obj) (k : Str) : section_ (.obj m) k = Obj.lookup k m := rfl

theorem path_key {m : Obj} {k : Str} (h1 : (46 : UInt8) ∉ k) (h2 : (126 : UInt8) ∉ k) :
    path (.obj m) k = Obj.lookup k m := by
  unfold path
  rw [Gabs.dotPathToSlice_eq, Str.split_no_sep _ _ h1]
  simp only [List.map_cons, List.map_nil]
  rw [Gabs.dec_of_no_tilde k h2, Gabs.search_obj]
  cases Obj.lookup k m <;> rfl

theorem members_data (v : Option Json) : members v = match data v with | .obj m => .obj m | _ => .obj [] := by
  cases v with
  | none => rfl
  | some x => cases x <;> rfl

theorem members_isObj (v : Option Json) : ∃ m, members v = .obj m := by
  cases v with
  | none => exact ⟨[], rfl⟩
  | some x => cases x <;> exact ⟨_, rfl⟩

theorem members_WF {v : Option Json} (h : ∀ x, v = some x → WF x) : WF (members v) := by
  cases v with
  | none => simp [members, Obj.Sorted]
  | some x => have := h x rfl; cases x <;> simp_all [members, Obj.Sorted]

theorem merge_members_left {f : Merger} (hk : KeepsWF f) {v : Option Json} (h : ∀ x, v = some x → WF x) :
    merge (.obj []) (data v) f = .ok (members v) := by
  cases v with
  | none => rfl
  | some x =>
    rcases isObj_cases x with h1 | ⟨m, rfl⟩
    · show merge (.obj []) x f = _
      rw [merge_nonobj h1]; cases x <;> first | rfl | simp [isObj] at h1
    · exact merge_empty hk (h _ rfl)

theorem merge_members_right {f : Merger} (hk : KeepsWF f) {c : Obj} (hc : WF (.obj c)) {v : Option Json} :
    merge (.obj c) (data v) f = merge (.obj c) (members v) f := by
  have h0 : merge (.obj c) (.obj []) f = .ok (.obj c) := by rw [merge_local hk c hc]; rfl
  cases v with
  | none => rw [show members none = .obj [] from rfl, h0]; rfl
  | some x =>
    rcases isObj_cases x with h1 | ⟨m, rfl⟩
    · show merge (.obj c) x f = _
      rw [merge_nonobj h1]
      have : members (some x) = .obj [] := by cases x <;> first | rfl | simp [isObj] at h1
      rw [this, h0]
    · rfl

theorem mergeInto_spec {f : Merger} {R : Rule} (hf : Implements f R) {c : Obj} (hc : WF (.obj c)) {k : Str}
    {y : Option Json} (hy : ∀ x, y = some x → WF x) :
    (∃ c' : Obj, mergeInto (.obj c) k f (data (Obj.lookup k c)) (data y) = .ok (.obj c') ∧ WF (.obj c') ∧
      (∀ k', k' ≠ k → Obj.lookup k' c' = Obj.lookup k' c) ∧
      ∃ s : Obj, Obj.lookup k c' = some (.obj s) ∧ R.holds (members (Obj.lookup k c)) (members y) (.obj s)) ∨
    (mergeInto (.obj c) k f (data (Obj.lookup k c)) (data y) = .err .collision ∧
      R.fails (members (Obj.lookup k c)) (members y)) := by
  have hz : ∀ x, Obj.lookup k c = some x → WF x := fun x h => WF_lookup hc h
  unfold mergeInto
  rw [merge_members_left hf.1 hz]
  have hzw := members_WF hz
  have hyw := members_WF hy
  obtain ⟨z', hz'⟩ := members_isObj (Obj.lookup k c)
  obtain ⟨y', hy'⟩ := members_isObj y
  rw [hz'] at hzw ⊢; rw [hy'] at hyw
  simp only
  rw [merge_members_right hf.1 hzw, hy']
  rcases hf.2 z' y' hzw hyw with ⟨s, hs, hsw, hR⟩ | ⟨he, hcol⟩
  · left
    rw [hs]
    simp only
    rw [merge_local keepsWF_override c hc]
    have hv : localVal mergeOverride (Obj.lookup k c) (.obj s) = .ok (.obj s) := by
      cases hl : Obj.lookup k c with
      | none => simp only [localVal, canon_of_WF _ hsw]
      | some e =>
        rcases isObj_cases e with h1 | ⟨m, rfl⟩
        · rw [localVal_leaf (Or.inr h1)]; simp [mergeOverride, canon_of_WF _ hsw]
        · have hm : z' = m := by rw [hl] at hz'; simpa [members] using hz'.symm
          subst hm
          obtain ⟨r, hr, hrw, hfill⟩ := (implements_override.2 z' s hzw hsw).resolve_right (by simp [Rule.fails])
          rw [merge_localVal keepsWF_override hzw] at hr
          rw [hr]
          have := fills_covered hsw hrw (rule_covers hR) hfill
          rw [this]
    simp only [localMap, hv]
    refine ⟨Obj.insert k (.obj s) c, rfl, WF_insert k hc hsw, ?_, s, by simp, hR⟩
    intro k' hk'; exact Obj.lookup_insert_ne _ _ (by simpa using hk')
  · right
    rw [he]; exact ⟨rfl, hcol⟩

theorem isNil_data {v : Option Json} (h : Composite v) : isNil (data v) = .ok (decide (v = none ∨ v = some .null)) := by
  rcases h with rfl | ⟨x, rfl, rfl | hx⟩
  · rfl
  · rfl
  · cases x <;> simp [scalar] at hx <;> simp [data, isNil]

theorem bothNil_data {z y : Option Json} (hz : Composite z) (hy : Composite y) :
    (Missing z ∧ Missing y ∧ bothNil (data z) (data y) = .ok true) ∨
    (¬ (Missing z ∧ Missing y) ∧ bothNil (data z) (data y) = .ok false) := by
  unfold bothNil
  rw [isNil_data hz, isNil_data hy]
  by_cases h1 : z = none ∨ z = some .null
  · by_cases h2 : y = none ∨ y = some .null
    · left; exact ⟨h1, h2, by simp [h1, h2]⟩
    · right; refine ⟨fun h => h2 h.2, ?_⟩
      rw [decide_eq_true h1, decide_eq_false h2]
  · right; refine ⟨fun h => h1 h.1, ?_⟩
    rw [decide_eq_false h1]

/-- the outcome of one section -/
def SectionOut (R : Rule) (z y z' : Option Json) : Prop :=
  (Missing z ∧ Missing y ∧ z' = z) ∨
  (¬ (Missing z ∧ Missing y) ∧ ∃ s : Obj, z' = some (.obj s) ∧ R.holds (members z) (members y) (.obj s))

theorem mergeSection_spec {f : Merger} {R : Rule} (hf : Implements f R) {c r : Obj} (hc : WF (.obj c)) (hr : WF (.obj r))
    {k : Str} (k1 : (46 : UInt8) ∉ k) (k2 : (126 : UInt8) ∉ k)
    (hz : Composite (Obj.lookup k c)) (hy : Composite (Obj.lookup k r)) :
    (∃ c' : Obj, mergeSection (.obj r) (.obj c) k f = .ok (.obj c') ∧ WF (.obj c') ∧
      (∀ k', k' ≠ k → Obj.lookup k' c' = Obj.lookup k' c) ∧
      SectionOut R (Obj.lookup k c) (Obj.lookup k r) (Obj.lookup k c')) ∨
    (mergeSection (.obj r) (.obj c) k f = .err .collision ∧
      R.fails (members (Obj.lookup k c)) (members (Obj.lookup k r))) := by
  unfold mergeSection
  rw [path_key k1 k2, path_key k1 k2]
  rcases bothNil_data hz hy with ⟨h1, h2, hb⟩ | ⟨h, hb⟩
  · left; rw [hb]; exact ⟨c, rfl, hc, fun _ _ => rfl, Or.inl ⟨h1, h2, rfl⟩⟩
  · rw [hb]
    rcases mergeInto_spec hf hc (k := k) (y := Obj.lookup k r) (fun x h => WF_lookup hr h) with ⟨c', h1, h2, h3, s, h4, h5⟩ | h'
    · left; exact ⟨c', h1, h2, h3, Or.inr ⟨h, s, h4, h5⟩⟩
    · right; exact h'

structure Entry where
  key : Str
  f : Merger
  R : Rule

/-- a usable table of sections -/
structure Table (L : List Entry) : Prop where
  impl : ∀ e ∈ L, Implements e.f e.R
  nodot : ∀ e ∈ L, (46 : UInt8) ∉ e.key ∧ (126 : UInt8) ∉ e.key
  nodup : (L.map Entry.key).Nodup

theorem Table.tail {e : Entry} {L : List Entry} (h : Table (e :: L)) : Table L where
  impl x hx := h.impl x (by simp [hx])
  nodot x hx := h.nodot x (by simp [hx])
  nodup := by have := h.nodup; simp only [List.map_cons, List.nodup_cons] at this; exact this.2

theorem mergeSections_spec {L : List Entry} (hL : Table L) {c r : Obj} (hc : WF (.obj c)) (hr : WF (.obj r))
    (hz : ∀ e ∈ L, Composite (Obj.lookup e.key c)) (hy : ∀ e ∈ L, Composite (Obj.lookup e.key r)) :
    (∃ c' : Obj, mergeSections (.obj r) (L.map fun e => (e.key, e.f)) (.obj c) = .ok (.obj c') ∧ WF (.obj c') ∧
      (∀ k, (∀ e ∈ L, k ≠ e.key) → Obj.lookup k c' = Obj.lookup k c) ∧
      ∀ e ∈ L, SectionOut e.R (Obj.lookup e.key c) (Obj.lookup e.key r) (Obj.lookup e.key c')) ∨
    (mergeSections (.obj r) (L.map fun e => (e.key, e.f)) (.obj c) = .err .collision ∧
      ∃ e ∈ L, e.R.fails (members (Obj.lookup e.key c)) (members (Obj.lookup e.key r))) := by
  induction L generalizing c with
  | nil => left; exact ⟨c, rfl, hc, fun _ _ => rfl, by simp⟩
  | cons e t ih =>
    have hnd : e.key ∉ t.map Entry.key := by
      have := hL.nodup; simp only [List.map_cons, List.nodup_cons] at this; exact this.1
    have hne : ∀ x ∈ t, x.key ≠ e.key := fun x hx h => hnd (List.mem_map.2 ⟨x, hx, h⟩)
    simp only [List.map_cons, mergeSections]
    rcases mergeSection_spec (hL.impl e (by simp)) hc hr (hL.nodot e (by simp)).1 (hL.nodot e (by simp)).2
      (hz e (by simp)) (hy e (by simp)) with ⟨c', h1, h2, h3, h4⟩ | ⟨h1, h2⟩
    · rw [h1]
      rcases ih hL.tail h2 (fun x hx => by rw [h3 _ (hne x hx)]; exact hz x (by simp [hx])) (fun x hx => hy x (by simp [hx])) with
        ⟨d, g1, g2, g3, g4⟩ | ⟨g1, x, hx, g2⟩
      · left
        refine ⟨d, g1, g2, ?_, ?_⟩
        · intro k hk
          rw [g3 k (fun x hx => hk x (by simp [hx])), h3 k (hk e (by simp))]
        · intro x hx
          simp only [List.mem_cons] at hx
          rcases hx with rfl | hx
          · rw [g3 x.key (fun y hy h => hne y hy h.symm)]; exact h4
          · have := g4 x hx; rw [h3 _ (hne x hx)] at this; exact this
      · right
        refine ⟨g1, x, by simp [hx], ?_⟩
        rw [h3 _ (hne x hx)] at g2; exact g2
    · right; rw [h1]; exact ⟨rfl, e, by simp, h2⟩

theorem isNil_scalar {v : Option Json} (h : ¬ Composite v) : isNil (data v) = .panic := by
  cases v with
  | none => exact absurd (Or.inl rfl) h
  | some x =>
    cases x with
    | null => exact absurd (Or.inr ⟨_, rfl, Or.inl rfl⟩) h
    | obj m => exact absurd (Or.inr ⟨_, rfl, Or.inr rfl⟩) h
    | arr m => exact absurd (Or.inr ⟨_, rfl, Or.inr rfl⟩) h
    | _ => rfl

theorem mergeSections_scalar {L : List Entry} (hL : Table L) {c r : Obj} (hc : WF (.obj c)) (hr : WF (.obj r))
    (hy : ∀ e ∈ L, Composite (Obj.lookup e.key r)) (hs : ∃ e ∈ L, ¬ Composite (Obj.lookup e.key c)) :
    mergeSections (.obj r) (L.map fun e => (e.key, e.f)) (.obj c) = .panic ∨
    mergeSections (.obj r) (L.map fun e => (e.key, e.f)) (.obj c) = .err .collision := by
  induction L generalizing c with
  | nil => obtain ⟨e, he, _⟩ := hs; simp at he
  | cons e t ih =>
    have hnd : e.key ∉ t.map Entry.key := by
      have := hL.nodup; simp only [List.map_cons, List.nodup_cons] at this; exact this.1
    have hne : ∀ x ∈ t, x.key ≠ e.key := fun x hx h => hnd (List.mem_map.2 ⟨x, hx, h⟩)
    simp only [List.map_cons, mergeSections]
    by_cases hcz : Composite (Obj.lookup e.key c)
    · obtain ⟨x, hx, hxc⟩ := hs
      have hxt : x ∈ t := by
        simp only [List.mem_cons] at hx
        rcases hx with rfl | hx
        · exact absurd hcz hxc
        · exact hx
      rcases mergeSection_spec (hL.impl e (by simp)) hc hr (hL.nodot e (by simp)).1 (hL.nodot e (by simp)).2
        hcz (hy e (by simp)) with ⟨c', h1, h2, h3, h4⟩ | ⟨h1, h2⟩
      · rw [h1]
        exact ih hL.tail h2 (fun x hx => hy x (by simp [hx])) ⟨x, hxt, by rw [h3 _ (hne x hxt)]; exact hxc⟩
      · right; rw [h1]
    · left
      have : mergeSection (.obj r) (.obj c) e.key e.f = .panic := by
        unfold mergeSection
        rw [path_key (hL.nodot e (by simp)).1 (hL.nodot e (by simp)).2]
        unfold bothNil
        rw [isNil_scalar hcz]
      rw [this]

def table : List Entry :=
  [⟨b!"info", mergeOverride, .rootWins⟩, ⟨b!"components", mergeStrict, .disjoint⟩, ⟨b!"paths", mergeDefault, .docWins⟩,
   ⟨b!"externalDocs", mergeDefault, .docWins⟩, ⟨b!"security", mergeDefault, .docWins⟩,
   ⟨b!"servers", mergeDefault, .docWins⟩, ⟨b!"tags", mergeDefault, .docWins⟩]

theorem table_ok : Table table where
  impl := by
    intro e he
    simp only [table, List.mem_cons, List.not_mem_nil, or_false] at he
    rcases he with rfl | rfl | rfl | rfl | rfl | rfl | rfl
    · exact implements_override
    · exact implements_strict
    all_goals exact implements_default
  nodot := by
    intro e he
    simp only [table, List.mem_cons, List.not_mem_nil, or_false] at he
    rcases he with rfl | rfl | rfl | rfl | rfl | rfl | rfl <;> decide
  nodup := by decide

theorem table_sections : table.map (fun e => (e.key, e.f)) = sections := rfl
theorem table_rules : table.map (fun e => (e.key, e.R)) = ruleOf := rfl

theorem mem_ruleOf {k : Str} {R : Rule} : (k, R) ∈ ruleOf ↔ ∃ e ∈ table, e.key = k ∧ e.R = R := by
  rw [← table_rules, List.mem_map]; simp

end Oapi.OAPI
