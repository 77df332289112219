import Verif.Proofs.SpecJson2

/- Lemmas for Verif.Props.SpecJson: parts of a document, fixed points. -/
namespace Oapi.SpecJson
open Spec.SpecJson

/-- Only a known name given in small and capital letters is this member. -/
theorem member_inj {s : Section} {m m' : Str} {k k' : Kind} (h : kindOf s m = some k) (h' : kindOf s m' = some k')
    (hl : lowerName m = lowerName m') : m = m' := by
  obtain ⟨f, hf, rfl, _⟩ := field_of_kind h
  obtain ⟨f', hf', rfl, _⟩ := field_of_kind h'
  rw [field_inj hf hf' hl]

/-- In an object that has only known members, what is given is what is found. -/
theorem given_known {s : Section} {o : Obj} (hs : Obj.Sorted o) (hk : ∀ m x, Obj.lookup m o = some x → kindOf s m ≠ none) {m : Str} {k : Kind}
    (hm : kindOf s m = some k) : given o m = Obj.lookup m o := by
  have hn := Obj.sorted_nodup hs
  cases hg : given o m with
  | none =>
    cases hl : Obj.lookup m o with
    | none => rfl
    | some x => exact absurd rfl (given_none hg _ (Obj.lookup_mem hl))
  | some x =>
    obtain ⟨key, h1, h2⟩ := given_some hg
    have hl := Obj.lookup_of_mem hn h1
    obtain ⟨k', hk'⟩ := Option.ne_none_iff_exists'.1 (hk key x hl)
    rw [← member_inj hk' hm h2, hl]

theorem known_expected {s : Section} {o o' : Obj} {g : Str → Json} (ho : ∀ m, Obj.lookup m o' = expected s o g m) :
    ∀ m x, Obj.lookup m o' = some x → kindOf s m ≠ none := by
  intro m x h hk
  rw [ho] at h
  simp [expected, hk] at h

theorem twins_expected {s : Section} {o o' : Obj} {g : Str → Json} (ho : ∀ m, Obj.lookup m o' = expected s o g m) :
    NoTwins (members s) o' := by
  intro m k hm a ha b hb hla hlb
  obtain ⟨x, hx⟩ := (Obj.mem_keys_iff a o').1 ha
  obtain ⟨y, hy⟩ := (Obj.mem_keys_iff b o').1 hb
  obtain ⟨k1, h1⟩ := Option.ne_none_iff_exists'.1 (known_expected ho a x hx)
  obtain ⟨k2, h2⟩ := Option.ne_none_iff_exists'.1 (known_expected ho b y hy)
  exact member_inj h1 h2 (hla.trans hlb.symm)

/-- The value of a known member after reading and writing. -/
theorem expected_cases {s : Section} {o : Obj} {g : Str → Json} {m : Str} {k : Kind} {y : Json} (hk : kindOf s m = some k)
    (h : expected s o g m = some y) :
    (given o m = none ∧ m ∈ written s ∧ y = zeroOf k) ∨ ∃ x, given o m = some x ∧ (m ∈ written s ∨ blank k x = false) ∧ y = g m := by
  simp only [expected, hk] at h
  cases hg : given o m with
  | none =>
    rw [hg] at h
    simp only at h
    split at h
    · rename_i hw; cases h; exact .inl ⟨rfl, hw, rfl⟩
    · cases h
  | some x =>
    rw [hg] at h
    simp only at h
    split at h
    · cases h
    · rename_i hw
      cases h
      refine .inr ⟨x, rfl, ?_, rfl⟩
      by_cases hm : m ∈ written s
      · exact .inl hm
      · cases hb : blank k x with
        | false => exact .inr rfl
        | true => exact absurd ⟨hm, hb⟩ hw

theorem zero_no_obj (k : Kind) (o : Obj) : zeroOf k ≠ .obj o := by cases k <;> simp [zeroOf]
theorem zero_no_arr (k : Kind) (o : List Json) : zeroOf k ≠ .arr o := by cases k <;> simp [zeroOf]

theorem at_leaf {k k' : Kind} {j j' : Json} (ho : ∀ o, j ≠ .obj o) (ha : ∀ xs, j ≠ .arr xs) (h : At k j k' j') : k = k' ∧ j = j' := by
  cases h with
  | here => exact ⟨rfl, rfl⟩
  | elem => exact absurd rfl (ha _)
  | entry => exact absurd rfl (ho _)
  | member => exact absurd rfl (ho _)
  | callbackReference => exact absurd rfl (ho _)
  | callback => exact absurd rfl (ho _)

theorem at_zero {k k' : Kind} {j' : Json} (h : At k (zeroOf k) k' j') : k = k' ∧ j' = zeroOf k := by
  obtain ⟨h1, h2⟩ := at_leaf (zero_no_obj k) (zero_no_arr k) h
  exact ⟨h1, h2.symm⟩

theorem at_ref {k' : Kind} {j j' : Json} (h : At .reference j k' j') : k' = .reference ∧ j' = j := by
  cases h; exact ⟨rfl, rfl⟩

/-- A reference that is not null is written as a text. -/
theorem ref_text {e : Around} {x y : Json} (h : Passes e .reference x y) (hn : x ≠ .null) : ∃ s, y = .str s := by
  cases h with
  | null => exact absurd rfl hn
  | reference s p => exact ⟨_, rfl⟩
  | oddReference p => exact ⟨_, rfl⟩

/-- Blank values stay blank and the others stay the others, except for the empty expression. -/
theorem blank_kept {e : Around} {k : Kind} {x y : Json} (h : Passes e k x y) (hx : k = .expression → x ≠ .str []) (hb : blank k x = false) :
    blank k y = false := by
  cases h with
  | null => cases k <;> simp_all [blank, zeroOf]
  | text | flag | number | integer | free | reference | oddReference => simp_all [blank]
  | expression => rfl
  | noExpression => exact absurd rfl (hx rfl)
  | value => exact hb
  | list k xs ys hl _ =>
    simp only [blank] at hb ⊢
    cases xs <;> cases ys <;> simp_all
  | dict k o o' hk _ =>
    simp only [blank] at hb ⊢
    cases o <;> cases o' <;> simp_all [Obj.keys]
  | callbackReference => rfl
  | callback o y _ _ h =>
    cases h with
    | dict => rfl
  | sec => rfl

theorem given_WF {o : Obj} {m : Str} {x : Json} (hw : (Json.obj o).WF) (hg : given o m = some x) : x.WF := by
  obtain ⟨key, hkey, _⟩ := given_some hg
  exact (Json.WFO_iff o).1 ((Json.WF_obj o).1 hw).2 _ hkey

theorem section_tidy {e : Around} {s : Section} {o o' : Obj} {g : Str → Json} (hs : Obj.Sorted o')
    (h : ∀ m k x, kindOf s m = some k → given o m = some x → Passes e k x (g m))
    (hx : ∀ m x, kindOf s m = some .expression → given o m = some x → x ≠ .str [])
    (ho : ∀ m, Obj.lookup m o' = expected s o g m) : Tidy s o' := by
  refine ⟨fun m hm => ?_, fun m hm => ?_, fun m x k hm hk hw => ?_⟩
  · obtain ⟨x, hx⟩ := (Obj.mem_keys_iff m o').1 hm
    exact known_expected ho m x hx
  · have hk : ∃ k, kindOf s m = some k := by
      have : ∀ s : Section, (written s).all (fun m => (kindOf s m).isSome) = true := by intro s; cases s <;> decide
      have := List.all_eq_true.1 (this s) m hm
      exact Option.isSome_iff_exists.1 this
    obtain ⟨k, hk⟩ := hk
    refine (Obj.mem_keys_iff m o').2 ?_
    rw [ho]
    simp only [expected, hk]
    cases given o m with
    | none => exact ⟨_, if_pos hm⟩
    | some x => exact ⟨_, if_neg fun h => h.1 hm⟩
  · have hl := Obj.lookup_of_mem (Obj.sorted_nodup hs) hm
    rw [ho] at hl
    rcases expected_cases hk hl with ⟨_, h', _⟩ | ⟨x', hg, h', rfl⟩
    · exact absurd h' hw
    · rcases h' with h' | h'
      · exact absurd h' hw
      · exact blank_kept (h m k x' hk hg) (fun he => hx m x' (he ▸ hk) hg) h'

/-- No expression read in the value is the empty text. -/
def NoEmptyExpression (k : Kind) (j : Json) : Prop := ∀ x, At k j .expression x → x ≠ .str []

/-- All sections of what is written are tidy. -/
theorem passes_tidy {e : Around} {k : Kind} {x y : Json} (h : Passes e k x y) : x.WF → NoEmptyExpression k x → ∀ s o', At k y (.sec s) (.obj o') → Tidy s o' := by
  induction h with
  | null k => intro _ _ s o' ha; obtain ⟨_, h⟩ := at_zero ha; exact absurd h.symm (zero_no_obj k o')
  | text | flag | number | integer | reference | oddReference | expression | noExpression =>
    intro _ _ s o' ha; obtain ⟨_, h⟩ := at_leaf (by simp) (by simp) ha; cases h
  | free j => intro _ _ s o' ha; cases ha
  | value j => intro _ _ s o' ha; cases ha
  | list k xs ys hl h ih =>
    intro hw hx s o' ha
    cases ha with
    | elem hm ha =>
      obtain ⟨i, hi⟩ := List.getElem?_of_mem hm
      have hlt : i < xs.length := by rw [hl]; exact (List.getElem?_eq_some_iff.1 hi).1
      exact ih i _ _ (List.getElem?_eq_getElem hlt) hi
        ((Json.WFL_iff xs).1 ((Json.WF_arr xs).1 hw) _ (List.getElem_mem hlt)) (fun z hz => hx z (.elem (List.getElem_mem hlt) hz)) s o' ha
  | dict k o o₁ hk h ih =>
    intro hw hx s o' ha
    cases ha with
    | @entry _ _ m y _ _ hm ha =>
      obtain ⟨hs, hwo⟩ := (Json.WF_obj o).1 hw
      have hl : Obj.lookup m o₁ = some y := Obj.lookup_of_mem (hk ▸ Obj.sorted_nodup hs) hm
      have hmo : m ∈ Obj.keys o := hk ▸ (Obj.mem_keys_iff m o₁).2 ⟨_, hl⟩
      obtain ⟨x, hlx⟩ := (Obj.mem_keys_iff m o).1 hmo
      exact ih m x y hlx hl (Json.WFO_lookup hwo hlx) (fun z hz => hx z (.entry (Obj.lookup_mem hlx) hz)) s o' ha
  | callbackReference o x y hg ht hn h ih =>
    intro hw hx s o' ha
    obtain ⟨t, rfl⟩ := ref_text h hn
    cases ha with
    | callbackReference _ ha => cases ha
    | callback hx ha =>
      exfalso
      rcases hx with hx | hx
      · cases hx
      · cases hx
  | callback o y hg ht h ih =>
    intro hw hx s o' ha
    cases ha with
    | callbackReference _ ha => cases ha
    | callback _ ha => exact ih hw (fun z hz => hx z (.callback hg hz)) s o' ha
  | sec s o o₁ g ht h hs ho ih =>
    intro hw hx s' o' ha
    have hx' : ∀ m x, kindOf s m = some .expression → given o m = some x → x ≠ .str [] := fun m x hk hg => hx x (.member hk hg (.here _ _))
    cases ha with
    | here => exact section_tidy hs h hx' ho
    | @member _ _ m k x' _ _ hk hg ha =>
      rw [given_known hs (known_expected ho) hk, ho] at hg
      rcases expected_cases hk hg with ⟨_, _, rfl⟩ | ⟨x, hgx, _, rfl⟩
      · obtain ⟨_, h⟩ := at_zero ha; exact absurd h.symm (zero_no_obj _ _)
      · exact ih m k x hk hgx (given_WF hw hgx) (fun z hz => hx z (.member hk hgx hz)) s' o' ha

theorem settled_part {e : Around} {k k' : Kind} {j j' : Json} (h : AllSettled e k j) (hp : ∀ {k'' j''}, At k' j' k'' j'' → At k j k'' j'') :
    AllSettled e k' j' := ⟨fun x hx => h.1 x (hp hx), fun x hx => h.2 x (hp hx)⟩

theorem given_keys {o : Obj} {m : Str} : given o m = none ↔ ∀ a ∈ Obj.keys o, lowerName a ≠ lowerName m := by
  constructor
  · intro h a ha
    obtain ⟨e, he, rfl⟩ := List.mem_map.1 ha
    exact given_none h e he
  · intro h
    cases hg : given o m with
    | none => rfl
    | some x =>
      obtain ⟨key, h1, h2⟩ := given_some hg
      exact absurd h2 (h key (List.mem_map.2 ⟨_, h1, rfl⟩))

/-- What is written for a document with settled references is read and written as it is. -/
theorem passes_fix {e : Around} {k : Kind} {x y : Json} (h : Passes e k x y) : x.WF → AllSettled e k x → Passes e k y y := by
  induction h with
  | null k =>
    intro _ _
    cases k with
    | text => exact .text _
    | flag => exact .flag _
    | free => exact .free _
    | _ => exact .null _
  | text s => exact fun _ _ => .text s
  | flag s => exact fun _ _ => .flag s
  | number s => exact fun _ _ => .number s
  | integer s h => exact fun _ _ => .integer s h
  | free s => exact fun _ _ => .free s
  | reference s p h hq =>
    intro _ ha
    rcases ha.1 _ (.here _ _) with h' | ⟨s', h', hq', p', hp', e'⟩
    · cases h'
    · cases h'
      rw [h] at hp'
      cases hp'
      rw [e']
      have := Passes.reference (e := e) s p h hq
      rwa [e'] at this
  | oddReference j p hn hs h hq =>
    intro _ ha
    rcases ha.1 _ (.here _ _) with h' | ⟨s', h', _⟩
    · exact absurd h' hn
    · exact absurd h' (hs s')
  | expression s h => exact fun _ _ => .expression s h
  | noExpression => exact fun _ ha => absurd rfl (ha.2 _ (.here _ _))
  | value j hn hs => exact fun _ _ => .value j hn hs
  | list k xs ys hl h ih =>
    intro hw ha
    refine .list k ys ys rfl fun i y y' h1 h2 => ?_
    rw [h1] at h2
    cases h2
    have hlt : i < xs.length := by rw [hl]; exact (List.getElem?_eq_some_iff.1 h1).1
    exact ih i _ _ (List.getElem?_eq_getElem hlt) h1 ((Json.WFL_iff xs).1 ((Json.WF_arr xs).1 hw) _ (List.getElem_mem hlt))
      (settled_part ha fun h => .elem (List.getElem_mem hlt) h)
  | dict k o o₁ hk h ih =>
    intro hw ha
    obtain ⟨hs, hwo⟩ := (Json.WF_obj o).1 hw
    refine .dict k o₁ o₁ rfl fun m y y' h1 h2 => ?_
    rw [h1] at h2
    cases h2
    have hmo : m ∈ Obj.keys o := hk ▸ (Obj.mem_keys_iff m o₁).2 ⟨_, h1⟩
    obtain ⟨x, hlx⟩ := (Obj.mem_keys_iff m o).1 hmo
    exact ih m x y hlx h1 (Json.WFO_lookup hwo hlx) (settled_part ha fun h => .entry (Obj.lookup_mem hlx) h)
  | callbackReference o x y hg ht hn h ih =>
    intro hw ha
    have hy := ih (given_WF hw hg) (settled_part ha fun h => .callbackReference hg h)
    obtain ⟨t, rfl⟩ := ref_text h hn
    refine .callbackReference _ _ _ rfl ?_ (by nofun) hy
    intro m k hm a ha b hb _ _
    simp only [Obj.keys, List.map_cons, List.map_nil, List.mem_singleton] at ha hb
    rw [ha, hb]
  | callback o y hg ht h ih =>
    intro hw ha
    have hy := ih hw (settled_part ha fun h => .callback hg h)
    cases h with
    | dict _ _ o₁ hk h =>
      refine .callback o₁ _ ?_ ?_ hy
      · obtain ⟨hs, _⟩ := (Json.WF_obj o).1 hw
        rcases hg with hg | hg
        · left
          rw [given_keys] at hg ⊢
          rwa [← hk]
        · right
          obtain ⟨key, h1, h2⟩ := given_some hg
          have hl := Obj.lookup_of_mem (Obj.sorted_nodup hs) h1
          have hmo : key ∈ Obj.keys o₁ := hk ▸ (Obj.mem_keys_iff key o).2 ⟨_, hl⟩
          obtain ⟨y, hly⟩ := (Obj.mem_keys_iff key o₁).1 hmo
          have hp := h key _ _ hl hly
          have hy0 : y = .null := by cases hp; rfl
          subst hy0
          cases hgy : given o₁ b!"$ref" with
          | none => exact absurd h2 (given_none hgy _ (Obj.lookup_mem hly))
          | some z =>
            obtain ⟨key', g1, g2⟩ := given_some hgy
            have he : key' = key := ht b!"$ref" .reference (.head _) key' (hk ▸ List.mem_map.2 ⟨_, g1, rfl⟩) key
              (List.mem_map.2 ⟨_, h1, rfl⟩) g2 h2
            subst he
            have := Obj.lookup_of_mem (hk ▸ Obj.sorted_nodup hs) g1
            rw [hly] at this
            exact this.symm
      · intro m k hm a ha b hb h1 h2
        rw [← hk] at ha hb
        exact ht m k hm a ha b hb h1 h2
  | sec s o o₁ g ht h hs ho ih =>
    intro hw ha
    have hx' : ∀ m x, kindOf s m = some .expression → given o m = some x → x ≠ .str [] := fun m x hk hg => ha.2 x (.member hk hg (.here _ _))
    obtain ⟨t1, t2, t3⟩ := section_tidy hs h hx' ho
    have hgl : ∀ {m k}, kindOf s m = some k → given o₁ m = Obj.lookup m o₁ := fun hk => given_known hs (known_expected ho) hk
    refine .sec s o₁ o₁ (fun m => (Obj.lookup m o₁).getD .null) (twins_expected ho) ?_ hs ?_
    · intro m k y hk hg
      rw [hgl hk] at hg
      rw [hg]
      rw [ho] at hg
      rcases expected_cases hk hg with ⟨_, _, rfl⟩ | ⟨x, hgx, _, rfl⟩
      · cases k with
        | text => exact .text _
        | flag => exact .flag _
        | free => exact .free _
        | _ => exact .null _
      · exact ih m k x hk hgx (given_WF hw hgx) (settled_part ha fun h => .member hk hgx h)
    · intro m
      cases hk : kindOf s m with
      | none =>
        cases hl : Obj.lookup m o₁ with
        | none => simp [expected, hk]
        | some x => exact absurd hk (known_expected ho m x hl)
      | some k =>
        simp only [expected, hk, hgl hk]
        cases hl : Obj.lookup m o₁ with
        | none =>
          rw [if_neg]
          intro hm
          obtain ⟨x, hx⟩ := (Obj.mem_keys_iff m o₁).1 (t2 m hm)
          rw [hl] at hx
          cases hx
        | some y =>
          simp only [Option.getD_some]
          rw [if_neg]
          rintro ⟨hm, hb⟩
          rw [t3 m y k (Obj.lookup_mem hl) hk hm] at hb
          cases hb

theorem at_trans {k k₁ k₂ : Kind} {j j₁ j₂ : Json} (h : At k j k₁ j₁) (h' : At k₁ j₁ k₂ j₂) : At k j k₂ j₂ := by
  induction h with
  | here => exact h'
  | elem hx _ ih => exact .elem hx (ih h')
  | entry hx _ ih => exact .entry hx (ih h')
  | member hk hx _ ih => exact .member hk hx (ih h')
  | callbackReference hx _ ih => exact .callbackReference hx (ih h')
  | callback hx _ ih => exact .callback hx (ih h')

/-- If a document is accepted, so is every part. -/
theorem passes_part {e : Around} {k k' : Kind} {j j' : Json} (ha : At k j k' j') : j.WF → ∀ y, Passes e k j y → ∃ y', Passes e k' j' y' := by
  induction ha with
  | here k j => exact fun _ y h => ⟨y, h⟩
  | elem hx ha ih =>
    intro hw y h
    cases h with
    | list _ _ ys hl h =>
      obtain ⟨i, hi⟩ := List.getElem?_of_mem hx
      have hlt : i < ys.length := by rw [← hl]; exact (List.getElem?_eq_some_iff.1 hi).1
      exact ih ((Json.WFL_iff _).1 ((Json.WF_arr _).1 hw) _ hx) _ (h i _ _ hi (List.getElem?_eq_getElem hlt))
  | entry hx ha ih =>
    intro hw y h
    cases h with
    | dict _ _ o₁ hk h =>
      obtain ⟨hs, hwo⟩ := (Json.WF_obj _).1 hw
      have hl := Obj.lookup_of_mem (Obj.sorted_nodup hs) hx
      obtain ⟨y, hly⟩ := (Obj.mem_keys_iff _ o₁).1 (hk ▸ (Obj.mem_keys_iff _ _).2 ⟨_, hl⟩)
      exact ih (Json.WFO_lookup hwo hl) _ (h _ _ _ hl hly)
  | member hk hx ha ih =>
    intro hw y h
    cases h with
    | sec _ o o₁ g ht h hs ho => exact ih (given_WF hw hx) _ (h _ _ _ hk hx)
  | callbackReference hx ha ih =>
    intro hw y h
    cases h with
    | callbackReference o x y hg ht hn h =>
      rw [hg] at hx
      cases hx
      exact ih (given_WF hw hg) _ h
    | callback o y hg ht h =>
      rw [hx] at hg
      rcases hg with hg | hg
      · cases hg
      · cases hg
        exact ih trivial _ (.null _)
  | callback hx ha ih =>
    intro hw y h
    cases h with
    | callbackReference o x y hg ht hn h =>
      rcases hx with hx | hx
      · rw [hg] at hx; cases hx
      · rw [hg] at hx; cases hx; exact absurd rfl hn
    | callback o y hg ht h => exact ih hw _ h

theorem misfit_no {e : Around} {k : Kind} {j y : Json} (h : Passes e k j y) : ¬ Misfit e k j := by
  intro hm
  cases h with
  | null => cases k <;> exact hm
  | text s => exact hm s rfl
  | flag s => exact hm s rfl
  | number s => exact hm s rfl
  | integer s h => exact hm s h rfl
  | free j => cases j <;> exact hm
  | reference s p h hq => exact hm p h hq
  | oddReference _ p hn hs h hq =>
    cases j with
    | null => exact hn rfl
    | str s => exact hs s rfl
    | _ => exact hm p h hq
  | expression => exact hm
  | noExpression => exact hm
  | value => cases j <;> exact hm
  | list => exact hm _ rfl
  | dict => exact hm _ rfl
  | callbackReference => exact hm _ rfl
  | callback => exact hm _ rfl
  | sec => exact hm _ rfl

/-- An object with given members. -/
theorem build_obj (f : Str → Option Json) : ∀ ms : List Str, ∃ o, Obj.Sorted o ∧ ∀ m, Obj.lookup m o = if m ∈ ms then f m else none
  | [] => ⟨[], by simp [Obj.Sorted], by simp⟩
  | a :: ms => by
    obtain ⟨o, hs, ho⟩ := build_obj f ms
    cases ha : f a with
    | none =>
      refine ⟨o, hs, fun m => ?_⟩
      rw [ho]
      by_cases hm : m = a
      · subst hm; simp [ha]
      · simp [hm]
    | some x =>
      refine ⟨Obj.insert a x o, Obj.insert_sorted _ _ _ hs, fun m => ?_⟩
      rw [Obj.lookup_insert, ho]
      by_cases hm : m = a
      · subst hm; simp [ha]
      · simp [hm]

/-- A section whose members are accepted is accepted. -/
theorem sec_passes {e : Around} {s : Section} {o : Obj} (ht : NoTwins (members s) o)
    (h : ∀ m k x, kindOf s m = some k → given o m = some x → ∃ y, Passes e k x y) : ∃ y, Passes e (.sec s) (.obj o) y := by
  have hg : ∀ m, ∃ y, ∀ k x, kindOf s m = some k → given o m = some x → Passes e k x y := by
    intro m
    cases hk : kindOf s m with
    | none => exact ⟨.null, nofun⟩
    | some k =>
      cases hx : given o m with
      | none => exact ⟨.null, nofun⟩
      | some x =>
        obtain ⟨y, hy⟩ := h m k x hk hx
        exact ⟨y, fun k' x' hk' hx' => by cases hk'; cases hx'; exact hy⟩
  obtain ⟨g, hg⟩ := Classical.axiomOfChoice hg
  obtain ⟨o', hs, ho⟩ := build_obj (expected s o g) ((members s).map (·.1))
  refine ⟨.obj o', .sec s o o' g ht (fun m k x hk hx => hg m k x hk hx) hs fun m => ?_⟩
  rw [ho]
  split
  · rfl
  · rename_i hm
    cases hk : kindOf s m with
    | none => simp [expected, hk]
    | some k => exact absurd (List.mem_map.2 ⟨_, members_mem hk, rfl⟩) hm

theorem list_passes {e : Around} {k : Kind} : ∀ {xs : List Json}, (∀ x ∈ xs, ∃ y, Passes e k x y) →
    ∃ ys : List Json, xs.length = ys.length ∧ ∀ (i : Nat) x y, xs[i]? = some x → ys[i]? = some y → Passes e k x y
  | [], _ => ⟨[], rfl, by simp⟩
  | x :: xs, h => by
    obtain ⟨y, hy⟩ := h x (.head _)
    obtain ⟨ys, hl, hys⟩ := list_passes fun x hx => h x (.tail _ hx)
    refine ⟨y :: ys, by simp [hl], fun i x' y' h1 h2 => ?_⟩
    cases i with
    | zero => simp at h1 h2; subst h1 h2; exact hy
    | succ i => simp at h1 h2; exact hys i _ _ h1 h2

theorem dict_passes {e : Around} {k : Kind} : ∀ {o : Obj}, (∀ m x, (m, x) ∈ o → ∃ y, Passes e k x y) →
    ∃ o' : Obj, Obj.keys o = Obj.keys o' ∧ ∀ m x y, Obj.lookup m o = some x → Obj.lookup m o' = some y → Passes e k x y
  | [], _ => ⟨[], rfl, by simp⟩
  | (m, x) :: o, h => by
    obtain ⟨y, hy⟩ := h m x (.head _)
    obtain ⟨o', hl, hys⟩ := dict_passes (o := o) fun m x hx => h m x (.tail _ hx)
    refine ⟨(m, y) :: o', by simp [hl], fun m' x' y' h1 h2 => ?_⟩
    simp only [Obj.lookup] at h1 h2
    by_cases hm : m' = m
    · subst hm; simp at h1 h2; subst h1 h2; exact hy
    · simp [hm, Ne.symm hm] at h1 h2; exact hys m' x' y' h1 h2

/-- A document without misfits is accepted. -/
theorem fits_passes {e : Around} : ∀ (n : Nat) {k : Kind} {j : Json}, sizeOf j ≤ n → j.WF → Clear k j →
    (∀ k' j', At k j k' j' → ¬ Misfit e k' j') → ∃ y, Passes e k j y := by
  intro n
  induction n with
  | zero => intro k j hn; cases j <;> simp at hn
  | succ n ih =>
    intro k j hn hw hc ha
    have h0 : ¬ Misfit e k j := ha k j (.here _ _)
    by_cases hnull : j = .null
    · subst hnull; exact ⟨_, .null k⟩
    cases k with
    | text =>
      cases j with
      | str s => exact ⟨_, .text s⟩
      | null => exact absurd rfl hnull
      | _ => exact absurd (by intro s; nofun) h0
    | flag =>
      cases j with
      | bool s => exact ⟨_, .flag s⟩
      | null => exact absurd rfl hnull
      | _ => exact absurd (by intro s; nofun) h0
    | number =>
      cases j with
      | num s => exact ⟨_, .number s⟩
      | null => exact absurd rfl hnull
      | _ => exact absurd (by intro s; nofun) h0
    | integer =>
      cases j with
      | num s =>
        cases hi : e.integer s with
        | true => exact ⟨_, .integer s hi⟩
        | false => exact absurd (by intro s' hs' h'; cases h'; rw [hi] at hs'; cases hs') h0
      | null => exact absurd rfl hnull
      | _ => exact absurd (by intro s _; nofun) h0
    | free => exact ⟨_, .free j⟩
    | reference =>
      have key : ∀ t, (¬ ∀ p, Pointer.parse t = .ok p → ¬ Spec.PtrJson.Quotable e.printable p.toStr) →
          ∃ p, Pointer.parse t = .ok p ∧ Spec.PtrJson.Quotable e.printable p.toStr := by
        intro t ht
        obtain ⟨p, hp⟩ := Classical.not_forall.1 ht
        obtain ⟨h1, h2⟩ := Classical.not_imp.1 hp
        exact ⟨p, h1, Classical.not_not.1 h2⟩
      cases j with
      | null => exact absurd rfl hnull
      | str s =>
        obtain ⟨p, h1, h2⟩ := key s h0
        exact ⟨_, .reference s p h1 h2⟩
      | bool b => obtain ⟨p, h1, h2⟩ := key _ h0; exact ⟨_, .oddReference _ p hnull (by nofun) h1 h2⟩
      | num b => obtain ⟨p, h1, h2⟩ := key _ h0; exact ⟨_, .oddReference _ p hnull (by nofun) h1 h2⟩
      | arr b => obtain ⟨p, h1, h2⟩ := key _ h0; exact ⟨_, .oddReference _ p hnull (by nofun) h1 h2⟩
      | obj b => obtain ⟨p, h1, h2⟩ := key _ h0; exact ⟨_, .oddReference _ p hnull (by nofun) h1 h2⟩
    | expression =>
      cases j with
      | str s =>
        by_cases hs : s = []
        · subst hs; exact ⟨_, .noExpression⟩
        · exact ⟨_, .expression s hs⟩
      | _ => exact ⟨_, .value _ hnull (by nofun)⟩
    | list k =>
      cases j with
      | arr xs =>
        simp only [Clear] at hc
        obtain ⟨ys, h1, h2⟩ := list_passes (e := e) (k := k) (xs := xs) fun x hx => by
          refine ih ?_ ((Json.WFL_iff xs).1 ((Json.WF_arr xs).1 hw) _ hx) (clear_list hc x hx) fun k' j' h => ha k' j' (.elem hx h)
          have := List.sizeOf_lt_of_mem hx
          simp only [Json.arr.sizeOf_spec] at hn
          omega
        exact ⟨_, .list k xs ys h1 h2⟩
      | null => exact absurd rfl hnull
      | _ => exact absurd (by intro s; nofun) h0
    | dict k =>
      cases j with
      | obj o =>
        simp only [Clear] at hc
        obtain ⟨hs, hwo⟩ := (Json.WF_obj o).1 hw
        obtain ⟨ys, h1, h2⟩ := dict_passes (e := e) (k := k) (o := o) fun m x hx => by
          refine ih ?_ ((Json.WFO_iff o).1 hwo _ hx) (clear_dict hc _ hx) fun k' j' h => ha k' j' (.entry hx h)
          have := List.sizeOf_lt_of_mem hx
          simp only [Json.obj.sizeOf_spec, Prod.mk.sizeOf_spec] at hn this
          omega
        exact ⟨_, .dict k o ys h1 h2⟩
      | null => exact absurd rfl hnull
      | _ => exact absurd (by intro s; nofun) h0
    | callback =>
      cases j with
      | obj o =>
        simp only [Clear] at hc
        obtain ⟨hs, hwo⟩ := (Json.WF_obj o).1 hw
        have dict : given o b!"$ref" = none ∨ given o b!"$ref" = some .null → ∃ y, Passes e .callback (.obj o) y := by
          intro hg
          obtain ⟨ys, h1, h2⟩ := dict_passes (e := e) (k := .sec .pathItem) (o := o) fun m x hx => by
            refine ih ?_ ((Json.WFO_iff o).1 hwo _ hx) (clear_dict hc.2 _ hx) fun k' j' h => ha k' j' (.callback hg (.entry hx h))
            have := List.sizeOf_lt_of_mem hx
            simp only [Json.obj.sizeOf_spec, Prod.mk.sizeOf_spec] at hn this
            omega
          exact ⟨_, .callback o _ hg hc.1 (.dict _ o ys h1 h2)⟩
        cases hg : given o b!"$ref" with
        | none => exact dict (.inl hg)
        | some x =>
          by_cases hx : x = .null
          · exact dict (.inr (hx ▸ hg))
          · obtain ⟨y, hy⟩ := ih (k := .reference) (j := x) (by have := given_size hg; omega) (given_WF hw hg) (by cases x <;> simp [Clear])
              fun k' j' h => ha k' j' (.callbackReference hg h)
            exact ⟨_, .callbackReference o x y hg hc.1 hx hy⟩
      | null => exact absurd rfl hnull
      | _ => exact absurd (by intro s; nofun) h0
    | sec s =>
      cases j with
      | obj o =>
        simp only [Clear] at hc
        refine sec_passes hc.1 fun m k x hk hg => ?_
        obtain ⟨key, h1, h2⟩ := given_some hg
        exact ih (by have := given_size hg; omega) (given_WF hw hg) (clear_members hc.2 _ h1 m k (members_mem hk) h2)
          fun k' j' h => ha k' j' (.member hk hg h)
      | null => exact absurd rfl hnull
      | _ => exact absurd (by intro s; nofun) h0

end Oapi.SpecJson
