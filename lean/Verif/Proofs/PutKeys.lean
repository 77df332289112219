import Verif.Spec.Resolver
import Verif.Proofs.Refs
import Verif.Proofs.Merge

/-! Setting members by key path, creating objects on the way. -/
namespace Oapi
open Spec
open Container (keyLoc)

/-- The objects a key path goes through are objects where they exist. -/
def Open (ks : List Str) (j : Json) : Prop :=
  ∀ p, p <+: ks → p ≠ ks → ∀ v, getAt j (keyLoc p) = some v → ∃ m, v = .obj m

theorem Open.obj {k : Str} {ks : List Str} {j : Json} (h : Open (k :: ks) j) : ∃ m, j = .obj m :=
  h [] List.nil_prefix (by simp) j rfl

theorem Open.nil {j : Json} : Open [] j := by
  intro p hp hne
  exact absurd (List.prefix_nil.1 hp) hne

theorem Open.tail {k : Str} {ks : List Str} {m : Obj} (h : Open (k :: ks) (.obj m)) :
    Open ks (Gabs.fill (Obj.lookup k m)) := by
  intro p hp hne v hv
  cases hl : Obj.lookup k m with
  | none =>
    rw [hl] at hv
    cases p with
    | nil => simp only [keyLoc, List.map_nil, getAt, Gabs.fill] at hv; cases hv; exact ⟨_, rfl⟩
    | cons q p => simp [keyLoc, getAt, child, Gabs.fill] at hv
  | some c =>
    have hc : ∀ v, getAt c (keyLoc p) = some v → ∃ m, v = .obj m := by
      intro v hv
      refine h (k :: p) (List.cons_prefix_cons.2 ⟨rfl, hp⟩) (by simpa using hne) v ?_
      simp only [keyLoc, List.map_cons, getAt_obj_key, hl]; exact hv
    rw [hl] at hv
    by_cases hn : c = .null
    · subst hn
      simp only [Gabs.fill] at hv
      cases p with
      | nil => cases hv; exact ⟨_, rfl⟩
      | cons q p => simp [keyLoc, getAt, child] at hv
    · rw [Gabs.fill_some hn] at hv; exact hc v hv

theorem putKeys_cons (v : Json) (k : Str) (ks : List Str) (m : Obj) :
    putKeys v (k :: ks) (.obj m) = .obj (Obj.insert k (putKeys v ks (Gabs.fill (Obj.lookup k m))) m) := by
  simp only [putKeys]
  congr 2

theorem fill_open {k : Str} {ks : List Str} {m : Obj} (h : Open (k :: ks) (.obj m)) (hne : ks ≠ []) :
    ∃ m', Gabs.fill (Obj.lookup k m) = .obj m' := by
  cases hk : ks with
  | nil => exact absurd hk hne
  | cons k' ks' => rw [hk] at h; exact h.tail.obj

theorem setGo_putKeys (v : Json) (ks : List Str) : ∀ (root : Bool) (j : Json), Open ks j →
    Gabs.setGo v root ks j = .ok (putKeys v ks j) := by
  induction ks with
  | nil => intro root j _; simp [Gabs.setGo, putKeys]
  | cons k ks ih =>
    intro root j h
    obtain ⟨m, rfl⟩ := h.obj
    rw [putKeys_cons]
    cases ks with
    | nil => simp [Gabs.setGo, putKeys]
    | cons k' ks' =>
      rw [Gabs.setGo]
      simp only [ih false _ h.tail]

theorem setP_putKeys {v j : Json} {ks : List Str} (hne : ks ≠ []) (hg : ∀ k ∈ ks, GoodSeg k) (h : Open ks j) :
    Container.setP j (Str.join 46 ks) v = .ok (putKeys v ks j) := by
  unfold Container.setP
  have : Gabs.dotPathToSlice (Str.join 46 ks) = ks := by
    have := dotPath_segs (L := keyLoc ks) (by simpa using hne) (by
      intro st hst
      simp only [keyLoc, List.mem_map] at hst
      obtain ⟨k, hk, rfl⟩ := hst
      exact hg k hk)
    simpa [keyLoc, seg, Function.comp_def] using this
  rw [this]
  cases ks with
  | nil => exact absurd rfl hne
  | cons k ks =>
    obtain ⟨m, rfl⟩ := h.obj
    simp only [Gabs.set, Gabs.fill]
    exact setGo_putKeys v _ true _ h

theorem putKeys_WF {v : Json} (hv : Json.WF v) : ∀ {ks : List Str} {j : Json}, Json.WF j → Json.WF (putKeys v ks j) := by
  intro ks
  induction ks with
  | nil => intro j _; exact hv
  | cons k ks ih =>
    intro j hj
    cases j with
    | obj m =>
      rw [putKeys_cons]
      apply Json.WF_insert _ hj
      apply ih
      cases hl : Obj.lookup k m with
      | none => exact (Json.WF_obj []).2 ⟨True.intro, by simp [Json.WFO]⟩
      | some c =>
        have := Json.WF_lookup hj hl
        cases c <;> first | exact this | exact (Json.WF_obj []).2 ⟨True.intro, by simp [Json.WFO]⟩
    | _ => exact hj

/-- Reading below the written member. -/
theorem getAt_putKeys_below {v : Json} {ks : List Str} : ∀ {j : Json} (L : Loc), Open ks j →
    getAt (putKeys v ks j) (keyLoc ks ++ L) = getAt v L := by
  induction ks with
  | nil => intro j L _; rfl
  | cons k ks ih =>
    intro j L h
    obtain ⟨m, rfl⟩ := h.obj
    rw [putKeys_cons]
    simp only [keyLoc, List.map_cons, List.cons_append, getAt_obj_key, Obj.lookup_insert_self]
    exact ih L h.tail

/-- Reading beside the written member. -/
theorem getAt_putKeys_apart {v : Json} {ks : List Str} : ∀ {j : Json} {L : Loc}, Apart L (keyLoc ks) → Open ks j →
    getAt (putKeys v ks j) L = getAt j L := by
  induction ks with
  | nil => intro j L h _; exact absurd List.nil_prefix h.2
  | cons k ks ih =>
    intro j L h ho
    obtain ⟨m, rfl⟩ := ho.obj
    rw [putKeys_cons]
    cases L with
    | nil => exact absurd List.nil_prefix h.1
    | cons s L =>
      cases s with
      | idx n => rfl
      | key k' =>
        simp only [getAt_obj_key, Obj.lookup_insert]
        by_cases e : k' = k
        · subst e
          have ha : Apart L (keyLoc ks) :=
            ⟨fun hp => h.1 (List.cons_prefix_cons.2 ⟨rfl, hp⟩), fun hp => h.2 (List.cons_prefix_cons.2 ⟨rfl, hp⟩)⟩
          rw [if_pos rfl]
          simp only
          rw [ih ha ho.tail]
          have hL : L ≠ [] := by rintro rfl; exact ha.1 List.nil_prefix
          cases hl : Obj.lookup k' m with
          | none =>
            cases L with
            | nil => exact absurd rfl hL
            | cons s L => cases s <;> simp [Gabs.fill, getAt, child]
          | some c =>
            by_cases hn : c = .null
            · subst hn
              cases L with
              | nil => exact absurd rfl hL
              | cons s L => cases s <;> simp [Gabs.fill, getAt, child]
            · rw [Gabs.fill_some hn]
        · rw [if_neg e]

/-- Above the written member there are objects. -/
theorem getAt_putKeys_above {v : Json} {ks : List Str} : ∀ {j : Json} {p : List Str}, p <+: ks → p ≠ ks → Open ks j →
    ∃ m, getAt (putKeys v ks j) (keyLoc p) = some (.obj m) := by
  induction ks with
  | nil => intro j p hp hne; exact absurd (List.prefix_nil.1 hp) hne
  | cons k ks ih =>
    intro j p hp hne ho
    obtain ⟨m, rfl⟩ := ho.obj
    rw [putKeys_cons]
    cases p with
    | nil => exact ⟨_, rfl⟩
    | cons k' p =>
      obtain ⟨rfl, hp'⟩ := List.cons_prefix_cons.1 hp
      simp only [keyLoc, List.map_cons, getAt_obj_key, Obj.lookup_insert_self]
      exact ih hp' (by simpa using hne) ho.tail

theorem keyLoc_prefix {a b : List Str} (h : keyLoc a <+: keyLoc b) : a <+: b := by
  induction a generalizing b with
  | nil => exact List.nil_prefix
  | cons x a ih =>
    cases b with
    | nil => simp [keyLoc] at h
    | cons y b =>
      simp only [keyLoc, List.map_cons, List.cons_prefix_cons, Step.key.injEq] at h
      exact List.cons_prefix_cons.2 ⟨h.1, ih h.2⟩

/-- A key path none of whose beginnings reaches the other path stays open. -/
theorem Open.putKeys {v j : Json} {ks ks' : List Str} (h : Open ks j) (h' : Open ks' j)
    (hnp : ∀ p, p <+: ks' → p ≠ ks' → ¬ ks <+: p) : Open ks' (putKeys v ks j) := by
  intro p hp hne w hw
  by_cases hpk : p <+: ks
  · have hpne : p ≠ ks := fun e => hnp p hp hne (e ▸ List.prefix_refl _)
    obtain ⟨m, hm⟩ := getAt_putKeys_above (v := v) hpk hpne h
    rw [hm] at hw; cases hw; exact ⟨m, rfl⟩
  · have : Apart (keyLoc p) (keyLoc ks) := by
      exact ⟨fun hh => hpk (keyLoc_prefix hh), fun hh => hnp p hp hne (keyLoc_prefix hh)⟩
    rw [getAt_putKeys_apart this h] at hw
    exact h' p hp hne w hw

theorem putAt_obj_key {w : Json} {k : Str} {l : Loc} {m : Obj} {c : Json} (h : Obj.lookup k m = some c) :
    putAt w (.key k :: l) (.obj m) = .obj (Obj.insert k (putAt w l c) m) := by
  simp only [putAt, h]

/-- A write beside a key path leaves it open. -/
theorem Open.putAt {w j : Json} {L : Loc} {ks : List Str} (h : Open ks j) (ha : Apart L (keyLoc ks))
    : Open ks (putAt w L j) := by
  induction ks generalizing j L with
  | nil => exact absurd List.nil_prefix ha.2
  | cons k ks ih =>
    obtain ⟨m, rfl⟩ := h.obj
    cases L with
    | nil => exact absurd List.nil_prefix ha.1
    | cons s L =>
      cases s with
      | idx n => exact h
      | key k' =>
        cases hl : Obj.lookup k' m with
        | none => simp only [Spec.putAt, hl]; exact h
        | some c =>
          rw [putAt_obj_key hl]
          intro p hp hne v hv
          cases p with
          | nil => cases hv; exact ⟨_, rfl⟩
          | cons q p =>
            obtain ⟨rfl, hp'⟩ := List.cons_prefix_cons.1 hp
            simp only [keyLoc, List.map_cons, getAt_obj_key, Obj.lookup_insert] at hv
            by_cases e : q = k'
            · subst e
              rw [if_pos rfl] at hv
              have ha' : Apart L (keyLoc ks) :=
                ⟨fun hp => ha.1 (List.cons_prefix_cons.2 ⟨rfl, hp⟩), fun hp => ha.2 (List.cons_prefix_cons.2 ⟨rfl, hp⟩)⟩
              have hc : Open ks c := by
                intro p hp hne v hv
                refine h (q :: p) (List.cons_prefix_cons.2 ⟨rfl, hp⟩) (by simpa using hne) v ?_
                simp only [keyLoc, List.map_cons, getAt_obj_key, hl]; exact hv
              exact ih hc ha' p hp' (by simpa using hne) v hv
            · rw [if_neg e] at hv
              refine h (q :: p) hp hne v ?_
              simp only [keyLoc, List.map_cons, getAt_obj_key]; exact hv

/-- Writes beside a key path commute with setting it. -/
theorem putAt_putKeys {v w : Json} {ks : List Str} : ∀ {j old : Json} {L : Loc}, Json.WF j → getAt j L = some old →
    Apart L (keyLoc ks) → Open ks j → putAt w L (putKeys v ks j) = putKeys v ks (putAt w L j) := by
  induction ks with
  | nil => intro j old L _ _ h _; exact absurd List.nil_prefix h.2
  | cons k ks ih =>
    intro j old L hw hg ha ho
    obtain ⟨m, rfl⟩ := ho.obj
    rw [putKeys_cons]
    cases L with
    | nil => exact absurd List.nil_prefix ha.1
    | cons s L =>
      cases s with
      | idx n => simp [getAt, child] at hg
      | key k' =>
        rw [getAt_obj_key] at hg
        cases hl : Obj.lookup k' m with
        | none => rw [hl] at hg; cases hg
        | some c =>
          rw [hl] at hg
          by_cases e : k' = k
          · subst e
            have ha' : Apart L (keyLoc ks) :=
              ⟨fun hp => ha.1 (List.cons_prefix_cons.2 ⟨rfl, hp⟩), fun hp => ha.2 (List.cons_prefix_cons.2 ⟨rfl, hp⟩)⟩
            have hL : L ≠ [] := by rintro rfl; exact ha'.1 List.nil_prefix
            have hn : c ≠ .null := by
              rintro rfl
              cases L with
              | nil => exact hL rfl
              | cons s L => cases s <;> simp [getAt, child] at hg
            have hn' : putAt w L c ≠ .null := by
              cases L with
              | nil => exact absurd rfl hL
              | cons s L =>
                cases c with
                | null => exact absurd rfl hn
                | obj m' => cases s <;> simp only [putAt] <;> (try split) <;> simp
                | arr m' => cases s <;> simp only [putAt] <;> (try split) <;> simp
                | _ => cases s <;> simp [putAt]
            rw [putAt_obj_key (Obj.lookup_insert_self _ _ _), putAt_obj_key hl, putKeys_cons, Obj.lookup_insert_self, Container.insert_insert,
              Container.insert_insert, hl, Gabs.fill_some hn, Gabs.fill_some hn']
            have ht := ho.tail
            rw [hl, Gabs.fill_some hn] at ht
            rw [ih (Json.WF_lookup hw hl) hg ha' ht]
          · rw [putAt_obj_key (by rw [Obj.lookup_insert_ne _ _ e]; exact hl), putAt_obj_key hl, putKeys_cons,
              Obj.lookup_insert_ne _ _ (Ne.symm e)]
            rw [Container.insert_comm e _ _ ((Json.WF_obj m).1 hw).1]

/-- Setting twice. -/
theorem putKeys_putKeys {v w : Json} {ks : List Str} : ∀ {j : Json}, Open ks j → putKeys w ks (putKeys v ks j) = putKeys w ks j := by
  induction ks with
  | nil => intro j _; rfl
  | cons k ks ih =>
    intro j ho
    obtain ⟨m, rfl⟩ := ho.obj
    rw [putKeys_cons, putKeys_cons, putKeys_cons, Obj.lookup_insert_self, Container.insert_insert]
    congr 2
    cases ks with
    | nil => rfl
    | cons k' ks' =>
      obtain ⟨m', hm'⟩ := fill_open ho (by simp)
      have : Gabs.fill (some (putKeys v (k' :: ks') (Gabs.fill (Obj.lookup k m)))) = putKeys v (k' :: ks') (Gabs.fill (Obj.lookup k m)) := by
        rw [hm', putKeys_cons]; rfl
      rw [this]
      exact ih ho.tail

/-- Two settings of incomparable paths commute. -/
theorem putKeys_comm {v w : Json} {ks : List Str} : ∀ {ks' : List Str} {j : Json}, Json.WF j → Open ks j → Open ks' j →
    ¬ ks <+: ks' → ¬ ks' <+: ks → putKeys w ks' (putKeys v ks j) = putKeys v ks (putKeys w ks' j) := by
  induction ks with
  | nil => intro ks' j _ _ _ h; exact absurd List.nil_prefix h
  | cons k ks ih =>
    intro ks' j hw ho ho' h1 h2
    cases ks' with
    | nil => exact absurd List.nil_prefix h2
    | cons k' ks' =>
      obtain ⟨m, rfl⟩ := ho.obj
      rw [putKeys_cons, putKeys_cons, putKeys_cons, putKeys_cons]
      by_cases e : k' = k
      · subst e
        have h1' : ¬ ks <+: ks' := fun h => h1 (List.cons_prefix_cons.2 ⟨rfl, h⟩)
        have h2' : ¬ ks' <+: ks := fun h => h2 (List.cons_prefix_cons.2 ⟨rfl, h⟩)
        have hk : ks ≠ [] := by rintro rfl; exact h1' List.nil_prefix
        have hk' : ks' ≠ [] := by rintro rfl; exact h2' List.nil_prefix
        obtain ⟨m', hm'⟩ := fill_open ho hk
        have f1 : ∀ (ks : List Str) (v : Json), ks ≠ [] → Gabs.fill (some (putKeys v ks (Gabs.fill (Obj.lookup k' m)))) = putKeys v ks (Gabs.fill (Obj.lookup k' m)) := by
          intro ks v hk
          cases ks with
          | nil => exact absurd rfl hk
          | cons a b => rw [hm', putKeys_cons]; rfl
        rw [Obj.lookup_insert_self, Obj.lookup_insert_self, Container.insert_insert, Container.insert_insert, f1 _ _ hk, f1 _ _ hk']
        congr 2
        refine ih ?_ ho.tail ho'.tail h1' h2'
        cases hl : Obj.lookup k' m with
        | none => exact (Json.WF_obj []).2 ⟨True.intro, by simp [Json.WFO]⟩
        | some c =>
          have := Json.WF_lookup hw hl
          cases c <;> first | exact this | exact (Json.WF_obj []).2 ⟨True.intro, by simp [Json.WFO]⟩
      · rw [Obj.lookup_insert_ne _ _ e, Obj.lookup_insert_ne _ _ (Ne.symm e)]
        rw [Container.insert_comm (Ne.symm e) _ _ ((Json.WF_obj m).1 hw).1]

end Oapi
