import Verif.Model.Merge
import Verif.Proofs.Flatten

namespace Oapi.Container
open Spec

/-! ### Local form of the merge -/

mutual
/-- merge of a source map into an object -/
def localMap (f : Merger) (m : Obj) (kvs : List (Str × Json)) : Res Obj :=
  match kvs with
  | [] => .ok m
  | (k, v) :: t =>
    match localVal f (Obj.lookup k m) v with
    | .ok x => localMap f (Obj.insert k x m) t
    | .err e => .err e
    | .panic => .panic
termination_by structural kvs
/-- merge of a source value into what the destination has at its place -/
def localVal (f : Merger) (e : Option Json) (v : Json) : Res Json :=
  match e with
  | none => .ok (Json.canon v)
  | some ex =>
    match v with
    | .obj t =>
      match ex with
      | .obj m => match localMap f m t with
        | .ok m' => .ok (.obj m')
        | .err e => .err e
        | .panic => .panic
      | e => f e (Json.canon (.obj t))
    | v => f ex (Json.canon v)
termination_by structural v
end

/-! key paths -/

/-- location of a key path -/
abbrev keyLoc (p : List Str) : Loc := p.map Step.key

theorem getAt_append (j : Json) (a b : Loc) : getAt j (a ++ b) = (getAt j a).bind fun x => getAt x b := by
  induction a generalizing j with
  | nil => rfl
  | cons s a ih =>
    simp only [List.cons_append, getAt]
    cases child j s with
    | none => rfl
    | some c => exact ih c

theorem search_keys {c : Json} {p : List Str} {m : Obj} (h : getAt c (keyLoc p) = some (.obj m)) (k : Str) :
    Gabs.search (p ++ [k]) c = Obj.lookup k m := by
  induction p generalizing c with
  | nil =>
    simp [getAt] at h; subst h
    simp only [List.nil_append, Gabs.search_obj]
    cases Obj.lookup k m <;> rfl
  | cons s p ih =>
    cases c with
    | obj m' =>
      simp only [keyLoc, List.map_cons, getAt_obj_key] at h
      simp only [List.cons_append, Gabs.search_obj]
      cases hl : Obj.lookup s m' with
      | none => rw [hl] at h; simp at h
      | some c => rw [hl] at h; exact ih h
    | null | bool _ | num _ | str _ | arr _ => simp [keyLoc, getAt, child] at h

theorem setGo_keys {c : Json} {p : List Str} {m : Obj} (h : getAt c (keyLoc p) = some (.obj m)) (k : Str) (v : Json)
    (root : Bool) :
    Gabs.setGo v root (p ++ [k]) c = .ok (putAt (.obj (Obj.insert k v m)) (keyLoc p) c) := by
  induction p generalizing c root with
  | nil =>
    simp [getAt] at h; subst h
    rfl
  | cons s p ih =>
    cases c with
    | obj m' =>
      simp only [keyLoc, List.map_cons, getAt_obj_key] at h
      cases hl : Obj.lookup s m' with
      | none => rw [hl] at h; simp at h
      | some c =>
        rw [hl] at h
        have hc : c ≠ .null := by
          rintro rfl
          cases p <;> simp [getAt, child] at h
        have h2 := ih h false
        simp only [List.cons_append, Gabs.setGo_obj, hl, Gabs.fill_some hc, keyLoc, List.map_cons, putAt]
        unfold Gabs.goOn
        cases hp : p ++ [k] with
        | nil => simp at hp
        | cons a b => rw [hp] at h2; simp only [h2]
    | null | bool _ | num _ | str _ | arr _ => simp [keyLoc, getAt, child] at h

theorem set_keys {c : Json} {p : List Str} {m : Obj} (h : getAt c (keyLoc p) = some (.obj m)) (k : Str) (v : Json) :
    Gabs.set v (p ++ [k]) c = .ok (putAt (.obj (Obj.insert k v m)) (keyLoc p) c) := by
  have hc : c ≠ .null := by
    rintro rfl
    cases p <;> simp [getAt, child] at h
  unfold Gabs.set
  cases hp : p ++ [k] with
  | nil => simp at hp
  | cons a b =>
    simp only
    rw [Gabs.fill_some hc, ← hp]; exact setGo_keys h k v true

theorem insert_lookup_self {m : Obj} {k : Str} {v : Json} (hs : Obj.Sorted m) (h : Obj.lookup k m = some v) :
    Obj.insert k v m = m := by
  apply Obj.ext_lookup (Obj.insert_sorted _ _ _ hs) hs
  intro x; rw [Obj.lookup_insert]; split
  · rename_i e; rw [e, h]
  · rfl

theorem insert_insert (k : Str) (a b : Json) (m : Obj) : Obj.insert k b (Obj.insert k a m) = Obj.insert k b m := by
  induction m with
  | nil => simp [Obj.insert]
  | cons p t ih =>
    obtain ⟨k', v'⟩ := p
    simp only [Obj.insert]
    by_cases h : k = k'
    · simp [h, Obj.insert]
    · simp only [h, if_false]
      by_cases h2 : Str.lt k k' = true
      · simp [h2, Obj.insert]
      · rw [if_neg h2, if_neg h2]
        simp only [Obj.insert, h, if_false]
        rw [if_neg h2, ih]

theorem insert_comm {k l : Str} (hkl : k ≠ l) (a b : Json) {m : Obj} (hs : Obj.Sorted m) :
    Obj.insert l b (Obj.insert k a m) = Obj.insert k a (Obj.insert l b m) := by
  apply Obj.ext_lookup (Obj.insert_sorted _ _ _ (Obj.insert_sorted _ _ _ hs))
    (Obj.insert_sorted _ _ _ (Obj.insert_sorted _ _ _ hs))
  intro x
  simp only [Obj.lookup_insert]
  by_cases h1 : x = k
  · subst h1; simp [hkl]
  · simp [h1]

theorem getAt_putAt_self {c : Json} {L : Loc} {old : Json} (v : Json) (h : getAt c L = some old) :
    getAt (putAt v L c) L = some v := by
  induction L generalizing c with
  | nil => rfl
  | cons st L ih =>
    cases c with
    | obj m =>
      cases st with
      | idx n => simp [getAt, child] at h
      | key k =>
        rw [getAt_obj_key] at h
        cases hl : Obj.lookup k m with
        | none => rw [hl] at h; simp at h
        | some c => rw [hl] at h; simp [putAt, hl, getAt_obj_key, ih h]
    | arr xs =>
      cases st with
      | key n => simp [getAt, child] at h
      | idx n =>
        rw [getAt_arr_idx] at h
        cases hl : xs[n]? with
        | none => rw [hl] at h; simp at h
        | some c =>
          rw [hl] at h
          have hlt : n < xs.length := (List.getElem?_eq_some_iff.1 hl).1
          simp only [putAt, hl, getAt_arr_idx, List.getElem?_set_self hlt]; exact ih h
    | null | bool _ | num _ | str _ => cases st <;> simp [getAt, child] at h

theorem putAt_putAt {c : Json} {L : Loc} {old : Json} (a b : Json) (h : getAt c L = some old) :
    putAt b L (putAt a L c) = putAt b L c := by
  induction L generalizing c with
  | nil => rfl
  | cons st L ih =>
    cases c with
    | obj m =>
      cases st with
      | idx n => simp [getAt, child] at h
      | key k =>
        rw [getAt_obj_key] at h
        cases hl : Obj.lookup k m with
        | none => rw [hl] at h; simp at h
        | some c => rw [hl] at h; simp [putAt, hl, ih h, insert_insert]
    | arr xs =>
      cases st with
      | key n => simp [getAt, child] at h
      | idx n =>
        rw [getAt_arr_idx] at h
        cases hl : xs[n]? with
        | none => rw [hl] at h; simp at h
        | some c =>
          rw [hl] at h
          have hlt : n < xs.length := (List.getElem?_eq_some_iff.1 hl).1
          simp only [putAt, hl, List.getElem?_set_self hlt, List.set_set, ih h]
    | null | bool _ | num _ | str _ => cases st <;> simp [getAt, child] at h

/-- replacing the same value changes nothing (canonical documents) -/
theorem putAt_same {c : Json} {L : Loc} {v : Json} (hw : Json.WF c) (h : getAt c L = some v) : putAt v L c = c := by
  induction L generalizing c with
  | nil => simpa [getAt, putAt] using h.symm
  | cons st L ih =>
    cases c with
    | obj m =>
      cases st with
      | idx n => simp [getAt, child] at h
      | key k =>
        rw [getAt_obj_key] at h
        cases hl : Obj.lookup k m with
        | none => rw [hl] at h; simp at h
        | some c =>
          rw [hl] at h
          have hw' := (Json.WF_obj m).1 hw
          simp only [putAt, hl, ih (Json.WF_lookup hw hl) h]
          rw [insert_lookup_self hw'.1 hl]
    | arr xs =>
      cases st with
      | key n => simp [getAt, child] at h
      | idx n =>
        rw [getAt_arr_idx] at h
        cases hl : xs[n]? with
        | none => rw [hl] at h; simp at h
        | some c =>
          rw [hl] at h
          have hlt : n < xs.length := (List.getElem?_eq_some_iff.1 hl).1
          have hw' := (Json.WFL_iff xs).1 ((Json.WF_arr xs).1 hw)
          simp only [putAt, hl, ih (hw' c (List.mem_of_getElem? hl)) h]
          congr 1
          apply List.ext_getElem?
          intro i
          rw [List.getElem?_set]
          split
          · rename_i e; subst e; simp [hlt]; exact (List.getElem?_eq_some_iff.1 hl).2.symm
          · rfl
    | null | bool _ | num _ | str _ => cases st <;> simp [getAt, child] at h

theorem putAt_append {c x : Json} {A B : Loc} (v : Json) (h : getAt c A = some x) :
    putAt v (A ++ B) c = putAt (putAt v B x) A c := by
  induction A generalizing c with
  | nil => simp [getAt] at h; subst h; rfl
  | cons st L ih =>
    cases c with
    | obj m =>
      cases st with
      | idx n => simp [getAt, child] at h
      | key k =>
        rw [getAt_obj_key] at h
        cases hl : Obj.lookup k m with
        | none => rw [hl] at h; simp at h
        | some c => rw [hl] at h; simp [putAt, hl, ih h]
    | arr xs =>
      cases st with
      | key n => simp [getAt, child] at h
      | idx n =>
        rw [getAt_arr_idx] at h
        cases hl : xs[n]? with
        | none => rw [hl] at h; simp at h
        | some c => rw [hl] at h; simp [putAt, hl, ih h]
    | null | bool _ | num _ | str _ => cases st <;> simp [getAt, child] at h

/-- lift a local result to the whole document -/
def lift (c : Json) (p : List Str) : Res Obj → Res Json
  | .ok m => .ok (putAt (.obj m) (keyLoc p) c)
  | .err e => .err e
  | .panic => .panic

/-- the merger returns canonical values -/
def KeepsWF (f : Merger) : Prop := ∀ a b x, Json.WF a → Json.WF b → f a b = .ok x → Json.WF x

mutual
theorem localMap_WF {f : Merger} (hf : KeepsWF f) (kvs : List (Str × Json)) (m r : Obj)
    (hw : Json.WF (.obj m)) (h : localMap f m kvs = .ok r) : Json.WF (.obj r) := by
  match kvs with
  | [] => simp [localMap] at h; subst h; exact hw
  | (k, v) :: t =>
    simp only [localMap] at h
    cases hv : localVal f (Obj.lookup k m) v with
    | err e => rw [hv] at h; simp at h
    | panic => rw [hv] at h; simp at h
    | ok x =>
      rw [hv] at h
      have hx := localVal_WF hf v (Obj.lookup k m) x (fun e he => Json.WF_lookup hw he) hv
      exact localMap_WF hf t _ r (Json.WF_insert k hw hx) h
termination_by structural kvs
theorem localVal_WF {f : Merger} (hf : KeepsWF f) (v : Json) (e : Option Json) (x : Json)
    (he : ∀ y, e = some y → Json.WF y) (h : localVal f e v = .ok x) : Json.WF x := by
  cases e with
  | none => simp [localVal] at h; subst h; exact Json.canon_WF v
  | some ex =>
    have hex := he ex rfl
    match v with
    | .obj t =>
      cases ex with
      | obj m =>
        simp only [localVal] at h
        cases hm : localMap f m t with
        | err e => rw [hm] at h; simp at h
        | panic => rw [hm] at h; simp at h
        | ok m' => rw [hm] at h; simp at h; subst h; exact localMap_WF hf t m m' hex hm
      | null | bool _ | num _ | str _ | arr _ =>
        simp only [localVal] at h; exact hf _ _ _ hex (Json.canon_WF _) h
    | .null | .bool _ | .num _ | .str _ | .arr _ =>
      simp only [localVal] at h; exact hf _ _ _ hex (Json.canon_WF _) h
termination_by structural v
end

theorem putAt_WF {c : Json} {L : Loc} {v : Json} (hw : Json.WF c) (hv : Json.WF v) : Json.WF (putAt v L c) := by
  induction L generalizing c with
  | nil => exact hv
  | cons st L ih =>
    cases c with
    | obj m =>
      cases st with
      | idx n => exact hw
      | key k =>
        simp only [putAt]
        cases hl : Obj.lookup k m with
        | none => exact hw
        | some c => exact Json.WF_insert k hw (ih (Json.WF_lookup hw hl))
    | arr xs =>
      cases st with
      | key n => exact hw
      | idx n =>
        simp only [putAt]
        cases hl : xs[n]? with
        | none => exact hw
        | some c =>
          have hw' := (Json.WFL_iff xs).1 ((Json.WF_arr xs).1 hw)
          simp only [Json.WF_arr, Json.WFL_iff]
          intro x hx
          rcases List.mem_or_eq_of_mem_set hx with hx | rfl
          · exact hw' x hx
          · exact ih (hw' c (List.mem_of_getElem? hl))
    | null | bool _ | num _ | str _ => cases st <;> exact hw

theorem getAt_WF {c : Json} {L : Loc} {v : Json} (hw : Json.WF c) (h : getAt c L = some v) : Json.WF v := by
  induction L generalizing c with
  | nil => simp [getAt] at h; subst h; exact hw
  | cons st L ih =>
    cases c with
    | obj m =>
      cases st with
      | idx n => simp [getAt, child] at h
      | key k =>
        rw [getAt_obj_key] at h
        cases hl : Obj.lookup k m with
        | none => rw [hl] at h; simp at h
        | some c => rw [hl] at h; exact ih (Json.WF_lookup hw hl) h
    | arr xs =>
      cases st with
      | key n => simp [getAt, child] at h
      | idx n =>
        rw [getAt_arr_idx] at h
        cases hl : xs[n]? with
        | none => rw [hl] at h; simp at h
        | some c =>
          rw [hl] at h
          exact ih ((Json.WFL_iff xs).1 ((Json.WF_arr xs).1 hw) c (List.mem_of_getElem? hl)) h
    | null | bool _ | num _ | str _ => cases st <;> simp [getAt, child] at h

theorem getAt_key_snoc {c : Json} {p : List Str} {m : Obj} (h : getAt c (keyLoc p) = some (.obj m)) (k : Str) :
    getAt c (keyLoc (p ++ [k])) = Obj.lookup k m := by
  simp only [keyLoc, List.map_append, List.map_cons, List.map_nil, getAt_append]
  rw [h]
  simp only [Option.bind_some, getAt_obj_key]
  cases Obj.lookup k m <;> rfl

theorem putAt_key_snoc {c : Json} {p : List Str} {m : Obj} (h : getAt c (keyLoc p) = some (.obj m)) {k : Str}
    {e : Json} (hk : Obj.lookup k m = some e) (v : Json) :
    putAt v (keyLoc (p ++ [k])) c = putAt (.obj (Obj.insert k v m)) (keyLoc p) c := by
  simp only [keyLoc, List.map_append, List.map_cons, List.map_nil]
  rw [putAt_append v h]
  simp [putAt, hk]

theorem collide_local (f : Merger) (v ex : Json) {c : Json} {p : List Str} {m : Obj} (k : Str)
    (h : getAt c (keyLoc p) = some (.obj m)) :
    collide f c (p ++ [k]) ex v = match f ex (Json.canon v) with
      | .ok x => .ok (putAt (.obj (Obj.insert k x m)) (keyLoc p) c)
      | .err e => .err e
      | .panic => .panic := by
  unfold collide
  cases f ex (Json.canon v) with
  | ok x => exact set_keys h k x
  | err e => rfl
  | panic => rfl

mutual
theorem mergeMap_local {f : Merger} (hf : KeepsWF f) (kvs : List (Str × Json)) (c : Json) (p : List Str) (m : Obj)
    (hw : Json.WF c) (h : getAt c (keyLoc p) = some (.obj m)) :
    mergeMap f c p kvs = lift c p (localMap f m kvs) := by
  match kvs with
  | [] => simp only [mergeMap, localMap, lift]; rw [putAt_same hw h]
  | (k, v) :: t =>
    simp only [mergeMap, localMap]
    rw [mergeOne_local hf v c p m k hw h]
    have hwm := getAt_WF hw h
    cases hv : localVal f (Obj.lookup k m) v with
    | err e => simp [lift]
    | panic => simp [lift]
    | ok x =>
      simp only
      have hx := localVal_WF hf v _ x (fun e he => Json.WF_lookup hwm he) hv
      rw [mergeMap_local hf t _ p (Obj.insert k x m) (putAt_WF hw (Json.WF_insert k hwm hx)) (getAt_putAt_self _ h)]
      cases localMap f (Obj.insert k x m) t with
      | ok r => simp only [lift]; rw [putAt_putAt _ _ h]
      | err e => rfl
      | panic => rfl
termination_by structural kvs
theorem mergeOne_local {f : Merger} (hf : KeepsWF f) (v : Json) (c : Json) (p : List Str) (m : Obj) (k : Str)
    (hw : Json.WF c) (h : getAt c (keyLoc p) = some (.obj m)) :
    mergeOne f c (p ++ [k]) v = match localVal f (Obj.lookup k m) v with
      | .ok x => .ok (putAt (.obj (Obj.insert k x m)) (keyLoc p) c)
      | .err e => .err e
      | .panic => .panic := by
  unfold mergeOne
  rw [search_keys h k]
  cases hl : Obj.lookup k m with
  | none => simp only [localVal]; exact set_keys h k _
  | some ex =>
    match v with
    | .obj t =>
      cases ex with
      | obj m' =>
        simp only [localVal]
        rw [mergeMap_local hf t c (p ++ [k]) m' hw ((getAt_key_snoc h k).trans hl)]
        cases localMap f m' t with
        | ok r => simp only [lift]; rw [putAt_key_snoc h hl]
        | err e => rfl
        | panic => rfl
      | null | bool _ | num _ | str _ | arr _ => simp only [localVal]; exact collide_local f _ _ k h
    | .null | .bool _ | .num _ | .str _ | .arr _ => simp only [localVal]; exact collide_local f _ _ k h
termination_by structural v
end

/-- `Merge` of two objects is the local merge. -/
theorem merge_local {f : Merger} (hf : KeepsWF f) (m : Obj) (hw : Json.WF (.obj m)) (kvs : List (Str × Json)) :
    merge (.obj m) (.obj kvs) f = match localMap f m kvs with
      | .ok r => .ok (.obj r)
      | .err e => .err e
      | .panic => .panic := by
  unfold merge
  simp only
  rw [mergeMap_local hf kvs (.obj m) [] m hw rfl]
  cases localMap f m kvs <;> rfl

theorem keepsWF_default : KeepsWF mergeDefault := by
  intro a b x ha _ h; simp [mergeDefault] at h; exact h ▸ ha
theorem keepsWF_override : KeepsWF mergeOverride := by
  intro a b x _ hb h; simp [mergeOverride] at h; exact h ▸ hb
theorem keepsWF_strict : KeepsWF mergeStrict := by
  intro a b x _ _ h; simp [mergeStrict] at h

/-! ### What the local merge computes, key by key -/

theorem localMap_spec {f : Merger} (kvs : List (Str × Json)) (hn : (Obj.keys kvs).Nodup) (m r : Obj)
    (h : localMap f m kvs = .ok r) (k : Str) :
    match Obj.lookup k kvs with
    | none => Obj.lookup k r = Obj.lookup k m
    | some v => ∃ x, localVal f (Obj.lookup k m) v = .ok x ∧ Obj.lookup k r = some x := by
  induction kvs generalizing m with
  | nil => simp [localMap] at h; simp [h]
  | cons p t ih =>
    obtain ⟨k', v'⟩ := p
    simp only [Obj.keys_cons, List.nodup_cons] at hn
    simp only [localMap] at h
    cases hv : localVal f (Obj.lookup k' m) v' with
    | err e => rw [hv] at h; simp at h
    | panic => rw [hv] at h; simp at h
    | ok x =>
      rw [hv] at h
      have := ih hn.2 _ h
      rw [Obj.lookup_cons]
      by_cases hk : k = k'
      · subst hk
        simp only [if_true]
        rw [(Obj.lookup_none_iff k t).2 hn.1] at this
        simp only [Obj.lookup_insert_self] at this
        exact ⟨x, hv, this⟩
      · simp only [hk, if_false]
        cases hl : Obj.lookup k t with
        | none => rw [hl] at this; simp only at this; rw [this, Obj.lookup_insert_ne _ _ hk]
        | some v => rw [hl] at this; simp only at this; rw [Obj.lookup_insert_ne _ _ hk] at this; exact this

theorem localMap_ok {f : Merger} (kvs : List (Str × Json)) (hn : (Obj.keys kvs).Nodup) (m : Obj)
    (h : ∀ k v, Obj.lookup k kvs = some v → ∃ x, localVal f (Obj.lookup k m) v = .ok x) :
    ∃ r, localMap f m kvs = .ok r := by
  induction kvs generalizing m with
  | nil => exact ⟨m, rfl⟩
  | cons p t ih =>
    obtain ⟨k', v'⟩ := p
    simp only [Obj.keys_cons, List.nodup_cons] at hn
    obtain ⟨x, hx⟩ := h k' v' (by simp [Obj.lookup])
    simp only [localMap, hx]
    apply ih hn.2
    intro k v hl
    have hk : k ≠ k' := by
      rintro rfl; exact hn.1 ((Obj.mem_keys_iff _ _).2 ⟨v, hl⟩)
    rw [Obj.lookup_insert_ne _ _ hk]
    exact h k v (by simp [Obj.lookup, hk, hl])

/-! ### Order independence -/

/-- A merger whose only failure is a collision. -/
def Uniform (f : Merger) : Prop := ∀ a b, f a b = .err .collision ∨ ∃ x, f a b = .ok x

mutual
theorem localMap_uniform {f : Merger} (hf : Uniform f) (kvs : List (Str × Json)) (m : Obj) :
    localMap f m kvs = .err .collision ∨ ∃ r, localMap f m kvs = .ok r := by
  match kvs with
  | [] => right; exact ⟨m, rfl⟩
  | (k, v) :: t =>
    simp only [localMap]
    rcases localVal_uniform hf v (Obj.lookup k m) with h | ⟨x, h⟩
    · left; rw [h]
    · rw [h]; exact localMap_uniform hf t _
termination_by structural kvs
theorem localVal_uniform {f : Merger} (hf : Uniform f) (v : Json) (e : Option Json) :
    localVal f e v = .err .collision ∨ ∃ r, localVal f e v = .ok r := by
  cases e with
  | none => right; exact ⟨Json.canon v, by simp [localVal]⟩
  | some ex =>
    match v with
    | .obj t =>
      cases ex with
      | obj m =>
        simp only [localVal]
        rcases localMap_uniform hf t m with h | ⟨x, h⟩
        · left; rw [h]
        · right; rw [h]; exact ⟨_, rfl⟩
      | null | bool _ | num _ | str _ | arr _ => simp only [localVal]; exact hf _ _
    | .null | .bool _ | .num _ | .str _ | .arr _ => simp only [localVal]; exact hf _ _
termination_by structural v
end

theorem localMap_perm {f : Merger} (hf : Uniform f) {a b : List (Str × Json)} (h : a.Perm b)
    (hn : (Obj.keys a).Nodup) (m : Obj) (hm : Obj.Sorted m) : localMap f m a = localMap f m b := by
  induction h generalizing m with
  | nil => rfl
  | cons p _ ih =>
    obtain ⟨k, v⟩ := p
    simp only [Obj.keys_cons, List.nodup_cons] at hn
    simp only [localMap]
    cases hv : localVal f (Obj.lookup k m) v with
    | err e => rfl
    | panic => rfl
    | ok x => exact ih hn.2 _ (Obj.insert_sorted _ _ _ hm)
  | swap p q l =>
    obtain ⟨k, v⟩ := p
    obtain ⟨k', v'⟩ := q
    simp only [Obj.keys_cons, List.nodup_cons, List.mem_cons, not_or] at hn
    have hne : k' ≠ k := hn.1.1
    simp only [localMap]
    rcases localVal_uniform hf v (Obj.lookup k m) with h1 | ⟨x, h1⟩
    · rcases localVal_uniform hf v' (Obj.lookup k' m) with h2 | ⟨y, h2⟩
      · rw [h1, h2]
      · rw [h1, h2]; simp only [Obj.lookup_insert_ne _ _ (Ne.symm hne), h1]
    · rcases localVal_uniform hf v' (Obj.lookup k' m) with h2 | ⟨y, h2⟩
      · rw [h1, h2]; simp only [Obj.lookup_insert_ne _ _ hne, h2]
      · rw [h1, h2]
        simp only [Obj.lookup_insert_ne _ _ hne, Obj.lookup_insert_ne _ _ (Ne.symm hne), h1, h2]
        rw [insert_comm hne y x hm]
  | trans h1 _ ih1 ih2 =>
    rw [ih1 hn m hm, ih2 ((Obj.keys_perm h1).nodup_iff.1 hn) m hm]

theorem ofList_perm {l : List (Str × Json)} (h : (Obj.keys l).Nodup) : (Obj.ofList l).Perm l := by
  induction l with
  | nil => exact List.Perm.nil
  | cons p t ih =>
    obtain ⟨k, v⟩ := p
    simp only [Obj.keys_cons, List.nodup_cons] at h
    unfold Obj.ofList
    rw [if_neg h.1]
    have hins : ∀ (m : Obj), k ∉ Obj.keys m → (Obj.insert k v m).Perm ((k, v) :: m) := by
      intro m hk
      induction m with
      | nil => exact List.Perm.refl _
      | cons q s ihs =>
        obtain ⟨k2, v2⟩ := q
        simp only [Obj.keys_cons, List.mem_cons, not_or] at hk
        unfold Obj.insert
        rw [if_neg hk.1]
        split
        · exact List.Perm.refl _
        · exact ((ihs hk.2).cons _).trans (List.Perm.swap _ _ _)
    have hk' : k ∉ Obj.keys (Obj.ofList t) := by
      rw [← Obj.lookup_none_iff, Obj.lookup_ofList h.2, Obj.lookup_none_iff]; exact h.1
    exact (hins _ hk').trans ((ih h.2).cons _)

end Oapi.Container

namespace Oapi.Json
mutual
/-- Every object of the document lists each key once (true of every Go map), at any depth. -/
def NodupKeys (j : Json) : Prop :=
  match j with
  | .arr xs => NodupKeysL xs
  | .obj m => (Obj.keys m).Nodup ∧ NodupKeysO m
  | _ => True
termination_by structural j
def NodupKeysL (xs : List Json) : Prop :=
  match xs with
  | [] => True
  | x :: t => NodupKeys x ∧ NodupKeysL t
termination_by structural xs
def NodupKeysO (m : List (Str × Json)) : Prop :=
  match m with
  | [] => True
  | (_, v) :: t => NodupKeys v ∧ NodupKeysO t
termination_by structural m
end

theorem canon_canon (j : Json) : canon (canon j) = canon j := canon_of_WF _ (canon_WF j)

end Oapi.Json

namespace Oapi.Container
open Json

mutual
/-- the order in which the source's maps are iterated does not matter -/
theorem localMap_canon {f : Merger} (hf : Uniform f) (hk : KeepsWF f) (kvs : List (Str × Json)) (hn : NodupKeysO kvs)
    (m : Obj) (hw : Json.WF (.obj m)) : localMap f m kvs = localMap f m (canonO kvs) := by
  match kvs with
  | [] => rfl
  | (k, v) :: t =>
    simp only [canonO, localMap]
    rw [← localVal_canon hf hk v hn.1 (Obj.lookup k m) (fun y hy => Json.WF_lookup hw hy)]
    cases hv : localVal f (Obj.lookup k m) v with
    | err e => rfl
    | panic => rfl
    | ok x =>
      simp only
      exact localMap_canon hf hk t hn.2 _ (Json.WF_insert k hw (localVal_WF hk v _ x (fun y hy => Json.WF_lookup hw hy) hv))
termination_by structural kvs
theorem localVal_canon {f : Merger} (hf : Uniform f) (hk : KeepsWF f) (v : Json) (hn : NodupKeys v)
    (e : Option Json) (he : ∀ y, e = some y → Json.WF y) : localVal f e v = localVal f e (canon v) := by
  cases e with
  | none => simp only [localVal, canon_canon]
  | some ex =>
    have hex := he ex rfl
    match v with
    | .obj t =>
      simp only [NodupKeys] at hn
      cases ex with
      | obj m =>
        have h1 := localMap_canon hf hk t hn.2 m hex
        have h2 := localMap_perm hf (ofList_perm (l := canonO t) (by rw [keys_canonO]; exact hn.1)).symm
          (by rw [keys_canonO]; exact hn.1) m ((Json.WF_obj m).1 hex).1
        simp only [canon, localVal]
        rw [h1, h2]
      | null | bool _ | num _ | str _ | arr _ =>
        have := canon_canon (.obj t)
        simp only [canon, localVal] at this ⊢
        rw [this]
    | .arr xs =>
      have := canon_canon (.arr xs)
      simp only [canon, localVal] at this ⊢
      rw [this]
    | .null | .bool _ | .num _ | .str _ => simp only [canon]
termination_by structural v
end

theorem uniform_default : Uniform mergeDefault := fun a _ => Or.inr ⟨a, rfl⟩
theorem uniform_override : Uniform mergeOverride := fun _ b => Or.inr ⟨b, rfl⟩
theorem uniform_strict : Uniform mergeStrict := fun _ _ => Or.inl rfl

theorem merge_canon {f : Merger} (hf : Uniform f) (hk : KeepsWF f) (m : Obj) (hw : Json.WF (.obj m)) (s : Json)
    (hn : NodupKeys s) : merge (.obj m) s f = merge (.obj m) (canon s) f := by
  cases s with
  | obj kvs =>
    have := localVal_canon hf hk (.obj kvs) hn (some (.obj m)) (fun y hy => by cases hy; exact hw)
    simp only [canon] at this ⊢
    rw [merge_local hk m hw, merge_local hk m hw]
    simp only [localVal] at this
    exact this
  | null | bool _ | num _ | str _ | arr _ => simp [merge, canon]

end Oapi.Container
