import Verif.Proofs.SpecJson3
import Verif.Model.Load
import Verif.Spec.Load

/- Lemmas for Verif.Props.Load. -/
namespace Oapi.SpecJson
open Spec.SpecJson Spec.Load

theorem and_stop {a b : St} : a.and b = .abort ↔ a = .abort ∨ b = .abort := by cases a <;> cases b <;> decide

theorem decodeList_abort (env : Env) (t : Ty) : ∀ xs : List Json,
    (decodeList env t [] xs).2 = .abort → ∃ x ∈ xs, (decode env t (zero t) x).2 = .abort
  | [], h => by simp [decodeList] at h
  | x :: xs, h => by
    have e : decodeList env t [] (x :: xs) = if (decode env t (zero t) x).2 = .abort then ([(decode env t (zero t) x).1], .abort)
        else ((decode env t (zero t) x).1 :: (decodeList env t [] xs).1, (decode env t (zero t) x).2.and (decodeList env t [] xs).2) := rfl
    rw [e] at h
    by_cases ha : (decode env t (zero t) x).2 = .abort
    · exact ⟨x, .head _, ha⟩
    · rw [if_neg ha] at h
      rcases and_stop.1 h with h | h
      · exact absurd h ha
      · obtain ⟨y, hy, h⟩ := decodeList_abort env t xs h
        exact ⟨y, .tail _ hy, h⟩

theorem decodeMap_abort (env : Env) (t : Ty) : ∀ (kvs : List (Str × Json)) (m : List (Str × Val)),
    (decodeMap env t m kvs).2 = .abort → ∃ e ∈ kvs, (decode env t (zero t) e.2).2 = .abort
  | [], m, h => by simp [decodeMap] at h
  | (k, x) :: kvs, m, h => by
    simp only [decodeMap] at h
    by_cases ha : (decode env t (zero t) x).2 = .abort
    · exact ⟨_, .head _, ha⟩
    · rw [if_neg ha] at h
      rcases and_stop.1 h with h | h
      · exact absurd h ha
      · obtain ⟨y, hy, h⟩ := decodeMap_abort env t kvs _ h
        exact ⟨y, .tail _ hy, h⟩

theorem decodeMap_saved (env : Env) (t : Ty) : ∀ (kvs : List (Str × Json)) (m : List (Str × Val)), Obj.Sorted kvs →
    (∀ e ∈ m, ∀ k ∈ Obj.keys kvs, Str.lt e.1 k = true) → (decodeMap env t m kvs).2 ≠ .ok →
    ∃ e ∈ kvs, (decode env t (zero t) e.2).2 ≠ .ok := by
  intro kvs m hs hm h
  refine Classical.byContradiction fun hno => h ((decodeMap_spec env t kvs m hs hm).1.2 fun kv hkv => ?_)
  exact Classical.byContradiction fun h' => hno ⟨kv, hkv, h'⟩

/-- The kinds of values that have no parts. -/
def basic : Kind → Bool
  | .list _ => false
  | .dict _ => false
  | .sec _ => false
  | .callback => false
  | _ => true

theorem at_basic {k k' : Kind} {j j' : Json} (hb : basic k = true) (h : At k j k' j') : k' = k ∧ j' = j := by
  cases h with
  | here => exact ⟨rfl, rfl⟩
  | _ => cases hb

theorem unreadable_null (e : Around) (k : Kind) : ¬ Unreadable e k .null := by
  intro h; cases k <;> exact h

theorem no_ok {r : Res Pointer} (h : ¬ ∀ p, r ≠ .ok p) : ∃ p, r = .ok p := by
  obtain ⟨p, hp⟩ := Classical.not_forall.1 h
  exact ⟨p, Classical.not_not.1 hp⟩

theorem ref_status {env : Env} {j : Json} (hn : j ≠ .null) :
    ((decode env (.ptr .ref) .nil j).2 = .ok ∧ ∃ p, decodeRef env j = .ok p) ∨ ((decode env (.ptr .ref) .nil j).2 = .abort ∧ ∀ p, decodeRef env j ≠ .ok p) := by
  have e : (decode env (.ptr .ref) .nil j).2 = (intoOther env .ref (.ref {}) j).2 := by
    cases j with
    | null => exact absurd rfl hn
    | _ => rfl
  rw [e]
  cases hd : decodeRef env j with
  | ok p => exact .inl ⟨by simp [intoOther, hd], p, rfl⟩
  | _ => exact .inr ⟨by simp [intoOther, hd], nofun⟩

theorem basic_status {env : Env} {k : Kind} (hb : basic k = true) (j : Json) :
    ((decode env (toTy k) (zero (toTy k)) j).2 = .ok ↔ ¬ Unreadable (around env) k j) ∧
    ((decode env (toTy k) (zero (toTy k)) j).2 = .abort → k = .reference) := by
  by_cases hnull : j = .null
  · subst hnull
    exact ⟨⟨fun _ => unreadable_null _ k, fun _ => rfl⟩, nofun⟩
  cases k with
  | text =>
    cases j with
    | str s => exact ⟨⟨fun _ h => h s rfl, fun _ => rfl⟩, nofun⟩
    | null => exact absurd rfl hnull
    | _ => exact ⟨⟨nofun, fun h => absurd (by intro s; nofun) h⟩, nofun⟩
  | flag =>
    cases j with
    | bool s => exact ⟨⟨fun _ h => h s rfl, fun _ => rfl⟩, nofun⟩
    | null => exact absurd rfl hnull
    | _ => exact ⟨⟨nofun, fun h => absurd (by intro s; nofun) h⟩, nofun⟩
  | number =>
    cases j with
    | num s => exact ⟨⟨fun _ h => h s rfl, fun _ => rfl⟩, nofun⟩
    | null => exact absurd rfl hnull
    | _ => exact ⟨⟨nofun, fun h => absurd (by intro s; nofun) h⟩, nofun⟩
  | integer =>
    cases j with
    | num s =>
      have e : (decode env (toTy .integer) (zero (toTy .integer)) (.num s)).2 = if env.isInt s then .ok else .saved := by
        simp only [decode, toTy, target, inner, zero, zero0, intoLeaf, rewrap]
        split <;> rfl
      rw [e]
      cases hi : env.isInt s with
      | true => exact ⟨⟨fun _ h => h s hi rfl, fun _ => rfl⟩, nofun⟩
      | false =>
        refine ⟨⟨nofun, fun h => absurd ?_ h⟩, nofun⟩
        intro s' hs' h'
        cases h'
        have : env.isInt s = true := hs'
        rw [hi] at this
        cases this
    | null => exact absurd rfl hnull
    | _ => exact ⟨⟨nofun, fun h => absurd (by intro s _; nofun) h⟩, nofun⟩
  | free =>
    have e : (decode env (toTy .free) (zero (toTy .free)) j).2 = .ok := by cases j <;> rfl
    rw [e]
    refine ⟨⟨fun _ h => ?_, fun _ => rfl⟩, nofun⟩
    cases j <;> exact h
  | expression =>
    have e : (decode env (toTy .expression) (zero (toTy .expression)) j).2 = .ok := by cases j <;> rfl
    rw [e]
    refine ⟨⟨fun _ h => ?_, fun _ => rfl⟩, nofun⟩
    cases j <;> exact h
  | reference =>
    refine ⟨?_, fun _ => rfl⟩
    have e : Unreadable (around env) .reference j ↔ ∀ p, decodeRef env j ≠ .ok p := by
      cases j with
      | null => exact absurd rfl hnull
      | _ => rfl
    rw [e]
    rcases ref_status (env := env) hnull with ⟨h1, p, h2⟩ | ⟨h1, h2⟩
    · exact ⟨fun _ h => h p h2, fun _ => h1⟩
    · refine ⟨fun h => ?_, fun h => absurd h2 h⟩
      have : (decode env (.ptr .ref) .nil j).2 = .ok := h
      rw [h1] at this
      cases this
  | list | dict | sec | callback => cases hb

theorem stops_part {e : Around} {k k' : Kind} {j j' : Json} (hp : ∀ {k'' j''}, At k' j' k'' j'' → At k j k'' j'') (h : Stops e k' j') : Stops e k j := by
  rcases h with ⟨x, h1, h2⟩ | ⟨x, a, b, h1, h2⟩
  · exact .inl ⟨x, hp h1, h2⟩
  · exact .inr ⟨x, a, b, hp h1, h2⟩

/-- The status of reading: without error exactly if nothing is unreadable, stopped only at references and in callbacks. -/
theorem status {env : Env} : ∀ (n : Nat) {k : Kind} {j : Json}, sizeOf j ≤ n → j.WF → Clear k j →
    ((decode env (toTy k) (zero (toTy k)) j).2 = .ok ↔ ∀ k' j', At k j k' j' → ¬ Unreadable (around env) k' j') ∧
    ((decode env (toTy k) (zero (toTy k)) j).2 = .abort → Stops (around env) k j) := by
  intro n
  induction n with
  | zero => intro k j h; cases j <;> simp at h
  | succ n ih =>
    intro k j hsz hw hc
    by_cases hb : basic k = true
    · obtain ⟨h1, h2⟩ := basic_status (env := env) hb j
      refine ⟨h1.trans ⟨fun h k' j' ha => ?_, fun h => h k j (.here _ _)⟩, fun h => ?_⟩
      · obtain ⟨rfl, rfl⟩ := at_basic hb ha
        exact h
      · have := h2 h
        subst this
        refine .inl ⟨j, .here _ _, Classical.not_not.1 fun hu => ?_⟩
        rw [h1.2 hu] at h
        cases h
    by_cases hnull : j = .null
    · subst hnull
      refine ⟨⟨fun _ k' j' ha => ?_, fun _ => rfl⟩, nofun⟩
      obtain ⟨rfl, rfl⟩ := at_leaf (by nofun) (by nofun) ha
      exact unreadable_null _ _
    -- a value of another kind
    have wrong : (decode env (toTy k) (zero (toTy k)) j).2 = .saved → Unreadable (around env) k j →
        ((decode env (toTy k) (zero (toTy k)) j).2 = .ok ↔ ∀ k' j', At k j k' j' → ¬ Unreadable (around env) k' j') ∧
        ((decode env (toTy k) (zero (toTy k)) j).2 = .abort → Stops (around env) k j) := by
      intro hs hu
      rw [hs]
      exact ⟨⟨nofun, fun h => absurd hu (h k j (.here _ _))⟩, nofun⟩
    have wrong' : k = .callback → (decode env (toTy k) (zero (toTy k)) j).2 = .abort → Unreadable (around env) k j →
        ((decode env (toTy k) (zero (toTy k)) j).2 = .ok ↔ ∀ k' j', At k j k' j' → ¬ Unreadable (around env) k' j') ∧
        ((decode env (toTy k) (zero (toTy k)) j).2 = .abort → Stops (around env) k j) := by
      intro hk hs hu
      rw [hs]
      subst hk
      exact ⟨⟨nofun, fun h => absurd hu (h _ j (.here _ _))⟩, fun _ => .inr ⟨_, _, _, .here _ _, .here _ _, hu⟩⟩
    have hdict : ∀ {k' : Kind} {o : Obj}, j = .obj o → (Json.obj o).WF → ClearDict k' o →
        ((decodeMap env (toTy k') [] o).2 = .ok ↔ ∀ e ∈ o, ∀ k'' j'', At k' e.2 k'' j'' → ¬ Unreadable (around env) k'' j'') ∧
        ((decodeMap env (toTy k') [] o).2 = .abort → ∃ e ∈ o, Stops (around env) k' e.2) := by
      intro k' o hj hw hc
      obtain ⟨hs, hwo⟩ := (Json.WF_obj o).1 hw
      have hih : ∀ e ∈ o, _ := fun e he => ih (k := k') (j := e.2) (by
          have := List.sizeOf_lt_of_mem he
          rw [hj] at hsz
          obtain ⟨m, x⟩ := e
          simp only [Prod.mk.sizeOf_spec, Json.obj.sizeOf_spec] at this hsz ⊢
          omega) ((Json.WFO_iff o).1 hwo _ he) (clear_dict hc _ he)
      refine ⟨(decodeMap_spec env (toTy k') o [] hs (by simp)).1.trans ⟨fun h e he => (hih e he).1.1 (h e he), fun h e he => (hih e he).1.2 (h e he)⟩,
        fun h => ?_⟩
      obtain ⟨e, he, h⟩ := decodeMap_abort env _ o [] h
      exact ⟨e, he, (hih e he).2 h⟩
    cases k with
    | list k =>
      cases j with
      | arr xs =>
        simp only [Clear] at hc
        have hih : ∀ x ∈ xs, _ := fun x hx => ih (k := k) (j := x) (by
          have := List.sizeOf_lt_of_mem hx
          simp only [Json.arr.sizeOf_spec] at hsz
          omega) ((Json.WFL_iff xs).1 ((Json.WF_arr xs).1 hw) x hx) (clear_list hc x hx)
        have e : (decode env (toTy (.list k)) (zero (toTy (.list k))) (.arr xs)).2 = (decodeList env (toTy k) [] xs).2 := rfl
        rw [e]
        refine ⟨(decodeList_spec env (toTy k) xs).1.trans ⟨fun h k' j' ha => ?_, fun h x hx => ?_⟩, fun h => ?_⟩
        · cases ha with
          | here => intro hu; exact hu xs rfl
          | elem hx ha => exact (hih _ hx).1.1 (h _ hx) k' j' ha
        · exact (hih x hx).1.2 fun k' j' ha => h k' j' (.elem hx ha)
        · obtain ⟨x, hx, h⟩ := decodeList_abort env _ xs h
          exact stops_part (fun h => .elem hx h) ((hih x hx).2 h)
      | null => exact absurd rfl hnull
      | _ => exact wrong rfl (by intro s; nofun)
    | dict k =>
      cases j with
      | obj o =>
        simp only [Clear] at hc
        obtain ⟨h1, h2⟩ := hdict rfl hw hc
        have e : (decode env (toTy (.dict k)) (zero (toTy (.dict k))) (.obj o)).2 = (decodeMap env (toTy k) [] o).2 := rfl
        rw [e]
        refine ⟨h1.trans ⟨fun h k' j' ha => ?_, fun h x hx k' j' ha => h k' j' (.entry hx ha)⟩, fun h => ?_⟩
        · cases ha with
          | here => intro hu; exact hu o rfl
          | entry hx ha => exact h _ hx k' j' ha
        · obtain ⟨x, hx, h⟩ := h2 h
          exact stops_part (fun h => .entry hx h) h
      | null => exact absurd rfl hnull
      | _ => exact wrong rfl (by intro s; nofun)
    | sec s =>
      cases j with
      | obj o =>
        simp only [Clear] at hc
        obtain ⟨hs, hwo⟩ := (Json.WF_obj o).1 hw
        obtain ⟨d1, d2, d3⟩ := decodeFields_spec env (secTy s) o (newStruct (secTy s)) (apart_sec hs hc.1)
        have e : (decode env (toTy (.sec s)) (zero (toTy (.sec s))) (.obj o)).2 = (decodeFields env (secTy s) (newStruct (secTy s)) o).2 := rfl
        rw [e]
        -- the fields and the members
        have key : ∀ m k x, kindOf s m = some k → given o m = some x → _ := fun m k x hk hg => ih (k := k) (j := x)
          (by have := given_size hg; omega) (given_WF hw hg) (by
            obtain ⟨key, h1, h2⟩ := given_some hg
            exact clear_members hc.2 _ h1 m k (members_mem hk) h2)
        have conv : ∀ kv ∈ o, ∀ f, findField (secTy s) kv.1 = some f → ∃ k, kindOf s f.name = some k ∧ given o f.name = some kv.2 ∧
            decode env f.ty (newStruct (secTy s) f.name) kv.2 = decode env (toTy k) (zero (toTy k)) kv.2 := by
          intro kv hkv f hf
          obtain ⟨h1, h2⟩ := findField_iff.1 hf
          obtain ⟨k, hk, ht, _⟩ := kind_field h1
          exact ⟨k, hk, given_of_mem hs hc.1 (members_mem hk) hkv h2, by rw [newStruct_field h1, ht, ← zero_toTy]⟩
        refine ⟨d1.trans ⟨fun h k' j' ha => ?_, fun h kv hkv f hf => ?_⟩, fun h => ?_⟩
        · cases ha with
          | here => intro hu; exact hu o rfl
          | @member _ _ m k x _ _ hk hg ha =>
            obtain ⟨f, hf, rfl, ht, _⟩ := field_of_kind hk
            obtain ⟨key', h1, h2⟩ := given_some hg
            have := h _ h1 f (findField_iff.2 ⟨hf, h2⟩)
            rw [newStruct_field hf, ht, ← zero_toTy] at this
            exact (key f.name k x hk hg).1.1 this k' j' ha
        · obtain ⟨k, hk, hg, e⟩ := conv kv hkv f hf
          rw [e]
          exact (key f.name k kv.2 hk hg).1.2 fun k' j' ha => h k' j' (.member hk hg ha)
        · have h' : ¬ (decodeFields env (secTy s) (newStruct (secTy s)) o).2 ≠ .abort := fun hn => hn h
          rw [d2] at h'
          obtain ⟨kv, h'⟩ := Classical.not_forall.1 h'
          obtain ⟨hkv, h'⟩ := Classical.not_imp.1 h'
          obtain ⟨f, h'⟩ := Classical.not_forall.1 h'
          obtain ⟨hf, h'⟩ := Classical.not_imp.1 h'
          obtain ⟨k, hk, hg, e⟩ := conv kv hkv f hf
          rw [e] at h'
          exact stops_part (fun h => .member hk hg h) ((key f.name k kv.2 hk hg).2 (Classical.not_not.1 h'))
      | null => exact absurd rfl hnull
      | _ => exact wrong rfl (by intro s; nofun)
    | callback =>
      cases j with
      | obj o =>
        simp only [Clear] at hc
        obtain ⟨hs, hwo⟩ := (Json.WF_obj o).1 hw
        -- an error is always one that stops
        have habort : ((decode env (toTy .callback) (zero (toTy .callback)) (.obj o)).2 = .ok ↔
            ∀ k' j', At .callback (.obj o) k' j' → ¬ Unreadable (around env) k' j') := by
          obtain ⟨c1, c2⟩ := callback_ref (env := env) hs hc.1 (setField (newStruct .refable) b!"$ref" .nil) rfl
          have hr : ∀ {x}, given o b!"$ref" = some x → ((decode env (.ptr .ref) .nil x).2 = .ok ↔ ¬ Unreadable (around env) .reference x) :=
            fun {x} _ => (basic_status (env := env) (k := .reference) rfl x).1
          rw [callback_eq]
          by_cases hok : (decodeFields env .refable (setField (newStruct .refable) b!"$ref" .nil) o).2 = .ok
          · rw [if_pos hok]
            obtain ⟨v1, v2⟩ := c2 hok
            by_cases hx : ∃ x, given o b!"$ref" = some x ∧ x ≠ .null
            · obtain ⟨x, hg, hn⟩ := hx
              have hd := c1.1 hok x hg
              have hval := v2 x hg
              have hnn : isNil (decode env (.ptr .ref) .nil x).1 = false := by
                cases x with
                | null => exact absurd rfl hn
                | _ => rfl
              rw [if_neg (by rw [hval, hnn]; nofun)]
              refine ⟨fun _ k' j' ha => ?_, fun _ => rfl⟩
              cases ha with
              | here => intro hu; exact hu o rfl
              | callbackReference hx ha =>
                obtain ⟨rfl, rfl⟩ := at_ref ha
                rw [hg] at hx
                cases hx
                exact (hr hg).1 hd
              | callback hx ha =>
                rw [hg] at hx
                rcases hx with hx | hx
                · cases hx
                · cases hx; exact absurd rfl hn
            · have hg : given o b!"$ref" = none ∨ given o b!"$ref" = some .null := by
                cases hgg : given o b!"$ref" with
                | none => exact .inl rfl
                | some x =>
                  refine .inr ?_
                  have : x = .null := Classical.byContradiction fun h => hx ⟨x, hgg, h⟩
                  rw [this]
              have hval : (decodeFields env .refable (setField (newStruct .refable) b!"$ref" .nil) o).1 b!"$ref" = .nil := by
                rcases hg with hg | hg
                · exact v1 hg
                · exact v2 _ hg
              rw [hval]
              obtain ⟨h1, _⟩ := hdict (k' := .sec .pathItem) rfl hw hc.2
              have e : (rewrap (.ptr .callback) (if isNil .nil = true then
                  (Val.callback .nil (.map (decodeMap env (.ptr (.struct .pathItem)) [] o).1), nested (decodeMap env (.ptr (.struct .pathItem)) [] o).2)
                  else (Val.callback .nil .nil, .ok))).2 = nested (decodeMap env (.ptr (.struct .pathItem)) [] o).2 := rfl
              rw [e]
              have e' : nested (decodeMap env (.ptr (.struct .pathItem)) [] o).2 = .ok ↔ (decodeMap env (toTy (.sec .pathItem)) [] o).2 = .ok := by
                change nested (decodeMap env (toTy (.sec .pathItem)) [] o).2 = .ok ↔ _
                cases (decodeMap env (toTy (.sec .pathItem)) [] o).2 <;> decide
              rw [e', h1]
              refine ⟨fun h k' j' ha => ?_, fun h x hx k' j' ha => h k' j' (.callback hg (.entry hx ha))⟩
              cases ha with
              | here => intro hu; exact hu o rfl
              | callbackReference hx ha =>
                obtain ⟨rfl, rfl⟩ := at_ref ha
                rw [hx] at hg
                rcases hg with hg | hg
                · cases hg
                · cases hg; exact unreadable_null _ _
              | callback hx ha =>
                cases ha with
                | here => intro hu; exact hu o rfl
                | entry hx ha => exact h _ hx k' j' ha
          · rw [if_neg hok]
            refine ⟨nofun, fun h => absurd (c1.2 fun x hx => ?_) hok⟩
            exact (hr hx).2 (h _ _ (.callbackReference hx (.here _ _)))
        refine ⟨habort, fun h => ?_⟩
        refine Classical.byContradiction fun hno => ?_
        rw [habort.2 fun k' j' ha hu => hno (.inr ⟨_, k', j', .here _ _, ha, hu⟩)] at h
        cases h
      | null => exact absurd rfl hnull
      | _ => exact wrong' rfl rfl (by intro s; nofun)
    | text | flag | number | integer | free | reference | expression => exact absurd rfl hb

end Oapi.SpecJson

namespace Oapi.Load
open SpecJson Spec.SpecJson Spec.Load

/-- A struct that is not behind a pointer. -/
theorem struct_decode {env : Env} {n : SName} {x : Json} (hn : x ≠ .null) :
    decode env (.ptr (.struct n)) .nil x = (.ptr (decode env (.struct n) (zero (.struct n)) x).1, (decode env (.struct n) (zero (.struct n)) x).2) := by
  cases x with
  | null => exact absurd rfl hn
  | _ => rfl

theorem struct_status (env : Env) (n : SName) (x : Json) :
    (decode env (.struct n) (zero (.struct n)) x).2 = (decode env (.ptr (.struct n)) .nil x).2 := by cases x <;> rfl

theorem structMap_status (env : Env) (n : SName) : ∀ (kvs : List (Str × Json)) (m m' : List (Str × Val)),
    (decodeMap env (.struct n) m kvs).2 = (decodeMap env (.ptr (.struct n)) m' kvs).2
  | [], _, _ => rfl
  | (k, x) :: kvs, m, m' => by
    have e : zero (.ptr (.struct n)) = .nil := rfl
    simp only [decodeMap, e, struct_status env n x]
    split
    · rfl
    · exact congrArg (St.and _) (structMap_status env n kvs _ _)

theorem table_status (env : Env) (s : Section) (x : Json) :
    (decode env (.map (.struct (secTy s))) .nil x).2 = (decode env (toTy (.dict (.sec s))) (zero (toTy (.dict (.sec s)))) x).2 := by
  cases x with
  | obj o => exact structMap_status env (secTy s) o [] []
  | _ => rfl

/-- A setting and its field. -/
def fits (m : Str) (k : Kind) (f : Field) : Prop :=
  f.name = m ∧ (f.ty = toTy k ∨ ∃ s, k = .dict (.sec s) ∧ f.ty = .map (.struct (secTy s)))

theorem table_settings : (configMembers.all fun e => (fields .config).any fun f => decide (f.name = e.1) && (decide (f.ty = toTy e.2) ||
    (match e.2 with | .dict (.sec s) => decide (f.ty = .map (.struct (secTy s))) | _ => false))) = true := by decide

theorem table_config : ((fields .config).all fun f => configMembers.any fun e => decide (f.name = e.1)) = true := by decide

theorem setting_field {m : Str} {k : Kind} (h : (m, k) ∈ configMembers) : ∃ f ∈ fields .config, fits m k f := by
  have := List.all_eq_true.1 table_settings _ h
  obtain ⟨f, hf, h⟩ := List.any_eq_true.1 this
  simp only [Bool.and_eq_true, Bool.or_eq_true, decide_eq_true_eq] at h
  refine ⟨f, hf, h.1, ?_⟩
  rcases h.2 with h | h
  · exact .inl h
  · cases k with
    | dict k =>
      cases k with
      | sec s => exact .inr ⟨s, rfl, by simpa using h⟩
      | _ => cases h
    | _ => cases h

theorem field_setting {f : Field} (hf : f ∈ fields .config) : ∃ k, (f.name, k) ∈ configMembers := by
  have := List.all_eq_true.1 table_config _ hf
  obtain ⟨⟨m, k⟩, he, h⟩ := List.any_eq_true.1 this
  simp only [decide_eq_true_eq] at h
  subst h
  exact ⟨k, he⟩

theorem fits_status {env : Env} {m : Str} {k : Kind} {f : Field} (hf : f ∈ fields .config) (h : fits m k f) (x : Json) :
    (decode env f.ty (newStruct .config f.name) x).2 = (decode env (toTy k) (zero (toTy k)) x).2 := by
  rw [newStruct_field hf]
  rcases h.2 with e | ⟨s, rfl, e⟩
  · rw [e, zero_toTy]
  · rw [e]; exact table_status env s x

theorem apart_config {o : Obj} (hs : Obj.Sorted o) (ht : NoTwins configMembers o) : Apart .config o :=
  apart_of (fun _ hf => field_setting hf) hs ht

theorem unmarshal_obj (env : Env) (o : Obj) : unmarshal env (.obj o) = decodeFields env .config (newStruct .config) o := rfl

variable {env : Env} {o : Obj}

theorem cfg_ok (hs : Obj.Sorted o) (ht : NoTwins configMembers o) : (unmarshal env (.obj o)).2 = .ok ↔
    ∀ m k x, (m, k) ∈ configMembers → given o m = some x → (decode env (toTy k) (zero (toTy k)) x).2 = .ok := by
  obtain ⟨d1, _⟩ := decodeFields_spec env .config o (newStruct .config) (apart_config hs ht)
  rw [unmarshal_obj, d1]
  constructor
  · intro h m k x hm hg
    obtain ⟨f, hf, hfit⟩ := setting_field hm
    obtain ⟨key, h1, h2⟩ := given_some hg
    have := h _ h1 f (findField_iff.2 ⟨hf, by rw [h2, hfit.1]⟩)
    rwa [fits_status hf hfit] at this
  · intro h kv hkv f hfd
    obtain ⟨hf, hl⟩ := findField_iff.1 hfd
    obtain ⟨k, hk⟩ := field_setting hf
    obtain ⟨f', hf', hfit⟩ := setting_field hk
    have : f' = f := field_inj' hf' hf hfit.1
    subst this
    rw [fits_status hf hfit]
    exact h f'.name k kv.2 hk (given_of_mem hs ht hk hkv hl)

theorem cfg_abort (hs : Obj.Sorted o) (ht : NoTwins configMembers o) (h : (unmarshal env (.obj o)).2 = .abort) :
    ∃ m k x, (m, k) ∈ configMembers ∧ given o m = some x ∧ (decode env (toTy k) (zero (toTy k)) x).2 = .abort := by
  obtain ⟨_, d2, _⟩ := decodeFields_spec env .config o (newStruct .config) (apart_config hs ht)
  rw [unmarshal_obj] at h
  have h' : ¬ (decodeFields env .config (newStruct .config) o).2 ≠ .abort := fun hn => hn h
  rw [d2] at h'
  obtain ⟨kv, h'⟩ := Classical.not_forall.1 h'
  obtain ⟨hkv, h'⟩ := Classical.not_imp.1 h'
  obtain ⟨f, h'⟩ := Classical.not_forall.1 h'
  obtain ⟨hfd, h'⟩ := Classical.not_imp.1 h'
  obtain ⟨hf, hl⟩ := findField_iff.1 hfd
  obtain ⟨k, hk⟩ := field_setting hf
  obtain ⟨f', hf', hfit⟩ := setting_field hk
  have : f' = f := field_inj' hf' hf hfit.1
  subst this
  rw [fits_status hf hfit] at h'
  exact ⟨f'.name, k, kv.2, hk, given_of_mem hs ht hk hkv hl, Classical.not_not.1 h'⟩

theorem cfg_value (hs : Obj.Sorted o) (ht : NoTwins configMembers o) (h : (unmarshal env (.obj o)).2 ≠ .abort) {f : Field} (hf : f ∈ fields .config) :
    (given o f.name = none → (unmarshal env (.obj o)).1 f.name = zero0 f.ty) ∧
    ∀ x, given o f.name = some x → (unmarshal env (.obj o)).1 f.name = (decode env f.ty (zero0 f.ty) x).1 := by
  obtain ⟨_, _, d3⟩ := decodeFields_spec env .config o (newStruct .config) (apart_config hs ht)
  rw [unmarshal_obj] at h ⊢
  obtain ⟨v1, v2⟩ := d3 h
  constructor
  · intro hg
    rw [v2 f.name, newStruct_field hf]
    intro kv hkv f' hf' e
    obtain ⟨m', l'⟩ := findField_iff.1 hf'
    exact given_none hg kv hkv (by rw [l', e])
  · intro x hg
    obtain ⟨key, hkey, hl⟩ := given_some hg
    have e2 := v1 _ hkey f (findField_iff.2 ⟨hf, hl⟩)
    rwa [newStruct_field hf] at e2

/-- The value of a setting that is no table. -/
theorem cfg_get (hs : Obj.Sorted o) (ht : NoTwins configMembers o) (h : (unmarshal env (.obj o)).2 ≠ .abort) {m : Str} {k : Kind}
    (hf : ∃ b, (⟨m, b, toTy k⟩ : Field) ∈ fields .config) :
    (given o m = none → (unmarshal env (.obj o)).1 m = zero0 (toTy k)) ∧
    ∀ x, given o m = some x → (unmarshal env (.obj o)).1 m = (decode env (toTy k) (zero (toTy k)) x).1 := by
  obtain ⟨b, hf⟩ := hf
  obtain ⟨h1, h2⟩ := cfg_value hs ht h hf
  exact ⟨h1, fun x hx => by rw [zero_toTy]; exact h2 x hx⟩

theorem text_says (hs : Obj.Sorted o) (ht : NoTwins configMembers o) (h : (unmarshal env (.obj o)).2 = .ok) {m : Str} (hm : m ∈ textSettings) :
    Says o m (textOf ((unmarshal env (.obj o)).1 m)) := by
  have hf : ∃ b, (⟨m, b, toTy .text⟩ : Field) ∈ fields .config := by
    have : (textSettings.all fun m => (fields .config).any fun f => decide (f.name = m) && decide (f.ty = .text)) = true := by decide
    obtain ⟨⟨n, b, t⟩, hf, h⟩ := List.any_eq_true.1 (List.all_eq_true.1 this m hm)
    simp only [Bool.and_eq_true, decide_eq_true_eq] at h
    exact ⟨b, by rw [← h.1]; change (⟨n, b, .text⟩ : Field) ∈ _; rw [← h.2]; exact hf⟩
  have hset : (m, Kind.text) ∈ configMembers := List.mem_append_left _ (List.mem_append_left _ (List.mem_map.2 ⟨m, hm, rfl⟩))
  obtain ⟨v1, v2⟩ := cfg_get hs ht (by rw [h]; nofun) hf
  cases hg : given o m with
  | none => exact .inr ⟨.inl hg, by rw [v1 hg]; rfl⟩
  | some x =>
    have hok := (cfg_ok hs ht).1 h m .text x hset hg
    cases x with
    | null => exact .inr ⟨.inr hg, by rw [v2 _ hg]; rfl⟩
    | str s => exact .inl (by rw [v2 _ hg, hg]; rfl)
    | bool b => exact absurd hok (by change St.saved ≠ _; nofun)
    | num b => exact absurd hok (by change St.saved ≠ _; nofun)
    | arr b => exact absurd hok (by change St.saved ≠ _; nofun)
    | obj b => exact absurd hok (by change St.saved ≠ _; nofun)

end Oapi.Load
