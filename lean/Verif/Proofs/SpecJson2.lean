import Verif.Proofs.SpecJson
import Verif.Props.PtrJson

/- Lemmas for C89: the relation `Passes` is what decoding and encoding compute. -/
namespace Oapi.SpecJson
open Oapi.Spec.SpecJson

theorem find_name {n : SName} {f : Field} (hf : f ∈ fields n) : (fields n).find? (fun x => x.name = f.name) = some f := by
  cases h : (fields n).find? (fun x => x.name = f.name) with
  | none => exact absurd (by simp) (List.find?_eq_none.1 h f hf)
  | some f' =>
    have := List.find?_some h
    simp only [decide_eq_true_eq] at this
    rw [field_inj' (List.mem_of_find?_eq_some h) hf this]

theorem newStruct_field {n : SName} {f : Field} (hf : f ∈ fields n) : newStruct n f.name = zero0 f.ty := by
  unfold newStruct
  rw [find_name hf]

theorem zero_toTy (k : Kind) : zero (toTy k) = zero0 (toTy k) := by cases k <;> rfl

theorem empty_zero (k : Kind) : isEmpty (zero0 (toTy k)) = true := by cases k <;> rfl

theorem encode_zero (env : Env) (k : Kind) : encode env (zero0 (toTy k)) = .ok (zeroOf k) := by cases k <;> rfl

theorem encode_empty {env : Env} {v : Val} (h : isEmpty v = true) : ∃ j, encode env v = .ok j := by
  cases v with
  | text s => exact ⟨_, rfl⟩
  | flag b => exact ⟨_, rfl⟩
  | any o => exact ⟨_, rfl⟩
  | nil => exact ⟨_, rfl⟩
  | slice vs => cases vs with
    | nil => exact ⟨.arr [], rfl⟩
    | cons _ _ => cases h
  | map vs => cases vs with
    | nil => exact ⟨.obj [], rfl⟩
    | cons _ _ => cases h
  | _ => cases h

/-- What is given. -/
theorem given_some {o : Obj} {m : Str} {x : Json} (h : given o m = some x) : ∃ key, (key, x) ∈ o ∧ lowerName key = lowerName m := by
  unfold given at h
  obtain ⟨⟨key, x'⟩, he, rfl⟩ := Option.map_eq_some_iff.1 h
  have := List.find?_some he
  simp only [decide_eq_true_eq] at this
  exact ⟨key, List.mem_of_find?_eq_some he, this⟩

theorem given_none {o : Obj} {m : Str} (h : given o m = none) : ∀ e ∈ o, lowerName e.1 ≠ lowerName m := by
  unfold given at h
  rw [Option.map_eq_none_iff] at h
  intro e he
  have := List.find?_eq_none.1 h e he
  simpa using this

theorem given_of_mem {o : Obj} {m : Str} {ms : List (Str × Kind)} {k : Kind} (hs : Obj.Sorted o) (ht : NoTwins ms o) (hm : (m, k) ∈ ms)
    {key : Str} {x : Json} (h : (key, x) ∈ o) (hl : lowerName key = lowerName m) : given o m = some x := by
  cases hg : given o m with
  | none => exact absurd hl (given_none hg _ h)
  | some x' =>
    obtain ⟨key', h', hl'⟩ := given_some hg
    have hk : ∀ {k : Str} {x : Json}, (k, x) ∈ o → k ∈ Obj.keys o := fun h => List.mem_map_of_mem (f := Prod.fst) h
    have := ht m k hm key (hk h) key' (hk h') hl hl'
    subst this
    have e1 := Obj.lookup_of_mem (Obj.sorted_nodup hs) h
    have e2 := Obj.lookup_of_mem (Obj.sorted_nodup hs) h'
    rw [e1] at e2
    exact e2.symm

/-- Keys that differ in more than letter case go to different fields. -/
theorem apart_of {n : SName} {ms : List (Str × Kind)} (hms : ∀ f ∈ fields n, ∃ k, (f.name, k) ∈ ms) {o : Obj} (hs : Obj.Sorted o) (ht : NoTwins ms o) :
    Apart n o := by
  have hnd := Obj.sorted_nodup hs
  unfold Apart
  unfold Obj.keys at hnd
  rw [List.nodup_iff_pairwise_ne, List.pairwise_map] at hnd
  refine List.Pairwise.imp_of_mem ?_ hnd
  intro a b ha hb hne f h1 h2
  obtain ⟨m1, l1⟩ := findField_iff.1 h1
  obtain ⟨_, l2⟩ := findField_iff.1 h2
  obtain ⟨k, hk⟩ := hms f m1
  exact hne (ht f.name k hk a.1 (List.mem_map_of_mem ha) b.1 (List.mem_map_of_mem hb) l1 l2)

theorem apart_sec {s : Section} {o : Obj} (hs : Obj.Sorted o) (ht : NoTwins (members s) o) : Apart (secTy s) o :=
  apart_of (fun f hf => by obtain ⟨k, hk, _⟩ := kind_field hf; exact ⟨k, members_mem hk⟩) hs ht

theorem apart_ref {o : Obj} (hs : Obj.Sorted o) (ht : NoTwins aReference o) : Apart .refable o :=
  apart_of (fun f hf => by simp only [fields, List.mem_singleton] at hf; subst hf; exact ⟨.reference, by simp [aReference, refField, opt]⟩) hs ht

/-- A value is empty exactly if what it was read from is blank. -/
theorem empty_blank {env : Env} {k : Kind} {j : Json} {v : Val} (hw : j.WF) (h : decode env (toTy k) (zero (toTy k)) j = (v, .ok)) :
    isEmpty v = blank k j := by
  cases j with
  | null => cases k <;> (cases h; rfl)
  | bool b => cases k <;> first
    | (cases h; rfl)
    | (simp only [decode, toTy, target, inner, zero, zero0, intoLeaf, intoOther, rewrap] at h
       first
         | (cases h; rfl)
         | (split at h <;> first | (cases h; rfl) | cases h)
         | (injection h with h1 h2; cases h2; done)
         | (injection h with h1 h2; subst h1; rfl))
  | num b => cases k <;> first
    | (cases h; rfl)
    | (simp only [decode, toTy, target, inner, zero, zero0, intoLeaf, intoOther, rewrap] at h
       first
         | (cases h; rfl)
         | (split at h <;> first | (cases h; rfl) | cases h)
         | (injection h with h1 h2; cases h2; done)
         | (injection h with h1 h2; subst h1; rfl))
  | str b => cases k <;> first
    | (cases h; rfl)
    | (simp only [decode, toTy, target, inner, zero, zero0, intoLeaf, intoOther, rewrap] at h
       first
         | (cases h; rfl)
         | (split at h <;> first | (cases h; rfl) | cases h)
         | (injection h with h1 h2; cases h2; done)
         | (injection h with h1 h2; subst h1; rfl))
  | arr xs =>
    cases k with
    | list k =>
      have e : decode env (toTy (.list k)) (zero (toTy (.list k))) (.arr xs) =
        (.slice (decodeList env (toTy k) [] xs).1, (decodeList env (toTy k) [] xs).2) := rfl
      rw [e] at h
      injection h with h1 h2
      subst h1
      rw [(decodeList_spec env (toTy k) xs).2 h2]
      simp [isEmpty, blank]
    | _ => first
      | (cases h; rfl)
      | (simp only [decode, toTy, target, inner, zero, zero0, intoLeaf, intoOther, rewrap] at h
         first
           | (cases h; rfl)
           | (split at h <;> first | (cases h; rfl) | cases h)
           | (injection h with h1 h2; cases h2; done)
           | (injection h with h1 h2; subst h1; rfl))
  | obj o =>
    cases k with
    | dict k =>
      have e : decode env (toTy (.dict k)) (zero (toTy (.dict k))) (.obj o) =
        (.map (decodeMap env (toTy k) [] o).1, (decodeMap env (toTy k) [] o).2) := rfl
      rw [e] at h
      injection h with h1 h2
      subst h1
      rw [(decodeMap_spec env (toTy k) o [] ((Json.WF_obj o).1 hw).1 (by simp)).2 h2]
      simp [isEmpty, blank]
    | callback =>
      simp only [decode, toTy, target, rewrap] at h
      injection h with h1 h2
      subst h1
      rfl
    | sec s =>
      simp only [decode, toTy, target, rewrap] at h
      injection h with h1 h2
      subst h1
      rfl
    | _ => first
      | (cases h; rfl)
      | (simp only [decode, toTy, target, inner, zero, zero0, intoLeaf, intoOther, rewrap] at h
         first
           | (cases h; rfl)
           | (split at h <;> first | (cases h; rfl) | cases h)
           | (injection h with h1 h2; cases h2; done)
           | (injection h with h1 h2; subst h1; rfl))

/-- The result of encoding if there is one. -/
def out : Res Json → Json
  | .ok j => j
  | _ => .null

theorem out_ok {r : Res Json} {j : Json} (h : r = .ok j) : out r = j := by rw [h]; rfl

theorem sec_values {env : Env} {s : Section} {o : Obj} (hs : Obj.Sorted o) (ht : NoTwins (members s) o)
    (hok : (decodeFields env (secTy s) (newStruct (secTy s)) o).2 = .ok) {m : Str} {k : Kind} (hk : kindOf s m = some k) :
    (given o m = none → (decodeFields env (secTy s) (newStruct (secTy s)) o).1 m = zero0 (toTy k)) ∧
    ∀ x, given o m = some x → decode env (toTy k) (zero (toTy k)) x = ((decodeFields env (secTy s) (newStruct (secTy s)) o).1 m, .ok) := by
  obtain ⟨f, hf, rfl, h1, _⟩ := field_of_kind hk
  obtain ⟨d1, d2, d3⟩ := decodeFields_spec env (secTy s) o (newStruct (secTy s)) (apart_sec hs ht)
  obtain ⟨v1, v2⟩ := d3 (by rw [hok]; nofun)
  constructor
  · intro hg
    rw [v2 f.name, newStruct_field hf, h1]
    intro kv hkv f' hf' e
    obtain ⟨m', l'⟩ := findField_iff.1 hf'
    exact given_none hg kv hkv (by rw [l', e])
  · intro x hg
    obtain ⟨key, hkey, hl⟩ := given_some hg
    have hfd : findField (secTy s) key = some f := findField_iff.2 ⟨hf, hl⟩
    have e1 := d1.1 hok _ hkey f hfd
    have e2 := v1 _ hkey f hfd
    rw [newStruct_field hf, h1, ← zero_toTy] at e1 e2
    rw [e2]
    exact Prod.ext rfl e1

theorem sec_expected {env : Env} {s : Section} {o o' : Obj} (hw : (Json.obj o).WF) (ht : NoTwins (members s) o)
    (hok : (decodeFields env (secTy s) (newStruct (secTy s)) o).2 = .ok)
    (he : (fields (secTy s)).foldr (encStep env (decodeFields env (secTy s) (newStruct (secTy s)) o).1) (.ok []) = .ok o') :
    Obj.Sorted o' ∧ ∀ m, Obj.lookup m o' = expected s o (fun m => out (encode env ((decodeFields env (secTy s) (newStruct (secTy s)) o).1 m))) m := by
  obtain ⟨hs, hwo⟩ := (Json.WF_obj o).1 hw
  obtain ⟨e1, e2, e3⟩ := enc_spec env _ _ _ (fields_nodup _) he
  refine ⟨e1, fun m => ?_⟩
  unfold expected
  cases hk : kindOf s m with
  | none =>
    refine e2 m fun hm => ?_
    obtain ⟨f, hf, rfl⟩ := List.mem_map.1 hm
    obtain ⟨k, hk', _⟩ := kind_field hf
    rw [hk] at hk'
    cases hk'
  | some k =>
    obtain ⟨vn, vs⟩ := sec_values hs ht hok hk
    obtain ⟨f, hf, rfl, h1, h2⟩ := field_of_kind hk
    have h3 := e3 f hf
    simp only
    cases hg : given o f.name with
    | none =>
      rw [vn hg, empty_zero, encode_zero, h2] at h3
      simp only [decide_eq_true_eq, Bool.and_true, decide_eq_false_iff_not, true_and, Res.ok.injEq, exists_eq_left', Decidable.not_not] at h3
      rcases h3 with ⟨h3, h4⟩ | ⟨h3, h4⟩
      · simp only [if_neg h3]; exact h4
      · simp only [if_pos h3]; exact h4
    | some x =>
      have hv := vs x hg
      have hwx : x.WF := by
        obtain ⟨key, hkey, _⟩ := given_some hg
        exact (Json.WFO_iff o).1 hwo _ hkey
      rw [empty_blank hwx hv, h2] at h3
      rcases h3 with ⟨h3, h4, h5⟩ | ⟨h3, j, h4, h5⟩
      · simp only [decide_eq_true_eq] at h3
        simp only [if_pos (And.intro h3 h4)]
        exact h5
      · have hneg : ¬ (f.name ∉ written s ∧ blank k x = true) := by
          intro hab
          rw [hab.2, decide_eq_true hab.1] at h3
          cases h3
        simp only [if_neg hneg, h5, out_ok h4]

theorem encode_ref {env : Env} {p : Pointer} {y : Json} :
    encode env (.ref p) = .ok y ↔ Spec.PtrJson.Quotable (around env).printable p.toStr ∧ y = .str p.toStr := by
  obtain ⟨h1, _, _⟩ := Props.C88_encode env.prn p
  have e : encode env (.ref p) = match PtrJson.encode env.prn p with
    | .ok _ => .ok (.str p.toStr)
    | .err e => .err e
    | .panic => .panic := rfl
  rw [e]
  constructor
  · intro h
    split at h
    · rename_i t ht
      cases h
      exact ⟨h1.1 ⟨t, ht⟩, rfl⟩
    · cases h
    · cases h
  · rintro ⟨h, rfl⟩
    obtain ⟨t, ht⟩ := h1.2 h
    rw [ht]

/-- Reading and writing succeed with the result `y`. -/
def Good (env : Env) (k : Kind) (j y : Json) : Prop :=
  ∃ v, decode env (toTy k) (zero (toTy k)) j = (v, .ok) ∧ encode env v = .ok y

theorem good_ref {env : Env} {j y : Json} (hn : j ≠ .null) (h : ∃ p, decodeRef env j = .ok p ∧ Spec.PtrJson.Quotable (around env).printable p.toStr ∧ y = .str p.toStr) :
    Good env .reference j y := by
  obtain ⟨p, h1, h2⟩ := h
  refine ⟨.ptr (.ref p), ?_, encode_ref.2 h2⟩
  cases j with
  | null => exact absurd rfl hn
  | _ => simp [decode, toTy, target, inner, zero, zero0, intoLeaf, intoOther, rewrap, h1]

theorem ref_good {env : Env} {j y : Json} (hn : j ≠ .null) (h : Good env .reference j y) :
    ∃ p, decodeRef env j = .ok p ∧ Spec.PtrJson.Quotable (around env).printable p.toStr ∧ y = .str p.toStr := by
  obtain ⟨v, h1, h2⟩ := h
  have e : decode env (toTy .reference) (zero (toTy .reference)) j = rewrap (.ptr .ref) (match decodeRef env j with
    | .ok p => (.ref p, .ok)
    | _ => (.ref {}, .abort)) := by
    cases j with
    | null => exact absurd rfl hn
    | _ => rfl
  rw [e] at h1
  cases hd : decodeRef env j with
  | ok p =>
    rw [hd] at h1
    cases h1
    exact ⟨p, rfl, encode_ref.1 h2⟩
  | err e => rw [hd] at h1; cases h1
  | panic => rw [hd] at h1; cases h1

theorem dict_index {o : Obj} (hn : (Obj.keys o).Nodup) {i : Nat} {e : Str × Json} (h : o[i]? = some e) : Obj.lookup e.1 o = some e.2 :=
  Obj.lookup_of_mem hn (List.mem_of_getElem? h)

theorem good_dict {env : Env} {k : Kind} {o o' : Obj} (hs : Obj.Sorted o) (hk : Obj.keys o = Obj.keys o')
    (h : ∀ m x y, Obj.lookup m o = some x → Obj.lookup m o' = some y → Good env k x y) : Good env (.dict k) (.obj o) (.obj o') := by
  have e : decode env (toTy (.dict k)) (zero (toTy (.dict k))) (.obj o) =
    (.map (decodeMap env (toTy k) [] o).1, (decodeMap env (toTy k) [] o).2) := rfl
  have hn := Obj.sorted_nodup hs
  have hn' : (Obj.keys o').Nodup := hk ▸ hn
  obtain ⟨h1, h2⟩ := decodeMap_spec env (toTy k) o [] hs (by simp)
  have hok : (decodeMap env (toTy k) [] o).2 = .ok := by
    refine h1.2 fun kv hkv => ?_
    have hl := Obj.lookup_of_mem hn (k := kv.1) (v := kv.2) hkv
    obtain ⟨y, hy⟩ := (Obj.mem_keys_iff kv.1 o').1 (hk ▸ List.mem_map_of_mem (f := Prod.fst) hkv)
    obtain ⟨v, hv, _⟩ := h _ _ _ hl hy
    rw [hv]
  rw [h2 hok, hok] at e
  refine ⟨_, e, ?_⟩
  have he : encodeMap env (o.map fun kv => (kv.1, (decode env (toTy k) (zero (toTy k)) kv.2).1)) = .ok o' := by
    rw [encodeMap_iff]
    have hlen : o.length = o'.length := by
      have := congrArg List.length hk
      simpa [Obj.keys] using this
    refine ⟨by simpa using hlen, ?_⟩
    intro i e e' he he'
    simp only [List.getElem?_map, Option.map_eq_some_iff] at he
    obtain ⟨⟨m, x⟩, hx, rfl⟩ := he
    have hkk : e'.1 = m := by
      have a1 : (Obj.keys o)[i]? = some m := by simp [Obj.keys, hx]
      have a2 : (Obj.keys o')[i]? = some e'.1 := by simp [Obj.keys, he']
      rw [hk, a2] at a1
      exact Option.some.inj a1
    subst hkk
    refine ⟨rfl, ?_⟩
    obtain ⟨v, hv, hy⟩ := h e'.1 x e'.2 (dict_index hn hx) (dict_index hn' he')
    rw [hv]
    exact hy
  simp only [List.nil_append]
  change (encodeMap env _ >>= fun o => Res.ok (Json.obj o)) = _
  rw [he]
  rfl

theorem dict_good {env : Env} {k : Kind} {o : Obj} {y : Json} (hs : Obj.Sorted o) (h : Good env (.dict k) (.obj o) y) :
    ∃ o', y = .obj o' ∧ Obj.keys o = Obj.keys o' ∧ ∀ m x y, Obj.lookup m o = some x → Obj.lookup m o' = some y → Good env k x y := by
  obtain ⟨v, hv, hy⟩ := h
  have e : decode env (toTy (.dict k)) (zero (toTy (.dict k))) (.obj o) =
    (.map (decodeMap env (toTy k) [] o).1, (decodeMap env (toTy k) [] o).2) := rfl
  rw [e] at hv
  injection hv with hv1 hok
  subst hv1
  obtain ⟨h1, h2⟩ := decodeMap_spec env (toTy k) o [] hs (by simp)
  rw [h2 hok] at hy
  change (encodeMap env _ >>= fun o => Res.ok (Json.obj o)) = _ at hy
  obtain ⟨o', ho', hy⟩ := Res.bind_eq_ok.1 hy
  cases hy
  rw [List.nil_append, encodeMap_iff] at ho'
  obtain ⟨hlen, hidx⟩ := ho'
  simp only [List.length_map] at hlen
  have hkk : Obj.keys o = Obj.keys o' := by
    refine List.ext_getElem? fun i => ?_
    simp only [Obj.keys, List.getElem?_map]
    cases hx : o[i]? with
    | none =>
      have : o'[i]? = none := by
        rw [List.getElem?_eq_none_iff] at hx ⊢
        omega
      rw [this]
    | some e =>
      cases hx' : o'[i]? with
      | none =>
        rw [List.getElem?_eq_none_iff] at hx'
        have : i < o.length := (List.getElem?_eq_some_iff.1 hx).1
        omega
      | some e' =>
        have := (hidx i _ _ (by rw [List.getElem?_map, hx]; rfl) hx').1
        simp only at this
        simp [this]
  refine ⟨o', rfl, hkk, ?_⟩
  intro m x y hx hy
  obtain ⟨i, hi⟩ := List.mem_iff_getElem?.1 (Obj.lookup_mem hx)
  have hn := Obj.sorted_nodup hs
  have hi' : i < o'.length := by
    have := (List.getElem?_eq_some_iff.1 hi).1
    omega
  have he' : o'[i]? = some o'[i] := List.getElem?_eq_getElem hi'
  obtain ⟨q1, q2⟩ := hidx i _ _ (by rw [List.getElem?_map, hi]; rfl) he'
  have hl' := dict_index (hkk ▸ hn) he'
  simp only at q1 q2
  rw [q1, hy] at hl'
  cases hl'
  exact ⟨_, Prod.ext rfl (h1.1 hok _ (List.mem_of_getElem? hi)), q2⟩

theorem good_list {env : Env} {k : Kind} {xs ys : List Json} (hl : xs.length = ys.length)
    (h : ∀ (i : Nat) x y, xs[i]? = some x → ys[i]? = some y → Good env k x y) : Good env (.list k) (.arr xs) (.arr ys) := by
  have e : decode env (toTy (.list k)) (zero (toTy (.list k))) (.arr xs) =
    (.slice (decodeList env (toTy k) [] xs).1, (decodeList env (toTy k) [] xs).2) := rfl
  obtain ⟨h1, h2⟩ := decodeList_spec env (toTy k) xs
  have hok : (decodeList env (toTy k) [] xs).2 = .ok := by
    refine h1.2 fun x hx => ?_
    obtain ⟨i, hi⟩ := List.mem_iff_getElem?.1 hx
    have hi' : i < ys.length := by
      have := (List.getElem?_eq_some_iff.1 hi).1
      omega
    obtain ⟨v, hv, _⟩ := h i _ _ hi (List.getElem?_eq_getElem hi')
    rw [hv]
  rw [h2 hok, hok] at e
  refine ⟨_, e, ?_⟩
  have he : encodeList env (xs.map fun x => (decode env (toTy k) (zero (toTy k)) x).1) = .ok ys := by
    rw [encodeList_iff]
    refine ⟨by simpa using hl, ?_⟩
    intro i v y hv hy
    simp only [List.getElem?_map, Option.map_eq_some_iff] at hv
    obtain ⟨x, hx, rfl⟩ := hv
    obtain ⟨v, hv, hy⟩ := h _ _ _ hx hy
    rw [hv]
    exact hy
  change (encodeList env _ >>= fun o => Res.ok (Json.arr o)) = _
  rw [he]
  rfl

theorem list_good {env : Env} {k : Kind} {xs : List Json} {y : Json} (h : Good env (.list k) (.arr xs) y) :
    ∃ ys, y = .arr ys ∧ xs.length = ys.length ∧ ∀ (i : Nat) x y, xs[i]? = some x → ys[i]? = some y → Good env k x y := by
  obtain ⟨v, hv, hy⟩ := h
  have e : decode env (toTy (.list k)) (zero (toTy (.list k))) (.arr xs) =
    (.slice (decodeList env (toTy k) [] xs).1, (decodeList env (toTy k) [] xs).2) := rfl
  rw [e] at hv
  injection hv with hv1 hok
  subst hv1
  obtain ⟨h1, h2⟩ := decodeList_spec env (toTy k) xs
  rw [h2 hok] at hy
  change (encodeList env _ >>= fun o => Res.ok (Json.arr o)) = _ at hy
  obtain ⟨ys, hys, hy⟩ := Res.bind_eq_ok.1 hy
  cases hy
  rw [encodeList_iff] at hys
  obtain ⟨hlen, hidx⟩ := hys
  refine ⟨ys, rfl, by simpa using hlen, ?_⟩
  intro i x y hx hy
  exact ⟨_, Prod.ext rfl (h1.1 hok _ (List.mem_of_getElem? hx)), hidx i _ _ (by rw [List.getElem?_map, hx]; rfl) hy⟩

/-- The `$ref` of a callback. -/
theorem callback_ref {env : Env} {o : Obj} (hs : Obj.Sorted o) (ht : NoTwins aReference o) (g0 : Str → Val) (h0 : g0 b!"$ref" = .nil) :
    ((decodeFields env .refable g0 o).2 = .ok ↔ ∀ x, given o b!"$ref" = some x → (decode env (.ptr .ref) .nil x).2 = .ok) ∧
    ((decodeFields env .refable g0 o).2 = .ok →
      (given o b!"$ref" = none → (decodeFields env .refable g0 o).1 b!"$ref" = .nil) ∧
      ∀ x, given o b!"$ref" = some x → (decodeFields env .refable g0 o).1 b!"$ref" = (decode env (.ptr .ref) .nil x).1) := by
  obtain ⟨d1, d2, d3⟩ := decodeFields_spec env .refable o g0 (apart_ref hs ht)
  have hfd : ∀ {key : Str} {f : Field}, findField .refable key = some f ↔ f = refField ∧ lowerName key = lowerName b!"$ref" := by
    intro key f
    rw [findField_iff]
    simp only [fields, List.mem_singleton]
    constructor
    · rintro ⟨rfl, h⟩; exact ⟨rfl, h⟩
    · rintro ⟨rfl, h⟩; exact ⟨rfl, h⟩
  have hrn : refField.name = b!"$ref" := rfl
  have hrt : refField.ty = .ptr .ref := rfl
  refine ⟨d1.trans ⟨fun h x hx => ?_, fun h kv hkv f hf => ?_⟩, fun hok => ⟨fun hg => ?_, fun x hx => ?_⟩⟩
  · obtain ⟨key, hk, hl⟩ := given_some hx
    have := h _ hk refField (hfd.2 ⟨rfl, hl⟩)
    rwa [hrn, hrt, h0] at this
  · obtain ⟨rfl, hl⟩ := hfd.1 hf
    rw [hrn, hrt, h0]
    exact h kv.2 (given_of_mem hs ht (k := .reference) (by simp [aReference]) hkv hl)
  · rw [(d3 (by rw [hok]; nofun)).2 b!"$ref", h0]
    intro kv hkv f hf _
    exact given_none hg kv hkv (hfd.1 hf).2
  · obtain ⟨key, hk, hl⟩ := given_some hx
    have := (d3 (by rw [hok]; nofun)).1 _ hk refField (hfd.2 ⟨rfl, hl⟩)
    rwa [hrn, hrt, h0] at this

theorem callback_eq (env : Env) (o : Obj) : decode env (toTy .callback) (zero (toTy .callback)) (.obj o) =
    rewrap (.ptr .callback) (
      if (decodeFields env .refable (setField (newStruct .refable) b!"$ref" .nil) o).2 = .ok then
        if isNil ((decodeFields env .refable (setField (newStruct .refable) b!"$ref" .nil) o).1 b!"$ref") then
          (.callback ((decodeFields env .refable (setField (newStruct .refable) b!"$ref" .nil) o).1 b!"$ref")
            (.map (decodeMap env (.ptr (.struct .pathItem)) [] o).1), nested (decodeMap env (.ptr (.struct .pathItem)) [] o).2)
        else (.callback ((decodeFields env .refable (setField (newStruct .refable) b!"$ref" .nil) o).1 b!"$ref") .nil, .ok)
      else (.callback ((decodeFields env .refable (setField (newStruct .refable) b!"$ref" .nil) o).1 b!"$ref") .nil, .abort)) := rfl

theorem ref_decode {env : Env} {x : Json} (h : (decode env (.ptr .ref) .nil x).2 = .ok) :
    decode env (.ptr .ref) .nil x = ((decode env (.ptr .ref) .nil x).1, .ok) := Prod.ext rfl h

theorem sound {env : Env} {k : Kind} {j y : Json} (h : Passes (around env) k j y) : j.WF → Good env k j y := by
  induction h with
  | null k =>
    intro _
    refine ⟨intoNull (toTy k) (zero (toTy k)), rfl, ?_⟩
    cases k <;> rfl
  | text s => exact fun _ => ⟨_, rfl, rfl⟩
  | flag b => exact fun _ => ⟨_, rfl, rfl⟩
  | number n => exact fun _ => ⟨.ptr (.num n), rfl, rfl⟩
  | integer n h =>
    intro _
    refine ⟨.ptr (.num n), ?_, rfl⟩
    have h' : env.isInt n = true := h
    simp [decode, toTy, target, inner, zero, zero0, intoLeaf, rewrap, h']
  | free j =>
    intro _
    refine ⟨.any (some j), ?_, rfl⟩
    cases j <;> rfl
  | reference s p h hq => exact fun _ => good_ref (by nofun) ⟨p, h, hq, rfl⟩
  | oddReference j p hn hs h hq =>
    intro _
    refine good_ref hn ⟨p, ?_, hq, rfl⟩
    cases j with
    | str s => exact absurd rfl (hs s)
    | _ => exact h
  | expression s h =>
    intro _
    refine ⟨.ptr (.anyExpr s none), rfl, ?_⟩
    simp [encode, h]
  | noExpression => exact fun _ => ⟨.ptr (.anyExpr [] none), rfl, rfl⟩
  | value j hn hs =>
    intro _
    refine ⟨.ptr (.anyExpr [] (some j)), ?_, rfl⟩
    cases j with
    | null => exact absurd rfl hn
    | str s => exact absurd rfl (hs s)
    | _ => rfl
  | list k xs ys hl h ih =>
    intro hw
    refine good_list hl fun i x y hx hy => ih i x y hx hy ?_
    exact (Json.WFL_iff xs).1 ((Json.WF_arr xs).1 hw) x (List.mem_of_getElem? hx)
  | dict k o o' hk h ih =>
    intro hw
    obtain ⟨hs, hwo⟩ := (Json.WF_obj o).1 hw
    exact good_dict hs hk fun m x y hx hy => ih m x y hx hy (Json.WFO_lookup hwo hx)
  | callbackReference o x y hg ht hn h ih =>
    intro hw
    obtain ⟨hs, hwo⟩ := (Json.WF_obj o).1 hw
    have hwx : x.WF := by
      obtain ⟨key, hkey, _⟩ := given_some hg
      exact (Json.WFO_iff o).1 hwo _ hkey
    obtain ⟨c1, c2⟩ := callback_ref (env := env) hs ht (setField (newStruct .refable) b!"$ref" .nil) rfl
    obtain ⟨v, hv, hy⟩ := ih hwx
    have hv' : decode env (.ptr .ref) .nil x = (v, .ok) := hv
    have hok := c1.2 fun x' hx' => by rw [hg] at hx'; cases hx'; rw [hv']
    have hval := (c2 hok).2 x hg
    rw [hv'] at hval
    obtain ⟨p, hp, _⟩ := ref_good hn ⟨v, hv, hy⟩
    have hvp : v = .ptr (.ref p) := by
      have : decode env (.ptr .ref) .nil x = (.ptr (.ref p), .ok) := by
        cases x with
        | null => exact absurd rfl hn
        | _ => simp [decode, target, inner, zero, zero0, intoLeaf, intoOther, rewrap, hp]
      rw [hv'] at this
      injection this
    refine ⟨.ptr (.callback v .nil), ?_, ?_⟩
    · rw [callback_eq, if_pos hok, hval, hvp]
      rfl
    · rw [hvp] at hy ⊢
      change (encode env (.ptr (.ref p)) >>= fun j => Res.ok (Json.obj [(b!"$ref", j)])) = _
      rw [hy]
      rfl
  | callback o y hg ht h ih =>
    intro hw
    obtain ⟨hs, hwo⟩ := (Json.WF_obj o).1 hw
    obtain ⟨c1, c2⟩ := callback_ref (env := env) hs ht (setField (newStruct .refable) b!"$ref" .nil) rfl
    have hok := c1.2 fun x hx => by
      rcases hg with hg | hg
      · rw [hg] at hx; cases hx
      · rw [hg] at hx; cases hx; rfl
    have hval : (decodeFields env .refable (setField (newStruct .refable) b!"$ref" .nil) o).1 b!"$ref" = .nil := by
      rcases hg with hg | hg
      · exact (c2 hok).1 hg
      · exact (c2 hok).2 _ hg
    obtain ⟨v, hv, hy⟩ := ih hw
    have e : decode env (toTy (.dict (.sec .pathItem))) (zero (toTy (.dict (.sec .pathItem)))) (.obj o) =
      (.map (decodeMap env (.ptr (.struct .pathItem)) [] o).1, (decodeMap env (.ptr (.struct .pathItem)) [] o).2) := rfl
    rw [e] at hv
    injection hv with hv1 hv2
    refine ⟨.ptr (.callback .nil v), ?_, hy⟩
    rw [callback_eq, if_pos hok, hval, hv1, hv2]
    rfl
  | sec s o o' g ht h hso ho ih =>
    intro hw
    obtain ⟨hs, hwo⟩ := (Json.WF_obj o).1 hw
    have hwx : ∀ {m x}, given o m = some x → x.WF := by
      intro m x hg
      obtain ⟨key, hkey, _⟩ := given_some hg
      exact (Json.WFO_iff o).1 hwo _ hkey
    obtain ⟨d1, _, _⟩ := decodeFields_spec env (secTy s) o (newStruct (secTy s)) (apart_sec hs ht)
    have hok : (decodeFields env (secTy s) (newStruct (secTy s)) o).2 = .ok := by
      refine d1.2 fun kv hkv f hf => ?_
      obtain ⟨hm, hl⟩ := findField_iff.1 hf
      obtain ⟨k, hk, h1, _⟩ := kind_field hm
      have hg := given_of_mem hs ht (members_mem hk) hkv hl
      obtain ⟨v, hv, _⟩ := ih _ _ _ hk hg (hwx hg)
      rw [newStruct_field hm, h1, ← zero_toTy, hv]
    have hval : ∀ m k x, kindOf s m = some k → given o m = some x →
        encode env ((decodeFields env (secTy s) (newStruct (secTy s)) o).1 m) = .ok (g m) := by
      intro m k x hk hg
      obtain ⟨v, hv, hy⟩ := ih _ _ _ hk hg (hwx hg)
      have := (sec_values hs ht hok hk).2 x hg
      rw [hv] at this
      injection this with this _
      rw [← this]
      exact hy
    obtain ⟨o'', ho''⟩ := enc_ok env (decodeFields env (secTy s) (newStruct (secTy s)) o).1 (fields (secTy s)) (by
      intro f hf
      obtain ⟨k, hk, _⟩ := kind_field hf
      right
      cases hg : given o f.name with
      | none => rw [(sec_values hs ht hok hk).1 hg]; exact ⟨_, encode_zero env k⟩
      | some x => exact ⟨_, hval _ _ _ hk hg⟩)
    obtain ⟨hs'', hl''⟩ := sec_expected hw ht hok ho''
    have : o'' = o' := by
      refine Obj.ext_lookup hs'' hso fun m => ?_
      rw [hl'', ho]
      unfold expected
      cases hk : kindOf s m with
      | none => rfl
      | some k =>
        cases hg : given o m with
        | none => rfl
        | some x => simp only [out_ok (hval _ _ _ hk hg)]
    refine ⟨.ptr (.struct (secTy s) (decodeFields env (secTy s) (newStruct (secTy s)) o).1), ?_, ?_⟩
    · have e : decode env (toTy (.sec s)) (zero (toTy (.sec s))) (.obj o) =
        (.ptr (.struct (secTy s) (decodeFields env (secTy s) (newStruct (secTy s)) o).1), (decodeFields env (secTy s) (newStruct (secTy s)) o).2) := rfl
      rw [e, hok]
    · change encode env (.struct _ _) = _
      rw [encode_struct, ho'', this]
      rfl

theorem clear_list {k : Kind} : ∀ {xs : List Json}, ClearList k xs → ∀ x ∈ xs, Clear k x
  | x :: xs, h, y, hy => by
    simp only [ClearList] at h
    rcases List.mem_cons.1 hy with rfl | hy
    · exact h.1
    · exact clear_list h.2 y hy

theorem clear_dict {k : Kind} : ∀ {o : List (Str × Json)}, ClearDict k o → ∀ e ∈ o, Clear k e.2
  | (m, x) :: o, h, y, hy => by
    simp only [ClearDict] at h
    rcases List.mem_cons.1 hy with rfl | hy
    · exact h.1
    · exact clear_dict h.2 y hy

theorem clear_members {s : Section} : ∀ {o : List (Str × Json)}, ClearMembers s o →
    ∀ e ∈ o, ∀ n k, (n, k) ∈ members s → lowerName e.1 = lowerName n → Clear k e.2
  | (m, x) :: o, h, y, hy => by
    simp only [ClearMembers] at h
    rcases List.mem_cons.1 hy with rfl | hy
    · exact h.1
    · exact clear_members h.2 y hy

theorem other_complete {env : Env} {k : Kind} {j y : Json} (hk : k = .free ∨ k = .expression ∨ k = .reference) (hn : j ≠ .null) (h : Good env k j y) :
    Passes (around env) k j y := by
  rcases hk with rfl | rfl | rfl
  · obtain ⟨v, hv, hy⟩ := h
    have e : decode env (toTy .free) (zero (toTy .free)) j = (.any (some j), .ok) := by cases j <;> rfl
    rw [e] at hv
    cases hv
    cases hy
    exact .free j
  · obtain ⟨v, hv, hy⟩ := h
    by_cases hs : ∃ s, j = .str s
    · obtain ⟨s, rfl⟩ := hs
      have e : decode env (toTy .expression) (zero (toTy .expression)) (.str s) = (.ptr (.anyExpr s none), .ok) := rfl
      rw [e] at hv
      cases hv
      change (if s ≠ [] then Res.ok (Json.str s) else .ok .null) = _ at hy
      split at hy
      · rename_i h; cases hy; exact .expression s h
      · rename_i h
        cases hy
        have : s = [] := Classical.byContradiction h
        subst this
        exact .noExpression
    · have e : decode env (toTy .expression) (zero (toTy .expression)) j = (.ptr (.anyExpr [] (some j)), .ok) := by
        cases j with
        | null => exact absurd rfl hn
        | str s => exact absurd ⟨s, rfl⟩ hs
        | _ => rfl
      rw [e] at hv
      cases hv
      cases hy
      exact .value j hn fun s e => hs ⟨s, e⟩
  · obtain ⟨p, h1, h2, rfl⟩ := ref_good hn h
    by_cases hs : ∃ s, j = .str s
    · obtain ⟨s, rfl⟩ := hs
      exact .reference s p h1 h2
    · refine .oddReference j p hn (fun s e => hs ⟨s, e⟩) ?_ h2
      cases j with
      | str s => exact absurd ⟨s, rfl⟩ hs
      | _ => exact h1

theorem leaf_complete {env : Env} {k : Kind} {j y : Json} (hj : (∃ b, j = .bool b) ∨ (∃ n, j = .num n) ∨ ∃ s, j = .str s) (h : Good env k j y) :
    Passes (around env) k j y := by
  have hn : j ≠ .null := by rcases hj with ⟨b, rfl⟩ | ⟨b, rfl⟩ | ⟨b, rfl⟩ <;> nofun
  by_cases hk : k = .free ∨ k = .expression ∨ k = .reference
  · exact other_complete hk hn h
  simp only [not_or] at hk
  obtain ⟨k1, k2, k3⟩ := hk
  obtain ⟨v, hv, hy⟩ := h
  have wrong : ∀ {a : Val} {b : St}, b ≠ .ok → (a, b) = (v, St.ok) → False := fun h e => h (Prod.mk.inj e).2
  rcases hj with ⟨b, rfl⟩ | ⟨b, rfl⟩ | ⟨b, rfl⟩
  · cases k with
    | flag => cases hv; cases hy; exact .flag b
    | free => exact absurd rfl k1
    | expression => exact absurd rfl k2
    | reference => exact absurd rfl k3
    | _ => exact (wrong (by nofun) hv).elim
  · cases k with
    | number => cases hv; cases hy; exact .number b
    | integer =>
      simp only [decode, toTy, target, inner, zero, zero0, intoLeaf, rewrap] at hv
      split at hv
      · rename_i hi
        cases hv; cases hy; exact .integer b hi
      · exact (wrong (by nofun) hv).elim
    | free => exact absurd rfl k1
    | expression => exact absurd rfl k2
    | reference => exact absurd rfl k3
    | _ => exact (wrong (by nofun) hv).elim
  · cases k with
    | text => cases hv; cases hy; exact .text b
    | free => exact absurd rfl k1
    | expression => exact absurd rfl k2
    | reference => exact absurd rfl k3
    | _ => exact (wrong (by nofun) hv).elim

theorem given_size {o : Obj} {m : Str} {x : Json} (h : given o m = some x) : sizeOf x < sizeOf (Json.obj o) := by
  obtain ⟨key, hkey, _⟩ := given_some h
  have := List.sizeOf_lt_of_mem hkey
  simp only [Prod.mk.sizeOf_spec] at this
  simp only [Json.obj.sizeOf_spec]
  omega

theorem complete {env : Env} : ∀ (n : Nat) {k : Kind} {j y : Json}, sizeOf j ≤ n → j.WF → Clear k j → Good env k j y → Passes (around env) k j y := by
  intro n
  induction n with
  | zero => intro k j y h; cases j <;> simp at h
  | succ n ih =>
    intro k j y hsz hw hc h
    have hdict : ∀ {k : Kind} {o : Obj} {y : Json}, sizeOf (Json.obj o) ≤ n + 1 → (Json.obj o).WF → ClearDict k o → Good env (.dict k) (.obj o) y →
        Passes (around env) (.dict k) (.obj o) y := by
      intro k o y hsz hw hc h
      obtain ⟨hs, hwo⟩ := (Json.WF_obj o).1 hw
      obtain ⟨o', rfl, hk, h'⟩ := dict_good hs h
      refine .dict k o o' hk fun m x y hx hy => ?_
      have hmem := Obj.lookup_mem hx
      refine ih ?_ (Json.WFO_lookup hwo hx) (clear_dict hc _ hmem) (h' m x y hx hy)
      have := List.sizeOf_lt_of_mem hmem
      simp only [Prod.mk.sizeOf_spec] at this
      simp only [Json.obj.sizeOf_spec] at hsz
      omega
    cases j with
    | null =>
      obtain ⟨v, hv, hy⟩ := h
      have e : decode env (toTy k) (zero (toTy k)) .null = (intoNull (toTy k) (zero (toTy k)), .ok) := rfl
      rw [e] at hv
      injection hv with hv _
      subst hv
      have : y = zeroOf k := by cases k <;> (cases hy; rfl)
      subst this
      exact .null k
    | bool b => exact leaf_complete (.inl ⟨b, rfl⟩) h
    | num b => exact leaf_complete (.inr (.inl ⟨b, rfl⟩)) h
    | str b => exact leaf_complete (.inr (.inr ⟨b, rfl⟩)) h
    | arr xs =>
      by_cases hk : k = .free ∨ k = .expression ∨ k = .reference
      · exact other_complete hk (by nofun) h
      simp only [not_or] at hk
      obtain ⟨k1, k2, k3⟩ := hk
      have wrong : ∀ {v : Val} {a : Val} {b : St}, b ≠ .ok → (a, b) = (v, St.ok) → False := fun h e => h (Prod.mk.inj e).2
      cases k with
      | list k =>
        obtain ⟨ys, rfl, hl, h'⟩ := list_good h
        have hc' : ClearList k xs := by simpa only [Clear] using hc
        refine .list k xs ys hl fun i x y hx hy => ?_
        have hmem := List.mem_of_getElem? hx
        refine ih ?_ ((Json.WFL_iff xs).1 ((Json.WF_arr xs).1 hw) x hmem) (clear_list hc' x hmem) (h' i x y hx hy)
        have := List.sizeOf_lt_of_mem hmem
        simp only [Json.arr.sizeOf_spec] at hsz
        omega
      | free => exact absurd rfl k1
      | expression => exact absurd rfl k2
      | reference => exact absurd rfl k3
      | _ =>
        obtain ⟨v, hv, hy⟩ := h
        exact (wrong (by nofun) hv).elim
    | obj o =>
      by_cases hk : k = .free ∨ k = .expression ∨ k = .reference
      · exact other_complete hk (by nofun) h
      simp only [not_or] at hk
      obtain ⟨k1, k2, k3⟩ := hk
      have wrong : ∀ {v : Val} {a : Val} {b : St}, b ≠ .ok → (a, b) = (v, St.ok) → False := fun h e => h (Prod.mk.inj e).2
      obtain ⟨hs, hwo⟩ := (Json.WF_obj o).1 hw
      have hwx : ∀ {m x}, given o m = some x → x.WF := by
        intro m x hg
        obtain ⟨key, hkey, _⟩ := given_some hg
        exact (Json.WFO_iff o).1 hwo _ hkey
      cases k with
      | dict k => exact hdict hsz hw (by simpa only [Clear] using hc) h
      | callback =>
        have hc' : NoTwins aReference o ∧ ClearDict (.sec .pathItem) o := by simpa only [Clear] using hc
        obtain ⟨ht, hcd⟩ := hc'
        obtain ⟨v, hv, hy⟩ := h
        obtain ⟨c1, c2⟩ := callback_ref (env := env) hs ht (setField (newStruct .refable) b!"$ref" .nil) rfl
        rw [callback_eq] at hv
        by_cases hok : (decodeFields env .refable (setField (newStruct .refable) b!"$ref" .nil) o).2 = .ok
        · rw [if_pos hok] at hv
          obtain ⟨v1, v2⟩ := c2 hok
          by_cases hx : ∃ x, given o b!"$ref" = some x ∧ x ≠ .null
          · obtain ⟨x, hg, hn⟩ := hx
            have hd := c1.1 hok x hg
            have hval := v2 x hg
            have hnn : isNil (decode env (.ptr .ref) .nil x).1 = false := by
              cases x with
              | null => exact absurd rfl hn
              | _ => rfl
            rw [if_neg (by rw [hval, hnn]; nofun)] at hv
            cases hv
            rw [hval] at hy
            change (if isNil _ then _ else _) = _ at hy
            rw [if_neg (by rw [hnn]; nofun)] at hy
            obtain ⟨z, hz, hy⟩ := Res.bind_eq_ok.1 hy
            cases hy
            refine .callbackReference o x z hg ht hn ?_
            refine other_complete (.inr (.inr rfl)) hn ⟨_, ref_decode hd, hz⟩
          · have hg : given o b!"$ref" = none ∨ given o b!"$ref" = some .null := by
              cases hgg : given o b!"$ref" with
              | none => exact .inl rfl
              | some x =>
                refine .inr ?_
                have : x = .null := Classical.byContradiction fun h => hx ⟨x, hgg, h⟩
                rw [this]
            have hval : (decodeFields env .refable (setField (newStruct .refable) b!"$ref" .nil) o).1 b!"$ref" = .nil := by
              rcases hg with hg | hg
              · exact v1 hg
              · exact v2 _ hg
            rw [hval] at hv
            change (Val.ptr (.callback .nil (.map _)), nested _) = _ at hv
            injection hv with hv1 hv2
            subst hv1
            refine .callback o y hg ht (hdict hsz hw hcd ⟨.map (decodeMap env (.ptr (.struct .pathItem)) [] o).1, ?_, hy⟩)
            have e : decode env (toTy (.dict (.sec .pathItem))) (zero (toTy (.dict (.sec .pathItem)))) (.obj o) =
              (.map (decodeMap env (.ptr (.struct .pathItem)) [] o).1, (decodeMap env (.ptr (.struct .pathItem)) [] o).2) := rfl
            rw [e]
            have : (decodeMap env (.ptr (.struct .pathItem)) [] o).2 = .ok := by
              cases hq : (decodeMap env (.ptr (.struct .pathItem)) [] o).2 <;> rw [hq] at hv2 <;> first | rfl | cases hv2
            rw [this]
        · rw [if_neg hok] at hv
          exact (wrong (by nofun) hv).elim
      | sec s =>
        have hc' : NoTwins (members s) o ∧ ClearMembers s o := by simpa only [Clear] using hc
        obtain ⟨ht, hcm⟩ := hc'
        obtain ⟨v, hv, hy⟩ := h
        have e : decode env (toTy (.sec s)) (zero (toTy (.sec s))) (.obj o) =
          (.ptr (.struct (secTy s) (decodeFields env (secTy s) (newStruct (secTy s)) o).1), (decodeFields env (secTy s) (newStruct (secTy s)) o).2) := rfl
        rw [e] at hv
        injection hv with hv1 hok
        subst hv1
        change encode env (.struct _ _) = _ at hy
        rw [encode_struct] at hy
        obtain ⟨o', ho', hy⟩ := Res.bind_eq_ok.1 hy
        cases hy
        obtain ⟨e1, e2⟩ := sec_expected hw ht hok ho'
        refine .sec s o o' _ ht ?_ e1 e2
        intro m k x hk hg
        have hv := (sec_values hs ht hok hk).2 x hg
        have henc : ∃ z, encode env ((decodeFields env (secTy s) (newStruct (secTy s)) o).1 m) = .ok z := by
          obtain ⟨f, hf, rfl, _⟩ := field_of_kind hk
          rcases (enc_spec env _ _ _ (fields_nodup _) ho').2.2 f hf with ⟨_, h, _⟩ | ⟨_, z, hz, _⟩
          · exact encode_empty h
          · exact ⟨z, hz⟩
        obtain ⟨z, hz⟩ := henc
        rw [out_ok hz]
        obtain ⟨key, hkey, hl⟩ := given_some hg
        refine ih ?_ (hwx hg) (clear_members hcm _ hkey m k (members_mem hk) hl) ⟨_, hv, hz⟩
        have := given_size hg
        omega
      | free => exact absurd rfl k1
      | expression => exact absurd rfl k2
      | reference => exact absurd rfl k3
      | _ =>
        obtain ⟨v, hv, hy⟩ := h
        exact (wrong (by nofun) hv).elim

/-- `pass` and `Good`. -/
theorem pass_ok {env : Env} {k : Kind} {j y : Json} : pass env (toTy k) j = .ok y ↔ Good env k j y := by
  unfold pass Good
  cases hd : decode env (toTy k) (zero (toTy k)) j with
  | mk v st =>
    cases st with
    | ok =>
      simp only [Prod.mk.injEq, and_true]
      exact ⟨fun h => ⟨v, rfl, h⟩, fun ⟨_, e, h⟩ => e ▸ h⟩
    | saved => simp
    | abort => simp

end Oapi.SpecJson
