import Verif.Proofs.Json
import Verif.Proofs.PtrJson
import Verif.Model.SpecJson
import Verif.Spec.SpecJson

/- Lemmas for C89: sections read and written. -/
namespace Oapi.SpecJson
open Oapi.Spec.SpecJson

def secTy : Section → SName
  | .openapi => .openapi | .info => .info | .contact => .contact | .license => .license | .server => .server
  | .serverVariable => .serverVariable | .tag => .tag | .externalDocs => .externalDocs | .components => .components | .schema => .schema
  | .discriminator => .discriminator | .xml => .xml | .response => .response | .parameter => .parameter | .example => .example
  | .requestBody => .requestBody | .header => .header | .securityScheme => .securityScheme | .oauthFlows => .oauthFlows
  | .oauthFlow => .oauthFlow | .link => .link | .pathItem => .pathItem | .operation => .operation | .mediaType => .mediaType
  | .encoding => .encoding

def toTy : Kind → Ty
  | .text => .text
  | .flag => .flag
  | .number => .ptr .float
  | .integer => .ptr .int
  | .free => .any
  | .reference => .ptr .ref
  | .expression => .ptr .anyExpr
  | .callback => .ptr .callback
  | .list k => .slice (toTy k)
  | .dict k => .map (toTy k)
  | .sec s => .ptr (.struct (secTy s))

def around (env : Env) : Around := ⟨env.prn, env.isInt, env.raw⟩

/-! ### Tables -/

def allNames : List SName := [.openapi, .info, .contact, .license, .server, .serverVariable, .tag, .externalDocs, .components, .schema,
  .discriminator, .xml, .response, .parameter, .example, .requestBody, .header, .securityScheme, .oauthFlows, .oauthFlow, .link, .pathItem,
  .operation, .mediaType, .encoding, .refable, .config]

def allSecs : List Section := [.openapi, .info, .contact, .license, .server, .serverVariable, .tag, .externalDocs, .components, .schema,
  .discriminator, .xml, .response, .parameter, .example, .requestBody, .header, .securityScheme, .oauthFlows, .oauthFlow, .link, .pathItem,
  .operation, .mediaType, .encoding]

theorem mem_allNames (n : SName) : n ∈ allNames := by cases n <;> simp [allNames]
theorem mem_allSecs (n : Section) : n ∈ allSecs := by cases n <;> simp [allSecs]

set_option maxRecDepth 100000 in
theorem table_fields : allSecs.all (fun s => (fields (secTy s)).all fun f =>
    decide ((kindOf s f.name).map toTy = some f.ty) && (f.omitempty == decide (f.name ∉ written s))) = true := by decide +kernel

set_option maxRecDepth 100000 in
theorem table_members : allSecs.all (fun s => (members s).all fun e =>
    ((fields (secTy s)).find? fun f => f.name = e.1).isSome && decide (kindOf s e.1 = some e.2)) = true := by decide +kernel

set_option maxRecDepth 100000 in
theorem table_ascii : allNames.all (fun n => (fields n).all fun f => f.name.all fun c => decide (c < 128)) = true := by decide +kernel

set_option maxRecDepth 100000 in
theorem table_distinct : allNames.all (fun n => (fields n).all fun f => (fields n).all fun f' =>
    !(decide (lowerName f.name = lowerName f'.name)) || decide (f = f')) = true := by decide +kernel

set_option maxRecDepth 100000 in
theorem table_nodup : allNames.all (fun n => decide ((fields n).map (·.name)).Nodup) = true := by decide +kernel

theorem field_ascii {n : SName} {f : Field} (hf : f ∈ fields n) : ∀ c ∈ f.name, c < 128 := by
  have := List.all_eq_true.1 (List.all_eq_true.1 table_ascii n (mem_allNames n)) f hf
  simpa using this

theorem field_inj {n : SName} {f f' : Field} (hf : f ∈ fields n) (hf' : f' ∈ fields n) (h : lowerName f.name = lowerName f'.name) : f = f' := by
  have := List.all_eq_true.1 (List.all_eq_true.1 (List.all_eq_true.1 table_distinct n (mem_allNames n)) f hf) f' hf'
  simp only [Bool.or_eq_true, Bool.not_eq_true', decide_eq_false_iff_not, decide_eq_true_eq] at this
  rcases this with h' | h'
  · exact absurd h h'
  · exact h'

theorem field_inj' {n : SName} {f f' : Field} (hf : f ∈ fields n) (hf' : f' ∈ fields n) (h : f.name = f'.name) : f = f' :=
  field_inj hf hf' (by rw [h])

theorem fields_nodup (n : SName) : ((fields n).map (·.name)).Nodup := by
  have := List.all_eq_true.1 table_nodup n (mem_allNames n)
  simpa using this

/-- The members of a section and the fields of its struct. -/
theorem kind_field {s : Section} {f : Field} (hf : f ∈ fields (secTy s)) :
    ∃ k, kindOf s f.name = some k ∧ f.ty = toTy k ∧ f.omitempty = decide (f.name ∉ written s) := by
  have := List.all_eq_true.1 (List.all_eq_true.1 table_fields s (mem_allSecs s)) f hf
  simp only [Bool.and_eq_true, decide_eq_true_eq, beq_iff_eq] at this
  obtain ⟨h1, h2⟩ := this
  cases hk : kindOf s f.name with
  | none => rw [hk] at h1; cases h1
  | some k => rw [hk] at h1; exact ⟨k, rfl, by injection h1 with h1; exact h1.symm, h2⟩

theorem field_of_kind {s : Section} {m : Str} {k : Kind} (hk : kindOf s m = some k) :
    ∃ f ∈ fields (secTy s), f.name = m ∧ f.ty = toTy k ∧ f.omitempty = decide (m ∉ written s) := by
  have hk' := hk
  unfold kindOf at hk
  obtain ⟨e, he, hk⟩ := Option.map_eq_some_iff.1 hk
  have hm := List.mem_of_find?_eq_some he
  have hn := List.find?_some he
  simp only [decide_eq_true_eq] at hn
  have := List.all_eq_true.1 (List.all_eq_true.1 table_members s (mem_allSecs s)) e hm
  simp only [Bool.and_eq_true, decide_eq_true_eq] at this
  obtain ⟨f, hf⟩ := Option.isSome_iff_exists.1 this.1
  have hf1 := List.mem_of_find?_eq_some hf
  have hf2 := List.find?_some hf
  simp only [decide_eq_true_eq] at hf2
  rw [hn] at hf2
  subst hf2
  obtain ⟨k', h1, h2, h3⟩ := kind_field hf1
  rw [hk'] at h1
  cases h1
  exact ⟨f, hf1, rfl, h2, h3⟩

theorem mem_members {s : Section} {m : Str} {k : Kind} (h : (m, k) ∈ members s) : kindOf s m = some k := by
  have := List.all_eq_true.1 (List.all_eq_true.1 table_members s (mem_allSecs s)) _ h
  simp only [Bool.and_eq_true, decide_eq_true_eq] at this
  exact this.2

theorem members_mem {s : Section} {m : Str} {k : Kind} (h : kindOf s m = some k) : (m, k) ∈ members s := by
  unfold kindOf at h
  obtain ⟨e, he, hk⟩ := Option.map_eq_some_iff.1 h
  have hm := List.mem_of_find?_eq_some he
  have hn := List.find?_some he
  simp only [decide_eq_true_eq] at hn
  subst hn hk
  exact hm

/-! ### Names -/

theorem lowerName_ascii : ∀ {s : Str}, (∀ c ∈ s, c < 128) → lowerName s = s.map fun c => if 65 ≤ c ∧ c ≤ 90 then c + 32 else c
  | [], _ => rfl
  | c :: t, h => by
    have hc : c < 128 := h c (.head _)
    have ih := lowerName_ascii (s := t) fun d hd => h d (.tail _ hd)
    unfold lowerName
    split
    · rename_i e; cases e; exact absurd hc (by decide)
    · rename_i e; cases e; exact absurd hc (by decide)
    · rename_i e; cases e; rw [ih]; rfl
    · rename_i e; cases e

def low (c : UInt8) : UInt8 := if 65 ≤ c ∧ c ≤ 90 then c + 32 else c

def foldByte (c t : UInt8) : Bool :=
  c == t || (decide (65 ≤ c &&& 0xDF) && decide (c &&& 0xDF ≤ 90) && c &&& 0xDF == t &&& 0xDF)

set_option maxRecDepth 100000 in
theorem foldByte_all : (List.range 128).all (fun a => (List.range 128).all fun b =>
    foldByte (UInt8.ofNat a) (UInt8.ofNat b) == decide (low (UInt8.ofNat b) = low (UInt8.ofNat a))) = true := by decide +kernel

theorem foldByte_iff {c t : UInt8} (hc : c < 128) (ht : t < 128) : foldByte c t = true ↔ low t = low c := by
  have h1 : c.toNat < 128 := hc
  have h2 : t.toNat < 128 := ht
  have := List.all_eq_true.1 (List.all_eq_true.1 foldByte_all c.toNat (List.mem_range.2 h1)) t.toNat (List.mem_range.2 h2)
  simp only [UInt8.ofNat_toNat, beq_iff_eq] at this
  rw [this, decide_eq_true_eq]

theorem low_lt {c : UInt8} (hc : c < 128) : low c < 128 := by
  have h1 : c.toNat < 128 := hc
  have : (List.range 128).all (fun a => decide (low (UInt8.ofNat a) < 128)) = true := by decide +kernel
  have := List.all_eq_true.1 this c.toNat (List.mem_range.2 h1)
  simpa using this

theorem low_s {c : UInt8} (hc : c < 128) : (c == 115 || c == 83) = true ↔ 115 = low c := by
  have h1 : c.toNat < 128 := hc
  have : (List.range 128).all (fun a => (UInt8.ofNat a == 115 || UInt8.ofNat a == 83) == decide (115 = low (UInt8.ofNat a))) = true := by decide +kernel
  have := List.all_eq_true.1 this c.toNat (List.mem_range.2 h1)
  simp only [UInt8.ofNat_toNat, beq_iff_eq] at this
  rw [this, decide_eq_true_eq]

theorem low_k {c : UInt8} (hc : c < 128) : (c == 107 || c == 75) = true ↔ 107 = low c := by
  have h1 : c.toNat < 128 := hc
  have : (List.range 128).all (fun a => (UInt8.ofNat a == 107 || UInt8.ofNat a == 75) == decide (107 = low (UInt8.ofNat a))) = true := by decide +kernel
  have := List.all_eq_true.1 this c.toNat (List.mem_range.2 h1)
  simp only [UInt8.ofNat_toNat, beq_iff_eq] at this
  rw [this, decide_eq_true_eq]

theorem lowerName_cons {c : UInt8} (hc : c < 128) (t : Str) : lowerName (c :: t) = low c :: lowerName t := by
  conv => lhs; unfold lowerName
  split
  · rename_i e; cases e; exact absurd hc (by decide)
  · rename_i e; cases e; exact absurd hc (by decide)
  · rename_i e; cases e; rfl
  · rename_i e; cases e

theorem lowerName_high {t : UInt8} (ht : ¬ t < 128) (key : Str) (h1 : ∀ k', t :: key ≠ 0xC5 :: 0xBF :: k')
    (h2 : ∀ k', t :: key ≠ 0xE2 :: 0x84 :: 0xAA :: k') : lowerName (t :: key) = t :: lowerName key := by
  conv => lhs; unfold lowerName
  split
  · rename_i e; exact absurd e (h1 _)
  · rename_i e; exact absurd e (h2 _)
  · rename_i e
    cases e
    rw [if_neg]
    rintro ⟨_, h⟩
    exact ht (UInt8.lt_of_le_of_lt h (by decide))
  · rename_i e; cases e

theorem foldEq_iff : ∀ (name key : Str), (∀ c ∈ name, c < 128) → (foldEq name key = true ↔ lowerName key = lowerName name)
  | [], [], _ => by simp [foldEq]
  | [], t :: key, _ => by
    simp only [foldEq, List.isEmpty_cons, Bool.false_eq_true, false_iff]
    unfold lowerName
    split <;> simp_all
  | c :: name, [], h => by
    rw [lowerName_cons (h c (.head _))]
    simp [foldEq, lowerName]
  | c :: name, t :: key, h => by
    have hc : c < 128 := h c (.head _)
    have hn : ∀ d ∈ name, d < 128 := fun d hd => h d (.tail _ hd)
    rw [lowerName_cons hc]
    unfold foldEq
    by_cases ht : t < 128
    · rw [if_pos ht, lowerName_cons ht, Bool.and_eq_true, foldEq_iff name key hn, List.cons.injEq]
      exact and_congr_left' (foldByte_iff hc ht)
    · rw [if_neg ht]
      split
      · rename_i key'
        have e : lowerName (0xC5 :: 0xBF :: key') = 115 :: lowerName key' := by
          conv => lhs; unfold lowerName
          rfl
        rw [e, Bool.and_eq_true, foldEq_iff name key' hn, List.cons.injEq]
        exact and_congr_left' (low_s hc)
      · rename_i key'
        have e : lowerName (0xE2 :: 0x84 :: 0xAA :: key') = 107 :: lowerName key' := by
          conv => lhs; unfold lowerName
          rfl
        rw [e, Bool.and_eq_true, foldEq_iff name key' hn, List.cons.injEq]
        exact and_congr_left' (low_k hc)
      · rename_i h1 h2
        rw [lowerName_high ht key (by rintro k' ⟨⟩; exact h1 _ rfl rfl) (by rintro k' ⟨⟩; exact h2 _ rfl rfl)]
        simp only [Bool.false_eq_true, false_iff, List.cons.injEq]
        rintro ⟨e, _⟩
        exact ht (e ▸ low_lt hc)

/-- The field a key goes to. -/
theorem findField_iff {n : SName} {key : Str} {f : Field} : findField n key = some f ↔ f ∈ fields n ∧ lowerName key = lowerName f.name := by
  unfold findField
  constructor
  · intro h
    split at h
    · rename_i f' e
      cases h
      have := List.find?_some e
      simp only [decide_eq_true_eq] at this
      exact ⟨List.mem_of_find?_eq_some e, by rw [this]⟩
    · have hm := List.mem_of_find?_eq_some h
      exact ⟨hm, (foldEq_iff _ _ (field_ascii hm)).1 (List.find?_some (p := fun f : Field => foldEq f.name key) h)⟩
  · rintro ⟨hm, hl⟩
    split
    · rename_i f' e
      have e2 := List.find?_some e
      simp only [decide_eq_true_eq] at e2
      rw [field_inj hm (List.mem_of_find?_eq_some e) (by rw [e2, hl])]
    · cases hx : (fields n).find? fun f => foldEq f.name key with
      | none =>
        have := List.find?_eq_none.1 hx f hm
        exact absurd ((foldEq_iff _ _ (field_ascii hm)).2 hl) this
      | some f' =>
        have hm' := List.mem_of_find?_eq_some hx
        have := (foldEq_iff _ _ (field_ascii hm')).1 (List.find?_some (p := fun f : Field => foldEq f.name key) hx)
        rw [field_inj hm hm' (by rw [← hl, this])]

/-! ### Decoding lists, maps and structs -/

theorem and_ok {a b : St} : a.and b = .ok ↔ a = .ok ∧ b = .ok := by cases a <;> cases b <;> simp [St.and]
theorem and_abort {a b : St} : a.and b ≠ .abort ↔ a ≠ .abort ∧ b ≠ .abort := by cases a <;> cases b <;> simp [St.and]

theorem decodeList_spec (env : Env) (t : Ty) : ∀ xs : List Json,
    ((decodeList env t [] xs).2 = .ok ↔ ∀ x ∈ xs, (decode env t (zero t) x).2 = .ok) ∧
    ((decodeList env t [] xs).2 = .ok → (decodeList env t [] xs).1 = xs.map fun x => (decode env t (zero t) x).1)
  | [] => by simp [decodeList]
  | x :: xs => by
    obtain ⟨h1, h2⟩ := decodeList_spec env t xs
    have e : decodeList env t [] (x :: xs) = if (decode env t (zero t) x).2 = .abort then ([(decode env t (zero t) x).1], .abort)
        else ((decode env t (zero t) x).1 :: (decodeList env t [] xs).1, (decode env t (zero t) x).2.and (decodeList env t [] xs).2) := rfl
    rw [e]
    simp only [List.forall_mem_cons, List.map_cons]
    by_cases ha : (decode env t (zero t) x).2 = .abort
    · simp [ha]
    · rw [if_neg ha]
      simp only [and_ok, h1]
      refine ⟨trivial, fun ⟨_, h⟩ => ?_⟩
      rw [h2 (h1.2 h)]

theorem insertV_last {k : Str} {v : Val} : ∀ {m : List (Str × Val)}, (∀ e ∈ m, Str.lt e.1 k = true) → insertV k v m = m ++ [(k, v)]
  | [], _ => rfl
  | (k', v') :: t, h => by
    have hk : Str.lt k' k = true := h _ (.head _)
    simp only [insertV]
    rw [if_neg (by rintro rfl; rw [Str.lt_irrefl] at hk; cases hk),
      if_neg (by intro h'; rw [Str.lt_asymm hk] at h'; cases h'), insertV_last fun e he => h e (.tail _ he)]
    rfl

theorem decodeMap_spec (env : Env) (t : Ty) : ∀ (kvs : List (Str × Json)) (m : List (Str × Val)), Obj.Sorted kvs →
    (∀ e ∈ m, ∀ k ∈ Obj.keys kvs, Str.lt e.1 k = true) →
    ((decodeMap env t m kvs).2 = .ok ↔ ∀ kv ∈ kvs, (decode env t (zero t) kv.2).2 = .ok) ∧
    ((decodeMap env t m kvs).2 = .ok → (decodeMap env t m kvs).1 = m ++ kvs.map fun kv => (kv.1, (decode env t (zero t) kv.2).1))
  | [], m, _, _ => by simp [decodeMap]
  | (k, j) :: kvs, m, hs, hm => by
    have hins : insertV k (decode env t (zero t) j).1 m = m ++ [(k, (decode env t (zero t) j).1)] :=
      insertV_last fun e he => hm e he k (by simp [Obj.keys])
    have hm' : ∀ e ∈ insertV k (decode env t (zero t) j).1 m, ∀ k ∈ Obj.keys kvs, Str.lt e.1 k = true := by
      rw [hins]
      intro e he q hq
      rcases List.mem_append.1 he with he | he
      · exact hm e he q (by simp only [Obj.keys, List.map_cons, List.mem_cons]; exact .inr hq)
      · simp only [List.mem_singleton] at he
        subst he
        exact hs.1 q hq
    obtain ⟨h1, h2⟩ := decodeMap_spec env t kvs _ hs.2 hm'
    simp only [decodeMap, List.forall_mem_cons, List.map_cons]
    by_cases ha : (decode env t (zero t) j).2 = .abort
    · simp [ha]
    · rw [if_neg ha]
      simp only [and_ok, h1]
      refine ⟨trivial, fun ⟨_, h⟩ => ?_⟩
      rw [h2 (h1.2 h), hins]
      simp

/-- No two keys go to the same field. -/
def Apart (n : SName) (kvs : List (Str × Json)) : Prop :=
  kvs.Pairwise fun a b => ∀ f, findField n a.1 = some f → findField n b.1 ≠ some f

theorem decodeFields_spec (env : Env) (n : SName) : ∀ (kvs : List (Str × Json)) (g : Str → Val), Apart n kvs →
    ((decodeFields env n g kvs).2 = .ok ↔
      ∀ kv ∈ kvs, ∀ f, findField n kv.1 = some f → (decode env f.ty (g f.name) kv.2).2 = .ok) ∧
    ((decodeFields env n g kvs).2 ≠ .abort ↔
      ∀ kv ∈ kvs, ∀ f, findField n kv.1 = some f → (decode env f.ty (g f.name) kv.2).2 ≠ .abort) ∧
    ((decodeFields env n g kvs).2 ≠ .abort →
      (∀ kv ∈ kvs, ∀ f, findField n kv.1 = some f → (decodeFields env n g kvs).1 f.name = (decode env f.ty (g f.name) kv.2).1) ∧
      (∀ m, (∀ kv ∈ kvs, ∀ f, findField n kv.1 = some f → f.name ≠ m) → (decodeFields env n g kvs).1 m = g m))
  | [], g, _ => by simp [decodeFields]
  | (k, j) :: kvs, g, hp => by
    have hp1 := (List.pairwise_cons.1 hp).1
    have hp2 := (List.pairwise_cons.1 hp).2
    simp only [decodeFields, List.forall_mem_cons]
    cases hf : findField n k with
    | none =>
      obtain ⟨h1, h2, h3⟩ := decodeFields_spec env n kvs g hp2
      refine ⟨⟨fun h => ⟨nofun, h1.1 h⟩, fun h => h1.2 h.2⟩, ⟨fun h => ⟨nofun, h2.1 h⟩, fun h => h2.2 h.2⟩, fun h => ?_⟩
      obtain ⟨v1, v2⟩ := h3 h
      exact ⟨⟨nofun, v1⟩, fun m hm => v2 m hm.2⟩
    | some f =>
      have hmem := (findField_iff.1 hf).1
      have same : ∀ kv ∈ kvs, ∀ f', findField n kv.1 = some f' →
          setField g f.name (decode env f.ty (g f.name) j).1 f'.name = g f'.name := by
        intro kv hkv f' hf'
        unfold setField
        rw [if_neg]
        intro e
        have := field_inj' (findField_iff.1 hf').1 hmem e
        subst this
        exact hp1 kv hkv f' hf hf'
      obtain ⟨h1, h2, h3⟩ := decodeFields_spec env n kvs (setField g f.name (decode env f.ty (g f.name) j).1) hp2
      have hok : ((decodeFields env n (setField g f.name (decode env f.ty (g f.name) j).1) kvs).2 = .ok ↔
          ∀ kv ∈ kvs, ∀ f, findField n kv.1 = some f → (decode env f.ty (g f.name) kv.2).2 = .ok) := by
        rw [h1]
        refine ⟨fun h kv hkv f' hf' => ?_, fun h kv hkv f' hf' => ?_⟩
        · have := h kv hkv f' hf'
          rwa [same kv hkv f' hf'] at this
        · rw [same kv hkv f' hf']
          exact h kv hkv f' hf'
      have hab : ((decodeFields env n (setField g f.name (decode env f.ty (g f.name) j).1) kvs).2 ≠ .abort ↔
          ∀ kv ∈ kvs, ∀ f, findField n kv.1 = some f → (decode env f.ty (g f.name) kv.2).2 ≠ .abort) := by
        rw [h2]
        refine ⟨fun h kv hkv f' hf' => ?_, fun h kv hkv f' hf' => ?_⟩
        · have := h kv hkv f' hf'
          rwa [same kv hkv f' hf'] at this
        · rw [same kv hkv f' hf']
          exact h kv hkv f' hf'
      simp only [Option.some.injEq, forall_eq']
      by_cases ha : (decode env f.ty (g f.name) j).2 = .abort
      · simp [ha]
      · rw [if_neg ha]
        simp only [and_ok, and_abort, hok, hab]
        refine ⟨trivial, trivial, fun ⟨_, hn⟩ => ?_⟩
        obtain ⟨v1, v2⟩ := h3 (hab.2 hn)
        refine ⟨⟨?_, ?_⟩, ?_⟩
        · rw [v2]
          · simp [setField]
          · intro kv hkv f' hf' e
            have := field_inj' (findField_iff.1 hf').1 hmem e
            subst this
            exact hp1 kv hkv f' hf hf'
        · intro kv hkv f' hf'
          rw [v1 kv hkv f' hf', same kv hkv f' hf']
        · rintro m ⟨hm1, hm2⟩
          rw [v2 m hm2]
          simp [setField, Ne.symm hm1]

/-! ### Encoding -/

def encStep (env : Env) (g : Str → Val) (f : Field) (acc : Res Obj) : Res Obj :=
  if f.omitempty && isEmpty (g f.name) then acc
  else encode env (g f.name) >>= fun j => acc >>= fun o => .ok (Obj.insert f.name j o)

theorem enc_spec (env : Env) (g : Str → Val) : ∀ (fs : List Field) (o : Obj), (fs.map (·.name)).Nodup →
    fs.foldr (encStep env g) (.ok []) = .ok o →
    Obj.Sorted o ∧ (∀ m, m ∉ fs.map (·.name) → Obj.lookup m o = none) ∧
    ∀ f ∈ fs, (f.omitempty = true ∧ isEmpty (g f.name) = true ∧ Obj.lookup f.name o = none) ∨
      ((f.omitempty && isEmpty (g f.name)) = false ∧ ∃ j, encode env (g f.name) = .ok j ∧ Obj.lookup f.name o = some j)
  | [], o, _, h => by cases h; simp [Obj.Sorted, Obj.lookup]
  | f :: fs, o, hn, h => by
    simp only [List.map_cons, List.nodup_cons] at hn
    simp only [List.foldr_cons, encStep] at h
    split at h
    · rename_i he
      obtain ⟨h1, h2, h3⟩ := enc_spec env g fs o hn.2 h
      simp only [Bool.and_eq_true] at he
      refine ⟨h1, fun m hm => h2 m (by simp only [List.map_cons, List.mem_cons, not_or] at hm; exact hm.2), ?_⟩
      intro f' hf'
      rcases List.mem_cons.1 hf' with rfl | hf'
      · exact .inl ⟨he.1, he.2, h2 _ hn.1⟩
      · exact h3 f' hf'
    · rename_i he
      obtain ⟨j, hj, h⟩ := Res.bind_eq_ok.1 h
      obtain ⟨o', ho', h⟩ := Res.bind_eq_ok.1 h
      cases h
      obtain ⟨h1, h2, h3⟩ := enc_spec env g fs o' hn.2 ho'
      refine ⟨Obj.insert_sorted _ _ _ h1, fun m hm => ?_, ?_⟩
      · simp only [List.map_cons, List.mem_cons, not_or] at hm
        rw [Obj.lookup_insert, if_neg hm.1]
        exact h2 m hm.2
      · intro f' hf'
        rcases List.mem_cons.1 hf' with rfl | hf'
        · exact .inr ⟨by simpa using he, j, hj, by rw [Obj.lookup_insert, if_pos rfl]⟩
        · have : f'.name ≠ f.name := by
            intro e
            exact hn.1 (e ▸ List.mem_map_of_mem hf')
          rw [Obj.lookup_insert, if_neg this]
          exact h3 f' hf'

theorem enc_ok (env : Env) (g : Str → Val) : ∀ (fs : List Field),
    (∀ f ∈ fs, (f.omitempty && isEmpty (g f.name)) = true ∨ ∃ j, encode env (g f.name) = .ok j) →
    ∃ o, fs.foldr (encStep env g) (.ok []) = .ok o
  | [], _ => ⟨[], rfl⟩
  | f :: fs, h => by
    obtain ⟨o, ho⟩ := enc_ok env g fs fun f hf => h f (.tail _ hf)
    simp only [List.foldr_cons, ho, encStep]
    rcases h f (.head _) with he | ⟨j, hj⟩
    · rw [if_pos he]; exact ⟨o, rfl⟩
    · split
      · exact ⟨o, rfl⟩
      · rw [hj]; exact ⟨_, rfl⟩

theorem encode_struct (env : Env) (n : SName) (g : Str → Val) :
    encode env (.struct n g) = ((fields n).foldr (encStep env g) (.ok []) >>= fun o => .ok (.obj o)) := rfl

theorem encodeList_iff (env : Env) : ∀ (vs : List Val) (l : List Json), encodeList env vs = .ok l ↔
    vs.length = l.length ∧ ∀ (i : Nat) v j, vs[i]? = some v → l[i]? = some j → encode env v = .ok j
  | [], l => by
    simp only [encodeList, Res.ok.injEq, List.length_nil, List.getElem?_nil, reduceCtorEq, false_implies, implies_true, and_true]
    constructor
    · rintro rfl; rfl
    · intro h; exact (List.length_eq_zero_iff.1 h.symm).symm
  | v :: vs, l => by
    simp only [encodeList, Res.bind_eq_ok]
    constructor
    · rintro ⟨j, hj, l', hl', h⟩
      cases h
      obtain ⟨e1, e2⟩ := (encodeList_iff env vs l').1 hl'
      refine ⟨by simp [e1], ?_⟩
      intro i v' j' h1 h2
      cases i with
      | zero => simp at h1 h2; subst h1 h2; exact hj
      | succ i => simp at h1 h2; exact e2 i v' j' h1 h2
    · rintro ⟨h1, h2⟩
      cases l with
      | nil => simp at h1
      | cons j l =>
        refine ⟨j, h2 0 v j rfl rfl, l, (encodeList_iff env vs l).2 ⟨by simpa using h1, fun i v' j' h h' => h2 (i + 1) v' j' (by simpa using h) (by simpa using h')⟩, rfl⟩

theorem encodeMap_iff (env : Env) : ∀ (vs : List (Str × Val)) (o : Obj), encodeMap env vs = .ok o ↔
    vs.length = o.length ∧ ∀ (i : Nat) e e', vs[i]? = some e → o[i]? = some e' → e'.1 = e.1 ∧ encode env e.2 = .ok e'.2
  | [], l => by
    simp only [encodeMap, Res.ok.injEq, List.length_nil, List.getElem?_nil, reduceCtorEq, false_implies, implies_true, and_true]
    constructor
    · rintro rfl; rfl
    · intro h; exact (List.length_eq_zero_iff.1 h.symm).symm
  | (k, v) :: vs, l => by
    simp only [encodeMap, Res.bind_eq_ok]
    constructor
    · rintro ⟨j, hj, l', hl', h⟩
      cases h
      obtain ⟨e1, e2⟩ := (encodeMap_iff env vs l').1 hl'
      refine ⟨by simp [e1], ?_⟩
      intro i v' j' h1 h2
      cases i with
      | zero => simp at h1 h2; subst h1 h2; exact ⟨rfl, hj⟩
      | succ i => simp at h1 h2; exact e2 i v' j' h1 h2
    · rintro ⟨h1, h2⟩
      cases l with
      | nil => simp at h1
      | cons j l =>
        obtain ⟨q1, q2⟩ := h2 0 (k, v) j rfl rfl
        refine ⟨j.2, q2, l, (encodeMap_iff env vs l).2 ⟨by simpa using h1, fun i v' j' h h' => h2 (i + 1) v' j' (by simpa using h) (by simpa using h')⟩, ?_⟩
        simp only at q1
        rw [← q1]

end Oapi.SpecJson
