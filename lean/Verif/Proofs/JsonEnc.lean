import Verif.Proofs.JsonSound
import Verif.Proofs.JsonIndent

/- What is written is JSON. -/
namespace Oapi.JsonText
open Spec Spec.JsonText
open Spec.PtrJson (hexOf Hex4 Elem JsonString shorts Quotable)
open PtrJson (hexDigit hexDigits Chunk chunks quoteChunk runeBytes)

/-! ### Strings -/

theorem encChunk_elem (short : Bool) {c : Chunk} (hc : c.ok) : ∃ e : Elem, e.ok ∧ encChunk short c = e.text ∧ ∀ n, c = .rune n → e.meaning = utf8 n := by
  cases c with
  | bad b =>
    exact ⟨.uni (hexOfNat 0xFFFD (by decide)), by change Scalar 0xFFFD; unfold Scalar; decide, rfl, nofun⟩
  | rune n =>
    have hs : Scalar n := hc
    have fin : ∀ {e : Elem}, e.ok → encChunk short (.rune n) = e.text → e.meaning = utf8 n →
        ∃ e : Elem, e.ok ∧ encChunk short (.rune n) = e.text ∧ ∀ m, Chunk.rune n = .rune m → e.meaning = utf8 m := by
      intro e h1 h2 h3
      exact ⟨e, h1, h2, fun m hm => by cases hm; exact h3⟩
    by_cases h34 : n = 34
    · subst h34; exact fin (e := .short 34 34) (by simp [Elem.ok, shorts]) rfl rfl
    by_cases h92 : n = 92
    · subst h92; exact fin (e := .short 92 92) (by simp [Elem.ok, shorts]) rfl rfl
    by_cases h10 : n = 10
    · subst h10; exact fin (e := .short 110 10) (by simp [Elem.ok, shorts]) rfl rfl
    by_cases h13 : n = 13
    · subst h13; exact fin (e := .short 114 13) (by simp [Elem.ok, shorts]) rfl rfl
    by_cases h9 : n = 9
    · subst h9; exact fin (e := .short 116 9) (by simp [Elem.ok, shorts]) rfl rfl
    by_cases h8 : short ∧ n = 8
    · obtain ⟨h, rfl⟩ := h8; subst h; exact fin (e := .short 98 8) (by simp [Elem.ok, shorts]) rfl rfl
    by_cases h12 : short ∧ n = 12
    · obtain ⟨h, rfl⟩ := h12; subst h; exact fin (e := .short 102 12) (by simp [Elem.ok, shorts]) rfl rfl
    have e0 : encChunk short (.rune n) = if n < 32 ∨ n = 60 ∨ n = 62 ∨ n = 38 then b!"\\u00" ++ hexDigits 2 n
        else if n = 0x2028 ∨ n = 0x2029 then b!"\\u202" ++ [hexDigit (n % 16)] else runeBytes n := by
      simp only [encChunk]
      rw [if_neg (by omega), if_neg h10, if_neg h13, if_neg h9, if_neg h8, if_neg h12]
    by_cases hl : n < 32 ∨ n = 60 ∨ n = 62 ∨ n = 38
    · refine fin (e := .uni (hexOfNat n (by omega))) hs ?_ rfl
      rw [e0, if_pos hl]
      have h1 : n / 16 / 16 / 16 % 16 = 0 := by omega
      have h2 : n / 16 / 16 % 16 = 0 := by omega
      simp only [Elem.text, Hex4.text, hexOfNat, h1, h2]
      rfl
    · by_cases hsep : n = 0x2028 ∨ n = 0x2029
      · refine fin (e := .uni (hexOfNat n (by omega))) hs ?_ rfl
        rw [e0, if_neg hl, if_pos hsep]
        rcases hsep with rfl | rfl <;> rfl
      · refine fin (e := .plain n) ⟨hs, by omega, h34, h92⟩ ?_ rfl
        rw [e0, if_neg hl, if_neg hsep]
        rfl

theorem encChunks_elems (short : Bool) (cs : List Chunk) (ho : ∀ c ∈ cs, c.ok) :
    ∃ es : List Elem, (∀ e ∈ es, e.ok) ∧ cs.flatMap (encChunk short) = es.flatMap Elem.text ∧
      ∀ rs : List Nat, cs = rs.map Chunk.rune → es.flatMap Elem.meaning = utf8s rs := by
  induction cs with
  | nil =>
    refine ⟨[], nofun, rfl, fun rs h => ?_⟩
    cases rs with
    | nil => rfl
    | cons r rs => simp at h
  | cons c cs ih =>
    obtain ⟨es, h1, h2, h3⟩ := ih fun d hd => ho d (.tail _ hd)
    obtain ⟨e, e1, e2, e3⟩ := encChunk_elem short (ho c (.head _))
    refine ⟨e :: es, ?_, ?_, ?_⟩
    · intro d hd
      rcases List.mem_cons.1 hd with rfl | hd
      · exact e1
      · exact h1 d hd
    · simp only [List.flatMap_cons, e2, h2]
    · intro rs h
      cases rs with
      | nil => simp at h
      | cons r rs =>
        simp only [List.map_cons, List.cons.injEq] at h
        rw [List.flatMap_cons, e3 r h.1, h3 rs h.2]
        rfl

/-- Every text is written as a JSON string. -/
theorem encString_key (short : Bool) (s : Str) : ∃ m, JsonString (encString short s) m := by
  obtain ⟨es, h1, h2, _⟩ := encChunks_elems short (chunks s) (PtrJson.chunks_ok s)
  exact ⟨_, es, h1, by unfold encString; rw [h2]; rfl, rfl⟩

/-- Unicode texts are written as JSON strings that mean them. -/
theorem encString_means (short : Bool) {s : Str} (hs : Unicode s) : JsonString (encString short s) s := by
  obtain ⟨rs, rfl, hr⟩ := hs
  obtain ⟨es, h1, h2, h3⟩ := encChunks_elems short (chunks (utf8s rs)) (PtrJson.chunks_ok _)
  refine ⟨es, h1, by unfold encString; rw [h2]; rfl, ?_⟩
  exact (h3 rs (PtrJson.chunks_utf8s hr)).symm

/-! ### Trees -/

theorem lastOf_mem {ms : List (Str × Json)} (hn : (Obj.keys ms).Nodup) (k : Str) (v : Json) : lastOf ms k = some v ↔ (k, v) ∈ ms := by
  unfold lastOf
  constructor
  · intro h
    obtain ⟨e, he, rfl⟩ := Option.map_eq_some_iff.1 h
    have h1 := List.find?_some he
    have h2 := List.mem_of_find?_eq_some he
    simp only [decide_eq_true_eq] at h1
    subst h1
    exact List.mem_reverse.1 h2
  · intro h
    cases hf : ms.reverse.find? fun e => decide (e.1 = k) with
    | none =>
      have := List.find?_eq_none.1 hf (k, v) (List.mem_reverse.2 h)
      simp at this
    | some e =>
      have h1 := List.find?_some hf
      have h2 := List.mem_reverse.1 (List.mem_of_find?_eq_some hf)
      simp only [decide_eq_true_eq] at h1
      have h3 := Obj.lookup_of_mem hn h2
      have h4 := Obj.lookup_of_mem hn h
      rw [h1, h4] at h3
      simp only [Option.map_some]
      exact h3.symm

theorem collect_perm {ms : List (Str × Json)} {o : Obj} (hp : ms.Perm o) (ho : Obj.Sorted o) : Collect ms o := by
  refine ⟨ho, fun k => ?_⟩
  have hn := Obj.sorted_nodup ho
  have hn' : (Obj.keys ms).Nodup := (Obj.keys_perm hp).nodup_iff.2 hn
  cases h : lastOf ms k with
  | some v => exact Obj.lookup_of_mem hn (hp.mem_iff.1 ((lastOf_mem hn' k v).1 h))
  | none =>
    cases hl : Obj.lookup k o with
    | none => rfl
    | some v =>
      have := (lastOf_mem hn' k v).2 (hp.mem_iff.2 (Obj.lookup_mem hl))
      rw [h] at this
      cases this

section
variable {env : Env} {N : Str → Int → Prop} {S : Str → Str → Prop} {P : Str → Prop}

theorem encObj_ne {o : Obj} {t : Str} (k : Str) (x : Json) (h : encObj env ((k, x) :: o) = some t) : ∃ v, enc env x = some v ∧
    ((o = [] ∧ t = encString env.short k ++ 58 :: v) ∨ ∃ y o' r, o = y :: o' ∧ encObj env o = some r ∧ t = encString env.short k ++ 58 :: (v ++ 44 :: r)) := by
  rw [encObj] at h
  cases hx : enc env x with
  | none => rw [hx] at h; simp at h
  | some v =>
    rw [hx] at h
    refine ⟨v, rfl, ?_⟩
    cases o with
    | nil => simp only [Option.bind_some, Option.some.injEq] at h; exact .inl ⟨rfl, h.symm⟩
    | cons y o' =>
      simp only [Option.bind_some] at h
      obtain ⟨r, hr, rfl⟩ := Option.map_eq_some_iff.1 h
      exact .inr ⟨y, o', r, rfl, hr, rfl⟩

theorem encList_ne {xs : List Json} {t : Str} (x : Json) (h : encList env (x :: xs) = some t) : ∃ v, enc env x = some v ∧
    ((xs = [] ∧ t = v) ∨ ∃ y xs' r, xs = y :: xs' ∧ encList env xs = some r ∧ t = v ++ 44 :: r) := by
  rw [encList] at h
  cases hx : enc env x with
  | none => rw [hx] at h; simp at h
  | some v =>
    rw [hx] at h
    refine ⟨v, rfl, ?_⟩
    cases xs with
    | nil => simp only [Option.bind_some, Option.some.injEq] at h; exact .inl ⟨rfl, h.symm⟩
    | cons y o' =>
      simp only [Option.bind_some] at h
      obtain ⟨r, hr, rfl⟩ := Option.map_eq_some_iff.1 h
      exact .inr ⟨y, o', r, rfl, hr, rfl⟩

mutual
/-- What is written means the tree; `Q` holds of its numbers. -/
theorem enc_meansQ {Q : Int → Prop} (hN : ∀ n t, Q n → env.numText n = some t → N t n) (hS : ∀ s, P s → S (encString env.short s) s) (j : Json) (t : Str)
    (hw : Json.WF j) (hP : AllTexts P j) (hQ : AllNumbers Q j) (h : enc env j = some t) : Means N S (.value j) t := by
  match j with
  | .null => simp only [enc, Option.some.injEq] at h; subst h; exact .null
  | .bool true => simp only [enc, Option.some.injEq] at h; subst h; exact .true_
  | .bool false => simp only [enc, Option.some.injEq] at h; subst h; exact .false_
  | .num n => exact .num (hN n t (by simpa [AllNumbers] using hQ) (by simpa [enc] using h))
  | .str s =>
    simp only [enc, Option.some.injEq] at h; subst h
    exact .str (hS s (by simpa [AllTexts] using hP))
  | .arr xs =>
    rw [enc] at h
    obtain ⟨r, hr, rfl⟩ := Option.map_eq_some_iff.1 h
    match xs with
    | [] =>
      simp only [encList, Option.some.injEq] at hr; subst hr
      exact .arr0 blank_none
    | x :: xs => exact .arr (encList_meansQ hN hS (x :: xs) r (by simpa [Json.WF] using hw) (by simpa [AllTexts] using hP) (by simpa [AllNumbers] using hQ) hr (by simp))
  | .obj o =>
    rw [enc] at h
    obtain ⟨r, hr, rfl⟩ := Option.map_eq_some_iff.1 h
    match o with
    | [] =>
      simp only [encObj, Option.some.injEq] at hr; subst hr
      exact .obj0 blank_none
    | x :: o =>
      rw [Json.WF] at hw
      exact .obj (encObj_meansQ hN hS (x :: o) r hw.2 (by simpa [AllTexts] using hP) (by simpa [AllNumbers] using hQ) hr (by simp)) (collect_perm (List.Perm.refl _) hw.1)
termination_by structural j
theorem encList_meansQ {Q : Int → Prop} (hN : ∀ n t, Q n → env.numText n = some t → N t n) (hS : ∀ s, P s → S (encString env.short s) s) (xs : List Json) (t : Str)
    (hw : Json.WFL xs) (hP : AllTextsL P xs) (hQ : AllNumbersL Q xs) (h : encList env xs = some t) (hne : xs ≠ []) : Means N S (.elems xs) t := by
  match xs with
  | [] => exact absurd rfl hne
  | x :: xs =>
    rw [Json.WFL] at hw
    rw [AllTextsL] at hP
    rw [AllNumbersL] at hQ
    obtain ⟨v, hv, ⟨h1, h2⟩ | ⟨y, xs', r, h1, h2, h3⟩⟩ := encList_ne x h
    · rw [h1, h2]
      have := Means.elem (N := N) (S := S) blank_none (enc_meansQ hN hS x v hw.1 hP.1 hQ.1 hv) blank_none
      simpa using this
    · rw [h3]
      exact Means.elems (N := N) (S := S) blank_none (enc_meansQ hN hS x v hw.1 hP.1 hQ.1 hv) blank_none
        (encList_meansQ hN hS xs r hw.2 hP.2 hQ.2 h2 (by rw [h1]; simp))
termination_by structural xs
theorem encObj_meansQ {Q : Int → Prop} (hN : ∀ n t, Q n → env.numText n = some t → N t n) (hS : ∀ s, P s → S (encString env.short s) s) (o : List (Str × Json)) (t : Str)
    (hw : Json.WFO o) (hP : AllTextsO P o) (hQ : AllNumbersO Q o) (h : encObj env o = some t) (hne : o ≠ []) : Means N S (.members o) t := by
  match o with
  | [] => exact absurd rfl hne
  | (k, x) :: o =>
    rw [Json.WFO] at hw
    rw [AllTextsO] at hP
    rw [AllNumbersO] at hQ
    obtain ⟨v, hv, ⟨h1, h2⟩ | ⟨y, xs', r, h1, h2, h3⟩⟩ := encObj_ne k x h
    · rw [h1, h2]
      have := Means.member (N := N) (S := S) blank_none (hS k hP.1) blank_none blank_none (enc_meansQ hN hS x v hw.1 hP.2.1 hQ.1 hv) blank_none
      simpa using this
    · rw [h3]
      exact Means.members (N := N) (S := S) blank_none (hS k hP.1) blank_none blank_none (enc_meansQ hN hS x v hw.1 hP.2.1 hQ.1 hv) blank_none
        (encObj_meansQ hN hS o r hw.2 hP.2.2 hQ.2 h2 (by rw [h1]; simp))
termination_by structural o
end

mutual
theorem allNumbers_mono {P Q : Int → Prop} (h : ∀ n, P n → Q n) (j : Json) (hj : AllNumbers P j) : AllNumbers Q j := by
  match j with
  | .null => simp [AllNumbers]
  | .bool _ => simp [AllNumbers]
  | .num n => rw [AllNumbers] at hj ⊢; exact h n hj
  | .str s => simp [AllNumbers]
  | .arr xs => rw [AllNumbers] at hj ⊢; exact allNumbersL_mono h xs hj
  | .obj o => rw [AllNumbers] at hj ⊢; exact allNumbersO_mono h o hj
termination_by structural j
theorem allNumbersL_mono {P Q : Int → Prop} (h : ∀ n, P n → Q n) (xs : List Json) (hj : AllNumbersL P xs) : AllNumbersL Q xs := by
  match xs with
  | [] => simp [AllNumbersL]
  | x :: xs => rw [AllNumbersL] at hj ⊢; exact ⟨allNumbers_mono h x hj.1, allNumbersL_mono h xs hj.2⟩
termination_by structural xs
theorem allNumbersO_mono {P Q : Int → Prop} (h : ∀ n, P n → Q n) (o : List (Str × Json)) (hj : AllNumbersO P o) : AllNumbersO Q o := by
  match o with
  | [] => simp [AllNumbersO]
  | (k, x) :: o => rw [AllNumbersO] at hj ⊢; exact ⟨allNumbers_mono h x hj.1, allNumbersO_mono h o hj.2⟩
termination_by structural o
end

mutual
theorem allNumbers_all {P : Int → Prop} (h : ∀ n, P n) (j : Json) : AllNumbers P j := by
  match j with
  | .null => simp [AllNumbers]
  | .bool _ => simp [AllNumbers]
  | .num n => rw [AllNumbers]; exact h n
  | .str s => simp [AllNumbers]
  | .arr xs => rw [AllNumbers]; exact allNumbersL_all h xs
  | .obj o => rw [AllNumbers]; exact allNumbersO_all h o
termination_by structural j
theorem allNumbersL_all {P : Int → Prop} (h : ∀ n, P n) (xs : List Json) : AllNumbersL P xs := by
  match xs with
  | [] => simp [AllNumbersL]
  | x :: xs => rw [AllNumbersL]; exact ⟨allNumbers_all h x, allNumbersL_all h xs⟩
termination_by structural xs
theorem allNumbersO_all {P : Int → Prop} (h : ∀ n, P n) (o : List (Str × Json)) : AllNumbersO P o := by
  match o with
  | [] => simp [AllNumbersO]
  | (k, x) :: o => rw [AllNumbersO]; exact ⟨allNumbers_all h x, allNumbersO_all h o⟩
termination_by structural o
end

/-- What is written means the tree. -/
theorem enc_means (hN : ∀ n t, env.numText n = some t → N t n) (hS : ∀ s, P s → S (encString env.short s) s) (j : Json) (t : Str)
    (hw : Json.WF j) (hP : AllTexts P j) (h : enc env j = some t) : Means N S (.value j) t :=
  enc_meansQ (Q := fun _ => True) (fun n t _ => hN n t) hS j t hw hP (allNumbers_all (fun _ => trivial) j) h

mutual
/-- A tree can be written iff its numbers can. -/
theorem enc_some (env : Env) (j : Json) : (enc env j).isSome ↔ AllNumbers (fun n => (env.numText n).isSome) j := by
  match j with
  | .null => simp [enc, AllNumbers]
  | .bool true => simp [enc, AllNumbers]
  | .bool false => simp [enc, AllNumbers]
  | .num n => simp [enc, AllNumbers]
  | .str s => simp [enc, AllNumbers]
  | .arr xs => rw [enc, AllNumbers, Option.isSome_map]; exact encList_some env xs
  | .obj o => rw [enc, AllNumbers, Option.isSome_map]; exact encObj_some env o
termination_by structural j
theorem encList_some (env : Env) (xs : List Json) : (encList env xs).isSome ↔ AllNumbersL (fun n => (env.numText n).isSome) xs := by
  match xs with
  | [] => simp [encList, AllNumbersL]
  | x :: xs =>
    have h1 := enc_some env x
    have h2 := encList_some env xs
    rw [encList, AllNumbersL, ← h1, ← h2]
    cases enc env x with
    | none => simp
    | some v =>
      cases xs with
      | nil => simp [encList]
      | cons y t => simp
termination_by structural xs
theorem encObj_some (env : Env) (o : List (Str × Json)) : (encObj env o).isSome ↔ AllNumbersO (fun n => (env.numText n).isSome) o := by
  match o with
  | [] => simp [encObj, AllNumbersO]
  | (k, x) :: o =>
    have h1 := enc_some env x
    have h2 := encObj_some env o
    rw [encObj, AllNumbersO, ← h1, ← h2]
    cases enc env x with
    | none => simp
    | some v =>
      cases o with
      | nil => simp [encObj]
      | cons y t => simp
termination_by structural o
end

/-! ### The sorted document -/

theorem quote_json {prn : Nat → Bool} {s : Str} (h : Quotable prn s) : JsonString (PtrJson.quote prn s) s := by
  obtain ⟨es, h1, h2, h3⟩ := PtrJson.chunks_elems (prn := prn) (chunks s) (PtrJson.chunks_ok s) ((PtrJson.quotable_iff prn s).1 h)
  rw [PtrJson.chunks_bytes] at h3
  refine ⟨es, fun e he => (h1 e he).1, ?_, h3⟩
  unfold PtrJson.quote Spec.PtrJson.literal
  rw [h2]

/-- The members of the text `MapSlice.MarshalJSON` builds. -/
theorem memberTexts_means {q : Str → Str} {f : Json → Str} (l : List Format.Item) (hne : l ≠ []) (hk : ∀ i ∈ l, S (q i.key) i.key)
    (hv : ∀ i ∈ l, Means N S (.value i.val) (f i.val)) : Means N S (.members (l.map fun i => (i.key, i.val))) (Format.memberTexts q f l) := by
  induction l with
  | nil => exact absurd rfl hne
  | cons x l ih =>
    cases l with
    | nil =>
      have := Means.member (N := N) (S := S) blank_none (hk x (by simp)) blank_none blank_none (hv x (by simp)) blank_none
      simpa [Format.memberTexts] using this
    | cons y t =>
      have := Means.members (N := N) (S := S) blank_none (hk x (by simp)) blank_none blank_none (hv x (by simp)) blank_none
        (ih (by simp) (fun i h => hk i (by simp [h])) (fun i h => hv i (by simp [h])))
      simpa [Format.memberTexts] using this

theorem objectText_means {q : Str → Str} {f : Json → Str} (l : List Format.Item) {o : Obj} (hp : (l.map fun i => (i.key, i.val)).Perm o) (ho : Obj.Sorted o)
    (hk : ∀ i ∈ l, S (q i.key) i.key) (hv : ∀ i ∈ l, Means N S (.value i.val) (f i.val)) : Means N S (.value (.obj o)) (Format.objectText q f l) := by
  cases l with
  | nil =>
    have : o = [] := by simpa using hp
    subst this
    exact .obj0 blank_none
  | cons x l =>
    exact .obj (memberTexts_means (x :: l) (by simp) hk hv) (collect_perm hp ho)

theorem compact_valid (t : Str) : ∀ k s, (compactGo k s t).isSome → validGo s t = true := by
  induction t with
  | nil =>
    intro k s h
    cases k <;> (simp only [compactGo] at h; simp only [validGo]; split at h <;> simp_all)
  | cons c t ih =>
    intro k s h
    simp only [compactGo] at h
    simp only [validGo]
    split at h
    · simp at h
    · rename_i hne
      rw [if_neg hne]
      cases k with
      | zero => simp only [Option.isSome_map] at h; exact ih _ _ h
      | succ k => exact ih _ _ h

theorem valid_esc_bad {st : List Ctx} {l : UInt8} (h : l ∉ b!"bfnrt\\/\"") (h2 : l ≠ 117) (r : Str) : validGo ⟨.inString, st⟩ (92 :: l :: r) = false := by
  rw [valid_step (s1 := ⟨.esc, st⟩) (op := .cont) rfl (by decide)]
  exact valid_fail (st := st) (by simp only [step, if_neg h, if_neg h2]) r

theorem valid_chunk_bad {prn : Nat → Bool} {c : Chunk} (hg : ¬ c.good prn) (st : List Ctx) (r : Str) :
    validGo ⟨.inString, st⟩ (quoteChunk prn c ++ r) = false := by
  cases c with
  | bad b => exact valid_esc_bad (by decide) (by decide) _
  | rune n =>
    have hg' : (n < 32 ∧ n ≠ 8 ∧ n ≠ 9 ∧ n ≠ 10 ∧ n ≠ 12 ∧ n ≠ 13) ∨ n = 127 ∨ (0x10000 ≤ n ∧ ¬ prn n = true) := by
      simp only [Chunk.good, List.mem_cons, List.not_mem_nil, or_false] at hg
      by_cases h1 : n = 127
      · exact .inr (.inl h1)
      · by_cases h2 : 0x10000 ≤ n ∧ ¬ prn n = true
        · exact .inr (.inr h2)
        · refine .inl ?_
          have : ¬ (n < 32 → n = 8 ∨ n = 9 ∨ n = 10 ∨ n = 12 ∨ n = 13) := fun h => hg ⟨h, h1, fun h3 => Classical.byContradiction fun h4 => h2 ⟨h3, h4⟩⟩
          omega
    have hp : ¬ PtrJson.isPrint prn n = true := by
      unfold PtrJson.isPrint
      split
      · simp; omega
      · rcases hg' with h | h | h
        · omega
        · omega
        · exact h.2
    simp only [quoteChunk]
    unfold PtrJson.escapeRune
    rw [if_neg (by omega), if_neg hp]
    split
    · exact valid_esc_bad (by decide) (by decide) _
    rw [if_neg (by omega), if_neg (by omega), if_neg (by omega), if_neg (by omega), if_neg (by omega)]
    split
    · exact valid_esc_bad (by decide) (by decide) _
    split
    · exact valid_esc_bad (by decide) (by decide) _
    rw [if_neg (by omega)]
    exact valid_esc_bad (by decide) (by decide) _

theorem valid_chunks {prn : Nat → Bool} (cs : List Chunk) (ho : ∀ c ∈ cs, c.ok) (st : List Ctx) (r : Str)
    (h : validGo ⟨.inString, st⟩ (cs.flatMap (quoteChunk prn) ++ 34 :: r) = true) : (∀ c ∈ cs, c.good prn) ∧ validGo ⟨.endValue, st⟩ r = true := by
  induction cs with
  | nil => rw [List.flatMap_nil, List.nil_append, valid_step (s1 := ⟨.endValue, st⟩) (op := .cont) rfl (by decide)] at h; exact ⟨nofun, h⟩
  | cons c cs ih =>
    rw [List.flatMap_cons, List.append_assoc] at h
    by_cases hg : c.good prn
    · obtain ⟨e, e1, _, e3, _⟩ := PtrJson.chunk_elem (ho c (.head _)) hg
      rw [e3, validGo_run (run_elem e1 st)] at h
      obtain ⟨h1, h2⟩ := ih (fun d hd => ho d (.tail _ hd)) h
      refine ⟨fun d hd => ?_, h2⟩
      rcases List.mem_cons.1 hd with rfl | hd
      · exact hg
      · exact h1 d hd
    · rw [valid_chunk_bad hg] at h
      cases h

/-- Only if the keys can be quoted is the text JSON. -/
theorem valid_members {prn : Nat → Bool} {f : Json → Str} (hN : ∀ t n, N t n → Number t) (hS : ∀ k s, S k s → IsKey k) (l : List Format.Item)
    (hv : ∀ i ∈ l, Means N S (.value i.val) (f i.val)) (st : List Ctx) (r : Str) : ∀ q, (q = State.beginString ∨ q = .beginStringOrEmpty) →
    validGo ⟨q, .key :: st⟩ (Format.memberTexts (PtrJson.quote prn) f l ++ 125 :: r) = true → ∀ i ∈ l, Quotable prn i.key := by
  induction l with
  | nil => exact fun _ _ _ => nofun
  | cons x l ih =>
    intro q hq h
    have hx := valid_piece hN hS (hv x (by simp))
    have go : ∀ y, validGo ⟨q, .key :: st⟩ (PtrJson.quote prn x.key ++ (58 :: (f x.val ++ y))) = true → Delim y →
        Quotable prn x.key ∧ validGo ⟨.endValue, .val :: st⟩ y = true := by
      intro y hy hd
      unfold PtrJson.quote at hy
      simp only [List.cons_append, List.append_assoc, List.nil_append] at hy
      rw [valid_step (step_quote hq _) (by decide)] at hy
      obtain ⟨h1, h2⟩ := valid_chunks (chunks x.key) (PtrJson.chunks_ok _) _ _ hy
      rw [valid_step (s1 := ⟨.beginValue, .val :: st⟩) (op := .objectKey) rfl (by decide)] at h2
      rw [hx _ _ _ (.inl rfl) hd] at h2
      exact ⟨(PtrJson.quotable_iff prn x.key).2 h1, h2⟩
    cases l with
    | nil =>
      simp only [Format.memberTexts, List.append_assoc, List.cons_append] at h
      obtain ⟨h1, _⟩ := go (125 :: r) h (delim_cons (by decide) _)
      intro i hi
      rw [List.mem_singleton.1 hi]
      exact h1
    | cons y t =>
      simp only [Format.memberTexts, List.append_assoc, List.cons_append] at h
      obtain ⟨h1, h2⟩ := go (44 :: (Format.memberTexts (PtrJson.quote prn) f (y :: t) ++ 125 :: r)) h (delim_cons (by decide) _)
      rw [valid_step (s1 := ⟨.beginString, .key :: st⟩) (op := .objectValue) rfl (by decide)] at h2
      intro i hi
      rcases List.mem_cons.1 hi with rfl | hi
      · exact h1
      · exact ih (fun i h => hv i (by simp [h])) .beginString (.inl rfl) h2 i hi
end

end Oapi.JsonText
