import Verif.Props.SpecJsonEx

/-! C114: reading onto a value that is already there, as happens when a document gives a member twice (in different letter case) or a variable is
read into twice. -/
namespace Oapi.Props
open Oapi.SpecJson Spec.SpecJson

/-- Reading `j` into a variable for a value of kind `k` that holds `v`. -/
def readOn (env : Env) (k : Kind) (v : Val) (j : Json) : Val × St := decode env (toTy k) v j

theorem and_assoc' (a b c : St) : (a.and b).and c = a.and (b.and c) := by cases a <;> cases b <;> cases c <;> rfl

theorem and_abort {a b : St} (h : a ≠ .abort) : a.and b = .abort ↔ b = .abort := by
  cases a <;> cases b <;> simp_all [St.and]

/-- Going on unless that was the end. -/
def goOn {α : Type} (r : α × St) (k : α → α × St) : α × St := if r.2 = .abort then r else ((k r.1).1, r.2.and (k r.1).2)

theorem fields_append (env : Env) (n : SName) : ∀ (a b : List (Str × Json)) (g : Str → Val),
    decodeFields env n g (a ++ b) = goOn (decodeFields env n g a) (fun g => decodeFields env n g b)
  | [], b, g => by simp [decodeFields, goOn, St.and]
  | (k, j) :: a, b, g => by
    simp only [List.cons_append, decodeFields]
    cases findField n k with
    | none => exact fields_append env n a b g
    | some f =>
      simp only
      by_cases h : (decode env f.ty (g f.name) j).2 = .abort
      · simp [if_pos h, goOn]
      · simp only [if_neg h]
        rw [fields_append env n a b]
        unfold goOn
        simp only [and_abort h]
        split
        · rfl
        · simp only [and_assoc']

theorem map_append (env : Env) (t : Ty) : ∀ (a b : List (Str × Json)) (m : List (Str × Val)),
    decodeMap env t m (a ++ b) = goOn (decodeMap env t m a) (fun m => decodeMap env t m b)
  | [], b, m => by simp [decodeMap, goOn, St.and]
  | (k, j) :: a, b, m => by
    simp only [List.cons_append, decodeMap]
    by_cases h : (decode env t (zero t) j).2 = .abort
    · simp [if_pos h, goOn]
    · simp only [if_neg h]
      rw [map_append env t a b]
      unfold goOn
      simp only [and_abort h]
      split
      · rfl
      · simp only [and_assoc']

theorem sec_obj (env : Env) (s : Section) (v : Val) (a : List (Str × Json)) : readOn env (.sec s) v (.obj a) =
    (.ptr (.struct (secTy s) (decodeFields env (secTy s) (fieldsOf (inner (toTy (.sec s)) v)) a).1), (decodeFields env (secTy s) (fieldsOf (inner (toTy (.sec s)) v)) a).2) := by
  unfold readOn
  simp only [decode, toTy, target, rewrap]

theorem dict_obj (env : Env) (k : Kind) (v : Val) (a : List (Str × Json)) : readOn env (.dict k) v (.obj a) =
    (.map (decodeMap env (toTy k) (entries v) a).1, (decodeMap env (toTy k) (entries v) a).2) := by
  unfold readOn
  simp only [decode, toTy, target, rewrap, inner]

/-- The two kinds objects are read into member by member. -/
def Gathers (k : Kind) : Prop := (∃ s, k = .sec s) ∨ ∃ k', k = .dict k'

theorem gathers {env : Env} {k : Kind} (hk : Gathers k) (v : Val) (a b : List (Str × Json)) :
    readOn env k v (.obj (a ++ b)) = goOn (readOn env k v (.obj a)) (fun w => readOn env k w (.obj b)) := by
  rcases hk with ⟨s, rfl⟩ | ⟨k', rfl⟩
  · simp only [sec_obj, fields_append, goOn]
    split
    · rfl
    · rfl
  · simp only [dict_obj, map_append, goOn]
    split
    · rfl
    · rfl

/-- **C114**: reading an object onto a section or a dictionary that was read from another adds to it: the result is that of reading the members of
both, those of the first before those of the second. -/
theorem C114_accumulates (env : Env) (k : Kind) (hk : Gathers k) (v : Val) (a b : List (Str × Json)) (h : (readOn env k v (.obj a)).2 = .ok) :
    readOn env k (readOn env k v (.obj a)).1 (.obj b) = readOn env k v (.obj (a ++ b)) := by
  rw [gathers hk]
  unfold goOn
  rw [h]
  simp [St.and]

/-- **C114**: a document that gives a member twice, in different letter case, is read as one that gives it once, with the members of both. -/
theorem C114_twins (env : Env) (s : Section) (m : Str) (k : Kind) (hm : kindOf s m = some k) (hk : Gathers k) (pre post a b : List (Str × Json)) (x y : Str)
    (hx : lowerName x = lowerName m) (hy : lowerName y = lowerName m) :
    pass env (toTy (.sec s)) (.obj (pre ++ (x, .obj a) :: (y, .obj b) :: post)) = pass env (toTy (.sec s)) (.obj (pre ++ (x, .obj (a ++ b)) :: post)) := by
  obtain ⟨f, hf1, hf2, hf3⟩ : ∃ f ∈ fields (secTy s), f.name = m ∧ f.ty = toTy k := by
    obtain ⟨f, h1, h2, h3, _⟩ := field_of_kind hm
    exact ⟨f, h1, h2, h3⟩
  subst hf2
  have fx : findField (secTy s) x = some f := findField_iff.2 ⟨hf1, hx⟩
  have fy : findField (secTy s) y = some f := findField_iff.2 ⟨hf1, hy⟩
  have key : ∀ g, decodeFields env (secTy s) g ((x, .obj a) :: (y, .obj b) :: post) = decodeFields env (secTy s) g ((x, .obj (a ++ b)) :: post) := by
    intro g
    have hga := gathers (env := env) hk (g f.name) a b
    unfold readOn at hga
    conv => rhs; unfold decodeFields
    conv => lhs; unfold decodeFields
    simp only [fx, hf3, hga]
    unfold goOn
    by_cases h1 : (decode env (toTy k) (g f.name) (.obj a)).2 = .abort
    · simp only [if_pos h1]
    · simp only [if_neg h1]
      conv => lhs; unfold decodeFields
      have hset : setField g f.name (decode env (toTy k) (g f.name) (.obj a)).1 f.name = (decode env (toTy k) (g f.name) (.obj a)).1 := by simp [setField]
      have hset2 : ∀ v w, setField (setField g f.name v) f.name w = setField g f.name w := by
        intro v w; funext z; simp only [setField]; split <;> rfl
      simp only [fy, hf3, hset, hset2, and_abort h1]
      split
      · rename_i h2; simp only [(and_abort h1).2]
      · simp only [and_assoc']
  unfold pass
  have := sec_obj env s (zero (toTy (.sec s)))
  unfold readOn at this
  rw [this, this, fields_append, fields_append]
  simp only [key]

/-- **C114**: `null` makes a variable as new, except for texts and flags. -/
theorem C114_null_resets (env : Env) (k : Kind) (hk : k ≠ .text ∧ k ≠ .flag) (v : Val) (j : Json) :
    (readOn env k v .null).2 = .ok ∧ readOn env k (readOn env k v .null).1 j = readOn env k (zero (toTy k)) j := by
  unfold readOn
  refine ⟨by simp [decode], ?_⟩
  have e : (decode env (toTy k) v .null).1 = intoNull (toTy k) v := by simp [decode]
  rw [e]
  cases k with
  | text => exact absurd rfl hk.1
  | flag => exact absurd rfl hk.2
  | free => cases j <;> simp [toTy, intoNull, decode, zero, zero0, rewrap, inner, target, intoLeaf, intoOther]
  | _ => rfl

/-- **C114**: `null` leaves texts and flags as they are. -/
theorem C114_null_leaves (env : Env) (k : Kind) (hk : k = .text ∨ k = .flag) (v : Val) : readOn env k v .null = (v, .ok) := by
  rcases hk with rfl | rfl <;> simp [readOn, decode, toTy, intoNull]

/-- **C114**: a text, flag, number, free value or reference is replaced: nothing is left of what was there. -/
theorem C114_replaced (env : Env) (k : Kind) (hk : k ∈ [Kind.text, .flag, .number, .integer, .free, .reference]) (v w : Val) (j : Json) (hj : j ≠ .null)
    (h : (readOn env k v j).2 = .ok) : readOn env k w j = readOn env k v j := by
  have hs : ∀ (P : Bool) (o o' : Val) (x : Val), (if P then (x, St.ok) else (o, St.saved)).2 = .ok → (if P then (x, St.ok) else (o', St.saved)) = (if P then (x, St.ok) else (o, St.saved)) := by
    intro P o o' x h; cases P
    · cases h
    · rfl
  have hr : ∀ j (o o' : Val), (intoOther env .ref o j).2 = .ok → intoOther env .ref o' j = intoOther env .ref o j := by
    intro j o o' h
    unfold intoOther at h ⊢
    simp only at h ⊢
    cases hd : decodeRef env j with
    | ok p => rfl
    | err e => rw [hd] at h; cases h
    | panic => rw [hd] at h; cases h
  simp only [List.mem_cons, List.not_mem_nil, or_false] at hk
  unfold readOn at h ⊢
  rcases hk with rfl | rfl | rfl | rfl | rfl | rfl
  · cases j <;> simp [toTy, decode, rewrap, inner, target, intoLeaf, intoOther] at h hj ⊢
  · cases j <;> simp [toTy, decode, rewrap, inner, target, intoLeaf, intoOther] at h hj ⊢
  · cases j <;> simp [toTy, decode, rewrap, target, intoLeaf, intoOther] at h hj ⊢
  · cases j <;> simp [toTy, decode, rewrap, target, intoLeaf, intoOther] at h hj ⊢
    rename_i n
    split at h
    · rename_i hn; simp [hn]
    · cases h
  · cases j <;> simp [toTy, decode, rewrap, inner, target, intoLeaf, intoOther] at h hj ⊢
  · cases j with
    | null => exact absurd rfl hj
    | _ =>
      simp only [toTy, decode, rewrap, target, intoLeaf] at h ⊢
      rw [hr _ _ _ h]

theorem list_one' (env : Env) (t : Ty) (old : List Val) (x : Json) (hw : old.tail = []) :
    decodeList env t old [x] = ([(decode env t (old.headD (zero t)) x).1], (decode env t (old.headD (zero t)) x).2) := by
  simp only [decodeList]
  by_cases h : (decode env t (old.headD (zero t)) x).2 = .abort
  · rw [if_pos h, hw, h]
  · rw [if_neg h]
    cases hr : (decode env t (old.headD (zero t)) x).2 <;> rfl

theorem list_one (env : Env) (k : Kind) (w : Val) (x : Json) (hw : (elems w).tail = []) : readOn env (.list k) w (.arr [x]) =
    (.slice [(readOn env k ((elems w).headD (zero (toTy k))) x).1], (readOn env k ((elems w).headD (zero (toTy k))) x).2) := by
  have : readOn env (.list k) w (.arr [x]) = (.slice (decodeList env (toTy k) (elems w) [x]).1, (decodeList env (toTy k) (elems w) [x]).2) := by
    unfold readOn
    simp only [decode, toTy, target, rewrap, inner]
  rw [this, list_one' env _ _ _ hw]
  rfl

/-- **C114** (hazard): a list is read element by element onto the elements that are there: of two lists with one object each, the object of the
second is given what only the first had. -/
theorem C114_lists_merge (env : Env) (k : Kind) (hk : Gathers k) (a b : List (Str × Json)) (h : (readOn env (.list k) .nil (.arr [.obj a])).2 = .ok) :
    readOn env (.list k) (readOn env (.list k) .nil (.arr [.obj a])).1 (.arr [.obj b]) = readOn env (.list k) .nil (.arr [.obj (a ++ b)]) := by
  rw [list_one env k .nil (.obj a) rfl] at h ⊢
  rw [list_one env k (.slice _) (.obj b) rfl, list_one env k .nil (.obj (a ++ b)) rfl]
  simp only [elems, List.headD_cons, List.headD_nil] at h ⊢
  rw [C114_accumulates env k hk _ a b h]

/-- **C114** (hazard): a runtime expression stays: a value read onto it is not what is written. -/
theorem C114_expression_stays (env : Env) (v : Val) (x : Str) (hx : x ≠ []) (hv : ∃ e a, inner (toTy .expression) v = .anyExpr e a) (j : Json)
    (hj : ∀ s, j ≠ .str s) (hn : j ≠ .null) :
    (readOn env .expression (readOn env .expression v (.str x)).1 j).2 = .ok ∧
    encode env (readOn env .expression (readOn env .expression v (.str x)).1 j).1 = .ok (.str x) := by
  obtain ⟨e, a, hv⟩ := hv
  have h1 : readOn env .expression v (.str x) = (.ptr (.anyExpr x a), .ok) := by
    unfold readOn
    simp only [toTy] at hv ⊢
    simp only [decode, rewrap, target, intoLeaf, intoOther, hv]
  rw [h1]
  cases j with
  | null => exact absurd rfl hn
  | str s => exact absurd rfl (hj s)
  | _ => simp [readOn, toTy, decode, rewrap, target, intoLeaf, intoOther, inner, encode, hx]

/-! ### Concrete cases -/

/-- Numbers are integers, references print as they are. -/
def twiceEnv : Env := ⟨fun _ => true, fun _ => true, fun _ => []⟩

/-- `{"info": {"title": "T"}, "Info": {"version": "1"}}`: both members are kept. -/
example : pass twiceEnv (toTy (.sec .openapi)) (.obj ([] ++ (b!"info", .obj [(b!"title", .str b!"T")]) :: (b!"Info", .obj [(b!"version", .str b!"1")]) :: [])) =
    pass twiceEnv (toTy (.sec .openapi)) (.obj ([] ++ (b!"info", .obj [(b!"title", .str b!"T"), (b!"version", .str b!"1")]) :: [])) :=
  C114_twins twiceEnv .openapi b!"info" (.sec .info) (by decide) (.inl ⟨_, rfl⟩) [] [] [(b!"title", .str b!"T")] [(b!"version", .str b!"1")] _ _ (by decide) (by decide)

/-- Two servers lists, read one after the other: the second server has the description of the first. -/
example : ((readOn twiceEnv (.list (.sec .server)) .nil (.arr [.obj [(b!"url", .str b!"a"), (b!"description", .str b!"first")]])).2 = .ok) := by decide +kernel
example : (match encode twiceEnv (readOn twiceEnv (.list (.sec .server)) (readOn twiceEnv (.list (.sec .server)) .nil
      (.arr [.obj [(b!"url", .str b!"a"), (b!"description", .str b!"first")]])).1 (.arr [.obj [(b!"url", .str b!"b")]])).1 with
    | .ok (.arr [.obj o]) => (Obj.lookup b!"url" o, Obj.lookup b!"description" o)
    | _ => (none, none)) = (some (.str b!"b"), some (.str b!"first")) := by decide +kernel

/-- A new variable for an expression. -/
example : ∃ e a, inner (toTy .expression) (zero (toTy .expression)) = .anyExpr e a := ⟨[], none, rfl⟩

end Oapi.Props
