import Verif.Props.SpecJson

/- Concrete cases for C89 and C90. -/
namespace Oapi.Props
open Oapi.SpecJson Spec.SpecJson
set_option maxRecDepth 100000

/-! Decision procedures for the hypotheses. -/

def noTwinsB (ms : List (Str × Kind)) (o : Obj) : Bool :=
  ms.all fun m => (Obj.keys o).all fun a => (Obj.keys o).all fun b =>
    !decide (lowerName a = lowerName m.1) || !decide (lowerName b = lowerName m.1) || decide (a = b)

theorem noTwinsB_sound {ms : List (Str × Kind)} {o : Obj} (h : noTwinsB ms o = true) : NoTwins ms o := by
  intro m k hm a ha b hb h1 h2
  have := List.all_eq_true.1 (List.all_eq_true.1 (List.all_eq_true.1 h _ hm) a ha) b hb
  simpa [h1, h2] using this

mutual
def clearB (k : Kind) (j : Json) : Bool :=
  match j with
  | .arr xs => match k with
    | .list k => clearListB k xs
    | _ => true
  | .obj o => match k with
    | .sec s => noTwinsB (members s) o && clearMembersB s o
    | .dict k => clearDictB k o
    | .callback => noTwinsB aReference o && clearDictB (.sec .pathItem) o
    | _ => true
  | _ => true
termination_by structural j
def clearListB (k : Kind) (xs : List Json) : Bool :=
  match xs with
  | [] => true
  | x :: xs => clearB k x && clearListB k xs
termination_by structural xs
def clearDictB (k : Kind) (o : List (Str × Json)) : Bool :=
  match o with
  | [] => true
  | (_, x) :: o => clearB k x && clearDictB k o
termination_by structural o
def clearMembersB (s : Section) (o : List (Str × Json)) : Bool :=
  match o with
  | [] => true
  | (m, x) :: o => ((members s).all fun e => !decide (lowerName m = lowerName e.1) || clearB e.2 x) && clearMembersB s o
termination_by structural o
end

mutual
theorem clearB_sound (k : Kind) (j : Json) (h : clearB k j = true) : Clear k j := by
  match j with
  | .arr xs =>
    cases k with
    | list k => simp only [Clear, clearB] at h ⊢; exact clearListB_sound k xs h
    | _ => simp [Clear]
  | .obj o =>
    cases k with
    | sec s =>
      simp only [Clear, clearB, Bool.and_eq_true] at h ⊢
      exact ⟨noTwinsB_sound h.1, clearMembersB_sound s o h.2⟩
    | dict k => simp only [Clear, clearB] at h ⊢; exact clearDictB_sound k o h
    | callback =>
      simp only [Clear, clearB, Bool.and_eq_true] at h ⊢
      exact ⟨noTwinsB_sound h.1, clearDictB_sound _ o h.2⟩
    | _ => simp [Clear]
  | .null => simp [Clear]
  | .bool _ => simp [Clear]
  | .num _ => simp [Clear]
  | .str _ => simp [Clear]
termination_by structural j
theorem clearListB_sound (k : Kind) (xs : List Json) (h : clearListB k xs = true) : ClearList k xs := by
  match xs with
  | [] => simp [ClearList]
  | x :: xs =>
    simp only [ClearList, clearListB, Bool.and_eq_true] at h ⊢
    exact ⟨clearB_sound k x h.1, clearListB_sound k xs h.2⟩
termination_by structural xs
theorem clearDictB_sound (k : Kind) (o : List (Str × Json)) (h : clearDictB k o = true) : ClearDict k o := by
  match o with
  | [] => simp [ClearDict]
  | (m, x) :: o =>
    simp only [ClearDict, clearDictB, Bool.and_eq_true] at h ⊢
    exact ⟨clearB_sound k x h.1, clearDictB_sound k o h.2⟩
termination_by structural o
theorem clearMembersB_sound (s : Section) (o : List (Str × Json)) (h : clearMembersB s o = true) : ClearMembers s o := by
  match o with
  | [] => simp [ClearMembers]
  | (m, x) :: o =>
    simp only [ClearMembers, clearMembersB, Bool.and_eq_true] at h ⊢
    refine ⟨fun n k hm hl => clearB_sound k x ?_, clearMembersB_sound s o h.2⟩
    have := List.all_eq_true.1 h.1 _ hm
    simpa [hl] using this
termination_by structural o
end

mutual
/-- All values that may be read. -/
def parts (k : Kind) (j : Json) : List (Kind × Json) :=
  (k, j) :: (match j with
  | .arr xs => match k with
    | .list k => partsList k xs
    | _ => []
  | .obj o => match k with
    | .sec s => partsMembers (members s) o
    | .dict k => partsDict k o
    | .callback => partsMembers aReference o ++ (Kind.dict (.sec .pathItem), .obj o) :: partsDict (.sec .pathItem) o
    | _ => []
  | _ => [])
termination_by structural j
def partsList (k : Kind) (xs : List Json) : List (Kind × Json) :=
  match xs with
  | [] => []
  | x :: xs => parts k x ++ partsList k xs
termination_by structural xs
def partsDict (k : Kind) (o : List (Str × Json)) : List (Kind × Json) :=
  match o with
  | [] => []
  | (_, x) :: o => parts k x ++ partsDict k o
termination_by structural o
def partsMembers (ms : List (Str × Kind)) (o : List (Str × Json)) : List (Kind × Json) :=
  match o with
  | [] => []
  | (m, x) :: o => (ms.flatMap fun e => if lowerName m = lowerName e.1 then parts e.2 x else []) ++ partsMembers ms o
termination_by structural o
end

theorem mem_partsList {k : Kind} {e : Kind × Json} : ∀ {xs : List Json} {x}, x ∈ xs → e ∈ parts k x → e ∈ partsList k xs
  | y :: xs, x, hx, he => by
    simp only [partsList, List.mem_append]
    rcases List.mem_cons.1 hx with rfl | hx
    · exact .inl he
    · exact .inr (mem_partsList hx he)

theorem mem_partsDict {k : Kind} {e : Kind × Json} : ∀ {o : List (Str × Json)} {m x}, (m, x) ∈ o → e ∈ parts k x → e ∈ partsDict k o
  | (n, y) :: o, m, x, hx, he => by
    simp only [partsDict, List.mem_append]
    rcases List.mem_cons.1 hx with h | hx
    · cases h; exact .inl he
    · exact .inr (mem_partsDict hx he)

theorem mem_partsMembers {ms : List (Str × Kind)} {e : Kind × Json} {m : Str} {k : Kind} (hm : (m, k) ∈ ms) :
    ∀ {o : List (Str × Json)} {key x}, (key, x) ∈ o → lowerName key = lowerName m → e ∈ parts k x → e ∈ partsMembers ms o
  | (n, y) :: o, key, x, hx, hl, he => by
    simp only [partsMembers, List.mem_append]
    rcases List.mem_cons.1 hx with h | hx
    · cases h
      exact .inl (List.mem_flatMap.2 ⟨_, hm, by rw [if_pos hl]; exact he⟩)
    · exact .inr (mem_partsMembers hm hx hl he)

theorem parts_complete {k k' : Kind} {j j' : Json} (h : At k j k' j') : (k', j') ∈ parts k j := by
  induction h with
  | here k j => unfold parts; exact .head _
  | elem hx _ ih => simp only [parts]; exact .tail _ (mem_partsList hx ih)
  | entry hx _ ih => simp only [parts]; exact .tail _ (mem_partsDict hx ih)
  | member hk hx _ ih =>
    obtain ⟨key, h1, h2⟩ := given_some hx
    simp only [parts]
    exact .tail _ (mem_partsMembers (members_mem hk) h1 h2 ih)
  | callbackReference hx _ ih =>
    obtain ⟨key, h1, h2⟩ := given_some hx
    simp only [parts]
    exact .tail _ (List.mem_append_left _ (mem_partsMembers (.head _) h1 h2 ih))
  | callback hx _ ih =>
    simp only [parts] at ih ⊢
    refine .tail _ (List.mem_append_right _ ?_)
    exact ih

theorem settledB_sound {e : Around} {k : Kind} {j : Json}
    (h : ∀ p ∈ parts k j, (p.1 = .reference → p.2 = .null ∨ ∃ s, p.2 = .str s ∧ Settled e.printable s) ∧ (p.1 = .expression → p.2 ≠ .str [])) :
    AllSettled e k j :=
  ⟨fun x hx => (h _ (parts_complete hx)).1 rfl, fun x hx => (h _ (parts_complete hx)).2 rfl⟩

/-! C89. -/

def demoEnv : Env := ⟨fun _ => true, fun n => decide (-(2 : Int) ^ 63 ≤ n ∧ n < (2 : Int) ^ 63), fun _ => b!"x"⟩

def demoParam : Json := .obj [(b!"$ref", .str b!"#/components/parameters/limit"), (b!"Description", .str b!"how many"),
  (b!"schema", .obj [(b!"default", .num 10), (b!"maximum", .num 0), (b!"type", .str b!"integer"), (b!"x-go", .bool true)]),
  (b!"x-note", .str b!"lost")]

def demoParamOut : Json := .obj [(b!"$ref", .str b!"#/components/parameters/limit"), (b!"description", .str b!"how many"), (b!"explode", .bool false),
  (b!"in", .str []), (b!"name", .str []),
  (b!"schema", .obj [(b!"default", .num 10), (b!"maximum", .num 0), (b!"type", .str b!"integer")])]

/-- A reference to a parameter gains an empty name and an empty place, a zero number stays, extensions are lost, letter case is repaired. -/
theorem demo_param : pass demoEnv (toTy (.sec .parameter)) demoParam = .ok demoParamOut := by decide +kernel

theorem demo_param_WF : demoParam.WF := wfB_sound _ (by decide +kernel)
theorem demo_param_clear : Clear (.sec .parameter) demoParam := clearB_sound _ _ (by decide +kernel)

/-- The hypotheses of `C89_keeps` and `C89_tidy`: the specification gives the same result. -/
example : Passes (around demoEnv) (.sec .parameter) demoParam demoParamOut :=
  (C89_keeps demoEnv _ _ _ demo_param_WF demo_param_clear).1 demo_param

def demoRef : Str := b!"#/components/parameters/limit"

theorem demo_settled : Settled (fun _ => true) demoRef := by
  have hp : ∃ p, Pointer.parse demoRef = .ok p ∧ p.toStr = demoRef ∧ (match PtrJson.encode (fun _ => true) p with | .ok _ => true | _ => false) = true := by
    refine ⟨match Pointer.parse demoRef with | .ok p => p | _ => {}, ?_, ?_, ?_⟩ <;> decide +kernel
  obtain ⟨p, h1, h2, h3⟩ := hp
  refine ⟨?_, p, h1, h2⟩
  rw [← h2]
  refine (C88_encode _ p).1.1 ?_
  cases he : PtrJson.encode (fun _ => true) p with
  | ok t => exact ⟨t, rfl⟩
  | err e => rw [he] at h3; cases h3
  | panic => rw [he] at h3; cases h3

/-- The hypotheses of `C89_stable`. -/
theorem demo_param_settled : AllSettled (around demoEnv) (.sec .parameter) demoParam := by
  have e : parts (.sec .parameter) demoParam = [(.sec .parameter, demoParam), (.reference, .str demoRef), (.text, .str b!"how many"),
    (.sec .schema, .obj [(b!"default", .num 10), (b!"maximum", .num 0), (b!"type", .str b!"integer"), (b!"x-go", .bool true)]),
    (.free, .num 10), (.number, .num 0), (.text, .str b!"integer")] := by decide +kernel
  refine settledB_sound fun p hp => ?_
  rw [e] at hp
  simp only [List.mem_cons, List.not_mem_nil, or_false] at hp
  rcases hp with rfl | rfl | rfl | rfl | rfl | rfl | rfl <;> refine ⟨fun h => ?_, fun h => ?_⟩ <;> first | cases h | skip
  exact .inr ⟨_, rfl, demo_settled⟩

example : pass demoEnv (toTy (.sec .parameter)) demoParamOut = .ok demoParamOut :=
  C89_stable demoEnv _ _ _ demo_param_WF demo_param_clear demo_param_settled demo_param

def demoFlow : Obj := [(b!"scopes", .obj [(b!"read", .str b!"read all")]), (b!"tokenUrl", .str b!"https://x/t")]
example : pass demoEnv (toTy (.sec .oauthFlow)) (.obj demoFlow) = .ok (.obj [(b!"tokenUrl", .str b!"https://x/t")]) := by decide +kernel
example : ∃ o', Json.obj [(b!"tokenUrl", .str b!"https://x/t")] = .obj o' ∧ Obj.lookup b!"scopes" o' = none :=
  C89_scopes_lost demoEnv demoFlow _ (wfB_sound _ (by decide +kernel)) (noTwinsB_sound (by decide +kernel)) (by decide +kernel)

/-- The exception of `C89_stable`: an empty expression is written as null, which the next time is left out. -/
example : pass demoEnv (toTy (.sec .link)) (.obj [(b!"requestBody", .str [])]) = .ok (.obj [(b!"requestBody", .null)]) ∧
    pass demoEnv (toTy (.sec .link)) (.obj [(b!"requestBody", .null)]) = .ok (.obj []) := by decide +kernel

/-! C90. -/

def demoBool : Json := .obj [(b!"components", .obj [(b!"schemas", .obj [(b!"Pet", .obj [(b!"additionalProperties", .bool true)])])])]

example : ∃ e, pass demoEnv (toTy (.sec .openapi)) demoBool = .err e :=
  C90_boolean_additional_properties demoEnv _ _ (wfB_sound _ (by decide +kernel)) (clearB_sound _ _ (by decide +kernel))
    [(b!"additionalProperties", .bool true)] true
    (.member (m := b!"components") (k := .sec .components) (by decide) rfl
      (.member (m := b!"schemas") (k := .dict (.sec .schema)) (by decide) rfl (.entry (m := b!"Pet") (.head _) (.here _ _)))) rfl

end Oapi.Props
