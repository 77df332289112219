import Verif.Proofs.PutKeys
import Verif.Proofs.Fragment

/-! The single steps of the resolver as writes. -/
namespace Oapi.Resolver
open Spec
open Container (keyLoc)

/-- The dot path of a location. -/
abbrev dot (L : Loc) : Str := Str.join 46 (L.map seg)

theorem refKey_good : GoodSeg refKey := ⟨by decide, by decide, by decide⟩

theorem isref_dot {L : Loc} (hg : GoodLoc L) : isref (dot (L ++ [.key refKey])) = some (dot L) := by
  have hs : Str.split 46 (dot (L ++ [.key refKey])) = L.map seg ++ [refKey] := by
    rw [dot, Str.split_join 46 _ (by simp)]
    · simp [seg]
    · intro x hx
      simp only [List.mem_map, List.mem_append, List.mem_singleton] at hx
      obtain ⟨a, ha | ha, rfl⟩ := hx
      · exact (hg a ha).2.1
      · subst ha; exact refKey_good.2.1
  unfold isref
  simp only [hs, List.getLast?_append, List.getLast?_singleton, Option.some_or]
  simp [refKey]

/-- What replacing the reference object `{"$ref": x}` at `L` by `v` puts there: at the top the value goes under the
empty key. -/
def mkRepl (L : Loc) (x : Str) (v : Json) : Json := if L = [] then .obj [([], v), (refKey, .str x)] else v

/-- Write `v` at `L` of the container in use. -/
def wr (cx : Cur) (st : St) (L : Loc) (v : Json) : Cur × St :=
  match cx with
  | none => (none, { st with con := putAt v L st.con })
  | some j => (some (putAt v L j), st)

theorem setCur_wr {cx : Cur} {st : St} {key : Str} {v j : Json} (h : Container.setP (readCur cx st) key v = .ok j) :
    setCur cx st key v = .ok (match cx with | none => (none, { st with con := j }) | some _ => (some j, st)) := by
  unfold setCur
  rw [h]
  cases cx <;> rfl

theorem replacePtr_wr {cx : Cur} {st : St} {L : Loc} {x : Str} (v : Json) (hg : GoodLoc L)
    (h : getAt (readCur cx st) L = some (refObj x)) :
    replacePtr cx st (dot (L ++ [.key refKey])) v = .ok (wr cx st L (mkRepl L x v)) := by
  unfold replacePtr
  rw [isref_dot hg]
  simp only
  by_cases hL : L = []
  · subst hL
    simp only [getAt, Option.some.injEq] at h
    have hs : Container.setP (readCur cx st) (dot []) v = .ok (mkRepl [] x v) := by
      rw [h]
      rfl
    rw [setCur_wr hs]
    cases cx <;> rfl
  · have := setP_good v hg hL h
    rw [setCur_wr this, mkRepl, if_neg hL]
    cases cx <;> rfl

theorem putAt_ref {j : Json} {L : Loc} {x : Str} (y : Str) (h : getAt j L = some (refObj x)) :
    putAt (.str y) (L ++ [.key refKey]) j = putAt (refObj y) L j := by
  rw [Container.putAt_append _ h]
  rfl

theorem getAt_ref {j : Json} {L : Loc} {x : Str} (h : getAt j L = some (refObj x)) :
    getAt j (L ++ [.key refKey]) = some (.str x) := by
  rw [Oapi.getAt_append, h]; rfl

theorem goodLoc_snoc {L : Loc} (hg : GoodLoc L) : GoodLoc (L ++ [.key refKey]) := by
  intro s hs
  rcases List.mem_append.1 hs with hs | hs
  · exact hg s hs
  · rw [List.mem_singleton] at hs; subst hs; exact refKey_good

theorem updateLocal_wr {cx : Cur} {st : St} {L : Loc} {x : Str} (f : Fragment) (hg : GoodLoc L)
    (h : getAt (readCur cx st) L = some (refObj x)) :
    updateLocal cx st (dot (L ++ [.key refKey])) f = .ok (wr cx st L (refObj (Pointer.toStr { fragment := f }))) := by
  unfold updateLocal
  rw [isref_dot hg]
  simp only
  have := setP_good (.str (Pointer.toStr { fragment := f })) (goodLoc_snoc hg) (by simp) (getAt_ref h)
  rw [setCur_wr this]
  cases cx with
  | none => simp only [wr, putAt_ref _ h]; rfl
  | some j => simp only [wr, putAt_ref _ h]; rfl

theorem escapeToken_clean {s : Str} (h1 : (47 : UInt8) ∉ s) (h2 : (126 : UInt8) ∉ s) : Fragment.escapeToken s = s := by
  induction s with
  | nil => rfl
  | cons c t ih =>
    rw [Fragment.escapeToken_cons, ih (fun h => h1 (List.mem_cons_of_mem _ h)) (fun h => h2 (List.mem_cons_of_mem _ h)),
      if_neg (fun e => h2 (by simp [e])), if_neg (fun e => h1 (by simp [e]))]
    rfl

theorem unescapeToken_clean {s : Str} (h1 : (47 : UInt8) ∉ s) (h2 : (126 : UInt8) ∉ s) : Fragment.unescapeToken s = s := by
  have := Fragment.unescape_escape s
  rwa [escapeToken_clean h1 h2] at this

theorem key_facts (k : Kind) : GoodSeg k.key ∧ (47 : UInt8) ∉ k.key ∧ (126 : UInt8) ∉ k.key ∧
    Fragment.new (b!"/components/" ++ k.key) = .ok [b!"components", k.key] := by
  cases k <;> exact ⟨⟨by decide, by decide, by decide⟩, by decide, by decide, by decide⟩

theorem fragment_eq {e : Export} (h : CleanName e.name) : e.fragment = [b!"components", e.kind.key, e.name] := by
  unfold Export.fragment
  rw [(key_facts e.kind).2.2.2]
  show (match Fragment.descendant [b!"components", e.kind.key] e.name with
    | .ok f => f
    | _ => [b!"components", e.kind.key]) = _
  have hne : Fragment.toStr [b!"components", e.kind.key] ≠ Fragment.separator := by
    intro e'
    rw [Fragment.toStr_eq_slash] at e'
    cases e'
  have hp : Str.hasPrefix e.name Fragment.separator = false := by
    cases hn : e.name with
    | nil => rfl
    | cons c t =>
      have : c ≠ 47 := fun e' => h.2.2.1 (by rw [hn, e']; simp)
      simp [Str.hasPrefix, Fragment.separator, List.isPrefixOf, Ne.symm this]
  have hd : Fragment.parseFragment (Fragment.sepByte :: e.name) = .ok [e.name] := by
    simp only [Fragment.parseFragment]
    rw [if_neg (by decide), Fragment.sepByte, Str.split_no_sep 47 _ h.2.2.1]
    simp [unescapeToken_clean h.2.2.1 h.2.2.2]
  simp only [Fragment.descendant, hp, Bool.false_eq_true, if_false, hd, if_neg hne]
  rfl

theorem local_text {e : Export} (h : CleanName e.name) : Pointer.toStr { fragment := e.fragment } = localText e := by
  rw [fragment_eq h]
  have hu : Url.toStr {} = [] := by decide
  unfold Pointer.toStr
  show Url.toStr {} ++ _ = _
  rw [hu]
  simp only [Fragment.toStr, escapeToken_clean h.2.2.1 h.2.2.2,
    escapeToken_clean (key_facts e.kind).2.1 (key_facts e.kind).2.2.1, localText]
  rw [show Fragment.escapeToken b!"components" = b!"components" by decide]
  simp [Fragment.sepByte]

/-- The key path of an exported component. -/
abbrev compKeys (e : Export) : List Str := [b!"components", e.kind.key, e.name]

theorem compLoc_eq (e : Export) : compLoc e = keyLoc (compKeys e) := rfl

theorem path_eq (e : Export) : e.path = Str.join 46 (compKeys e) := by
  show b!"components." ++ e.kind.key ++ 46 :: e.name = b!"components" ++ 46 :: (e.kind.key ++ 46 :: e.name)
  rw [show b!"components." = b!"components" ++ [46] by decide]
  simp

theorem setP_comp {e : Export} (h : CleanName e.name) {j : Json} (v : Json) (ho : Open (compKeys e) j) :
    Container.setP j e.path v = .ok (putKeys v (compKeys e) j) := by
  rw [path_eq]
  apply setP_putKeys (by simp) _ ho
  intro k hk
  simp only [compKeys, List.mem_cons, List.not_mem_nil, or_false] at hk
  rcases hk with rfl | rfl | rfl
  · exact ⟨by decide, by decide, by decide⟩
  · exact (key_facts e.kind).1
  · exact ⟨h.1, h.2.1, Gabs.dec_of_no_tilde _ h.2.2.2⟩

end Oapi.Resolver
