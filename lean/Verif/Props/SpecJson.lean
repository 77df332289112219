import Verif.Proofs.SpecJson3

/- C89, C90: reading the sections of an OpenAPI document into the tool's data types and writing them again. -/
namespace Oapi.SpecJson

mutual
theorem encode_np (env : Env) (v : Val) : encode env v ≠ .panic := by
  match v with
  | .text _ => simp [encode]
  | .flag _ => simp [encode]
  | .num _ => simp [encode]
  | .any _ => simp [encode]
  | .nil => simp [encode]
  | .ref p =>
    have h := (Props.C88_encode env.prn p).2.2
    simp only [encode]
    cases he : PtrJson.encode env.prn p with
    | ok t => simp
    | err e => simp
    | panic => exact absurd he h
  | .anyExpr e a => simp only [encode]; split <;> simp
  | .callback r m =>
    simp only [encode]
    split
    · exact encode_np env m
    · have := encode_np env r
      cases he : encode env r with
      | panic => exact absurd he this
      | _ => nofun
  | .ptr v => simp only [encode]; exact encode_np env v
  | .slice vs =>
    simp only [encode]
    have := encodeList_np env vs
    cases he : encodeList env vs with
    | panic => exact absurd he this
    | _ => nofun
  | .map kvs =>
    simp only [encode]
    have := encodeMap_np env kvs
    cases he : encodeMap env kvs with
    | panic => exact absurd he this
    | _ => nofun
  | .struct n g =>
    rw [encode_struct]
    have key : ∀ fs : List Field, fs.foldr (encStep env g) (.ok []) ≠ .panic := by
      intro fs
      induction fs with
      | nil => nofun
      | cons f fs ih =>
        simp only [List.foldr_cons]
        unfold encStep at ih ⊢
        split
        · exact ih
        · have := encode_np env (g f.name)
          cases he : encode env (g f.name) with
          | panic => exact absurd he this
          | err e => nofun
          | ok j =>
            revert ih
            generalize List.foldr _ _ fs = r
            intro ih
            cases r with
            | panic => exact absurd rfl ih
            | _ => nofun
    have := key (fields n)
    revert this
    generalize List.foldr _ _ _ = r
    intro this
    cases r with
    | panic => exact absurd rfl this
    | _ => nofun
termination_by structural v
theorem encodeList_np (env : Env) (vs : List Val) : encodeList env vs ≠ .panic := by
  match vs with
  | [] => simp [encodeList]
  | v :: vs =>
    simp only [encodeList]
    have h1 := encode_np env v
    have h2 := encodeList_np env vs
    cases he : encode env v with
    | panic => exact absurd he h1
    | err e => nofun
    | ok j =>
      cases hl : encodeList env vs with
      | panic => exact absurd hl h2
      | _ => nofun
termination_by structural vs
theorem encodeMap_np (env : Env) (vs : List (Str × Val)) : encodeMap env vs ≠ .panic := by
  match vs with
  | [] => simp [encodeMap]
  | (k, v) :: vs =>
    simp only [encodeMap]
    have h1 := encode_np env v
    have h2 := encodeMap_np env vs
    cases he : encode env v with
    | panic => exact absurd he h1
    | err e => nofun
    | ok j =>
      cases hl : encodeMap env vs with
      | panic => exact absurd hl h2
      | _ => nofun
termination_by structural vs
end

end Oapi.SpecJson

namespace Oapi.Props
open Oapi.SpecJson Spec.SpecJson

/-- **C89**: what becomes of a value that is read into the tool's data types and written again: exactly what `Passes` says.  No member
may be given twice (in different letter case). -/
theorem C89_keeps (env : Env) (k : Kind) (j y : Json) (hw : j.WF) (hc : Clear k j) :
    pass env (toTy k) j = .ok y ↔ Passes (around env) k j y := by
  rw [pass_ok]
  exact ⟨complete (sizeOf j) (Nat.le_refl _) hw hc, fun h => sound h hw⟩

/-- **C89** (members): a member the tool does not know is lost; of a member it knows, the value is read and written, unless it says
nothing and need not be written; only the members that are always written are added. -/
theorem C89_member (env : Env) (s : Section) (o : Obj) (y : Json) (hw : (Json.obj o).WF) (ht : NoTwins (members s) o)
    (hp : pass env (toTy (.sec s)) (.obj o) = .ok y) :
    ∃ o', y = .obj o' ∧
      (∀ m, kindOf s m = none → Obj.lookup m o' = none) ∧
      (∀ m k x, kindOf s m = some k → given o m = some x → (m ∈ written s ∨ blank k x = false) →
        ∃ z, Obj.lookup m o' = some z ∧ pass env (toTy k) x = .ok z) ∧
      (∀ m k x, kindOf s m = some k → given o m = some x → m ∉ written s → blank k x = true → Obj.lookup m o' = none) ∧
      ∀ m k, kindOf s m = some k → given o m = none → Obj.lookup m o' = if m ∈ written s then some (zeroOf k) else none := by
  obtain ⟨v, hd, he⟩ := pass_ok.1 hp
  obtain ⟨hs, hwo⟩ := (Json.WF_obj o).1 hw
  have e : decode env (toTy (.sec s)) (zero (toTy (.sec s))) (.obj o) =
      (.ptr (.struct (secTy s) (decodeFields env (secTy s) (newStruct (secTy s)) o).1), (decodeFields env (secTy s) (newStruct (secTy s)) o).2) := rfl
  rw [e] at hd
  injection hd with hd1 hd2
  subst hd1
  have he' : encode env (.struct (secTy s) (decodeFields env (secTy s) (newStruct (secTy s)) o).1) = .ok y := he
  rw [encode_struct, Res.bind_eq_ok] at he'
  obtain ⟨o', ho', hy⟩ := he'
  cases hy
  obtain ⟨_, hl⟩ := sec_expected hw ht hd2 ho'
  obtain ⟨_, _, henc⟩ := enc_spec env _ _ o' (fields_nodup _) ho'
  refine ⟨o', rfl, ?_, ?_, ?_, ?_⟩
  · intro m hk
    rw [hl]
    simp [expected, hk]
  · intro m k x hk hg hb
    have hlm := hl m
    simp only [expected, hk, hg] at hlm
    rw [if_neg] at hlm
    · refine ⟨_, hlm, pass_ok.2 ⟨_, (sec_values hs ht hd2 hk).2 x hg, ?_⟩⟩
      obtain ⟨f, hf, rfl, _⟩ := field_of_kind hk
      rcases henc f hf with ⟨_, _, h3⟩ | ⟨_, z, hz, h3⟩
      · rw [hlm] at h3; cases h3
      · rw [out_ok hz]; exact hz
    · rintro ⟨h1, h2⟩
      rcases hb with hb | hb
      · exact h1 hb
      · rw [hb] at h2; cases h2
  · intro m k x hk hg hm hb
    rw [hl]
    simp [expected, hk, hg, hm, hb]
  · intro m k hk hg
    rw [hl]
    simp only [expected, hk, hg]

/-- **C89** (form): every section of what is written, at any depth, has only members the tool knows, all that are always written, and no
other member that says nothing. -/
theorem C89_tidy (env : Env) (k : Kind) (j y : Json) (hw : j.WF) (hc : Clear k j) (hx : ∀ x, At k j .expression x → x ≠ .str [])
    (hp : pass env (toTy k) j = .ok y) (s : Section) (o : Obj) (ha : At k y (.sec s) (.obj o)) : Tidy s o :=
  passes_tidy ((C89_keeps env k j y hw hc).1 hp) hw hx s o ha

theorem passes_WF {e : Around} {k : Kind} {x y : Json} (h : Passes e k x y) : x.WF → y.WF := by
  induction h with
  | null k => intro _; cases k <;> trivial
  | text | flag | number | integer | reference | oddReference | expression | noExpression => exact fun _ => trivial
  | free => exact id
  | value => exact id
  | list k xs ys hl h ih =>
    intro hw
    refine (Json.WF_arr ys).2 ((Json.WFL_iff ys).2 fun y hy => ?_)
    obtain ⟨i, hi⟩ := List.getElem?_of_mem hy
    have hlt : i < xs.length := by rw [hl]; exact (List.getElem?_eq_some_iff.1 hi).1
    exact ih i _ _ (List.getElem?_eq_getElem hlt) hi ((Json.WFL_iff xs).1 ((Json.WF_arr xs).1 hw) _ (List.getElem_mem hlt))
  | dict k o o₁ hk h ih =>
    intro hw
    obtain ⟨hs, hwo⟩ := (Json.WF_obj o).1 hw
    have hs' : Obj.Sorted o₁ := sorted_keys hk.symm hs
    refine (Json.WF_obj o₁).2 ⟨hs', (Json.WFO_iff o₁).2 fun ⟨m, y⟩ hm => ?_⟩
    have hl := Obj.lookup_of_mem (Obj.sorted_nodup hs') hm
    obtain ⟨x, hlx⟩ := (Obj.mem_keys_iff m o).1 (hk ▸ (Obj.mem_keys_iff m o₁).2 ⟨_, hl⟩)
    exact ih m x y hlx hl (Json.WFO_lookup hwo hlx)
  | callbackReference o x y hg ht hn h ih =>
    intro hw
    refine (Json.WF_obj _).2 ⟨by simp [Obj.Sorted], (Json.WFO_iff _).2 fun e he => ?_⟩
    rw [List.mem_singleton] at he
    subst he
    exact ih (given_WF hw hg)
  | callback o y hg ht h ih => exact ih
  | sec s o o₁ g ht h hs ho ih =>
    intro hw
    refine (Json.WF_obj o₁).2 ⟨hs, (Json.WFO_iff o₁).2 fun ⟨m, y⟩ hm => ?_⟩
    have hl := Obj.lookup_of_mem (Obj.sorted_nodup hs) hm
    obtain ⟨k, hk⟩ := Option.ne_none_iff_exists'.1 (known_expected ho m y hl)
    rw [ho] at hl
    rcases expected_cases hk hl with ⟨_, _, rfl⟩ | ⟨x, hgx, _, rfl⟩
    · cases k <;> trivial
    · exact ih m k x hk hgx (given_WF hw hgx)

/-- **C89** (stability): if the references are written as the tool writes them and no expression is the empty text, reading and writing
a second time changes nothing. -/
theorem C89_stable (env : Env) (k : Kind) (j y : Json) (hw : j.WF) (hc : Clear k j) (hs : AllSettled (around env) k j)
    (hp : pass env (toTy k) j = .ok y) : pass env (toTy k) y = .ok y := by
  have h := (C89_keeps env k j y hw hc).1 hp
  exact pass_ok.2 (sound (passes_fix h hw hs) (passes_WF h hw))

/-- **C89** (hazard): the scopes of an OAuth flow are always lost: the data type calls them `acopes`. -/
theorem C89_scopes_lost (env : Env) (o : Obj) (y : Json) (hw : (Json.obj o).WF) (ht : NoTwins (members .oauthFlow) o)
    (hp : pass env (toTy (.sec .oauthFlow)) (.obj o) = .ok y) : ∃ o', y = .obj o' ∧ Obj.lookup b!"scopes" o' = none := by
  obtain ⟨o', rfl, h, _⟩ := C89_member env .oauthFlow o y hw ht hp
  exact ⟨o', rfl, h _ (by decide)⟩

/-- **C90**: a document is refused exactly if some value in it, at a place the tool reads, is not of the kind expected there; the tool
never crashes on it. -/
theorem C90_refused (env : Env) (k : Kind) (j : Json) (hw : j.WF) (hc : Clear k j) :
    ((∃ e, pass env (toTy k) j = .err e) ↔ ∃ k' j', At k j k' j' ∧ Misfit (around env) k' j') ∧ pass env (toTy k) j ≠ .panic := by
  have hnp : pass env (toTy k) j ≠ .panic := by
    unfold pass
    split
    · exact encode_np env _
    · nofun
  refine ⟨⟨?_, ?_⟩, hnp⟩
  · rintro ⟨e, he⟩
    refine Classical.byContradiction fun hno => ?_
    obtain ⟨y, hy⟩ := fits_passes (e := around env) (sizeOf j) (Nat.le_refl _) hw hc fun k' j' ha hm => hno ⟨k', j', ha, hm⟩
    rw [(C89_keeps env k j y hw hc).2 hy] at he
    cases he
  · rintro ⟨k', j', ha, hm⟩
    cases hp : pass env (toTy k) j with
    | err e => exact ⟨e, rfl⟩
    | panic => exact absurd hp hnp
    | ok y =>
      obtain ⟨y', hy'⟩ := passes_part ha hw y ((C89_keeps env k j y hw hc).1 hp)
      exact absurd hm (misfit_no hy')

/-- **C90** (hazard): a document that has a schema with `additionalProperties: true` or `false` anywhere, which OpenAPI allows, is refused. -/
theorem C90_boolean_additional_properties (env : Env) (k : Kind) (j : Json) (hw : j.WF) (hc : Clear k j) (o : Obj) (b : Bool)
    (ha : At k j (.sec .schema) (.obj o)) (hg : given o b!"additionalProperties" = some (.bool b)) : ∃ e, pass env (toTy k) j = .err e := by
  refine (C90_refused env k j hw hc).1.2 ⟨.sec .schema, .bool b, ?_, nofun⟩
  exact at_trans ha (.member (m := b!"additionalProperties") (by decide) hg (.here _ _))

end Oapi.Props
