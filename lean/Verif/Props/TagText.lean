import Verif.Proofs.TagText
import Verif.Props.Tag
import Verif.Model.Types

/-! Property C123: the text of a struct tag. -/
namespace Oapi.Props
open Spec Spec.TagText TagP
open TagText (parseText structtag tagparser getTag lib structtag_iff tagparser_value value_read)

section
variable {F : Type} {pf : Str → Option F} {raw raw' s n n' : Str} {ps ps' os os' : List (Str × Str)} {m : Tag F}

/-- What the first tag with key `k` says: nothing if there is none, else its name and its options. -/
def Told (ps : List (Str × Str)) (k : Str) (t : Option (Str × List (Str × Str))) : Prop :=
  (ps.lookup k = none ∧ t = none) ∨ ∃ s n os, ps.lookup k = some s ∧ Value n os s ∧ t = some (n, os)

/-- The tag with this name and these options; of options with one key the last one counts. -/
def asTag (t : Option (Str × List (Str × Str))) : Option PTag := t.map fun x => ⟨x.1, x.2.reverse⟩

theorem told_tag {k : Str} {t : Option (Str × List (Str × Str))} (h : Told ps k t) : getTag ps k = asTag t := by
  rcases h with ⟨h1, rfl⟩ | ⟨s, n, os, h1, h2, rfl⟩
  · simp [getTag, h1, asTag]
  · simp [getTag, h1, asTag, value_read h2]

theorem lib_of (h : Raw ps raw) : lib raw = some ⟨getTag ps b!"json", getTag ps b!"oapi"⟩ := by
  rw [lib, (structtag_iff raw ps).2 h]; rfl

/-- **C123** (what is read): a raw tag with keys and values written as they should be is read as what its first `json` and its first `oapi` tag say; what
becomes of that is C44, C45 and C46. -/
theorem C123_read {j o : Option (Str × List (Str × Str))} (h : Raw ps raw) (hp : ps ≠ []) (hj : Told ps b!"json" j) (ho : Told ps b!"oapi" o) :
    parseText pf raw = TagP.parse (fun _ => some ⟨asTag j, asTag o⟩) pf raw := by
  have hs := (structtag_iff raw ps).2 h
  unfold parseText
  rw [if_neg (by rw [hs]; simp [hp])]
  unfold TagP.parse
  rw [lib_of h, told_tag hj, told_tag ho]

/-- **C123** (no other reading): a raw tag has at most one reading, and so has a value: the name is determined, and so are the options and their order. -/
theorem C123_unambiguous : (Raw ps raw → Raw ps' raw → ps = ps') ∧ (Value n os s → Value n' os' s → n = n' ∧ os = os') := by
  constructor
  · intro h h'
    have := (structtag_iff raw ps).2 h
    rw [(structtag_iff raw ps').2 h'] at this
    exact (Option.some.inj this).symm
  · intro h h'
    have := tagparser_value h
    rw [tagparser_value h'] at this
    injection this with h1 h2
    exact ⟨h1.symm, (List.reverse_inj.1 h2).symm⟩

/-- **C123** (everything else is an error): a raw tag that is not written so is refused. -/
theorem C123_malformed (h : ∀ ps, ¬ Raw ps raw) : ∃ e, parseText pf raw = .err e := by
  have hs : structtag raw = none := by
    cases e : structtag raw with
    | none => rfl
    | some ps => exact absurd ((structtag_iff raw ps).1 e) (h ps)
  have hr : raw ≠ [] := fun e => h [] (e ▸ Raw.nil 0)
  refine ⟨.syntaxErr, ?_⟩
  unfold parseText TagP.parse
  rw [if_neg (by rw [hs]; simp), if_neg hr, lib, hs]; rfl

theorem raw_nil (h : Raw [] raw) : ∃ k, raw = List.replicate k 32 := by
  cases h with
  | nil k => exact ⟨k, rfl⟩

/-- **C123** (crashes): reading a raw tag crashes exactly if it is not empty and consists of blanks. -/
theorem C123_crashes : parseText pf raw = .panic ↔ ∃ k, raw = List.replicate (k + 1) 32 := by
  constructor
  · intro h
    unfold parseText at h
    split at h
    · next hc =>
      obtain ⟨k, hk⟩ := raw_nil ((structtag_iff raw []).1 hc.2)
      cases k with
      | zero => exact absurd hk hc.1
      | succ k => exact ⟨k, hk⟩
    · exact absurd h C46_no_panic
  · rintro ⟨k, rfl⟩
    unfold parseText
    rw [if_pos ⟨by simp [List.replicate_succ], (structtag_iff _ []).2 (.nil (k + 1))⟩]

/-- **C123** (structs crash): such a tag at the first field of a struct crashes the conversion of the struct. -/
theorem C123_struct_crashes {env : Types.Env} {f : Types.FieldInfo} {t : Types.GoType} {fs : List (Types.FieldInfo × Types.GoType)} (d k : Nat)
    (h : f.tag = List.replicate (k + 1) 32) : Types.collectFields env (parseText pf) (d + 1) ((f, t) :: fs) [] = .panic := by
  rw [Types.collectFields, if_neg (by simp), Types.collectLoop, C123_crashes.2 ⟨k, h⟩]

/-- **C123** (other keys and repeated keys): what is read depends only on the first `json` and the first `oapi` tag. -/
theorem C123_only_two_keys (h : Raw ps raw) (h' : Raw ps' raw') (hp : ps ≠ []) (hp' : ps' ≠ []) (hj : ps.lookup b!"json" = ps'.lookup b!"json")
    (ho : ps.lookup b!"oapi" = ps'.lookup b!"oapi") : parseText pf raw = parseText pf raw' := by
  have key : ∀ {ps : List (Str × Str)} {raw : Str}, Raw ps raw → ps ≠ [] → raw ≠ [] := by
    rintro ps raw h hp rfl
    cases ps with
    | nil => exact hp rfl
    | cons p ps =>
      have := (structtag_iff [] (p :: ps)).2 h
      cases this
  unfold parseText
  rw [if_neg (by rw [(structtag_iff raw ps).2 h]; simp [hp]), if_neg (by rw [(structtag_iff raw' ps').2 h']; simp [hp'])]
  unfold TagP.parse
  rw [if_neg (key h hp), if_neg (key h' hp'), lib_of h, lib_of h']
  simp only [getTag, hj, ho]

/-- **C123** (a value with quotes): every text without white space at its ends and without a backslash can be the value of an option. -/
theorem C123_can_write {k v : Str} (hk : Word k) (hn : k ≠ []) (hv : Trimmed v) (hb : 92 ∉ v) : ∃ t, Option_ (k, v) t := by
  have : ∃ t, Quoted t v := by
    clear hv
    induction v with
    | nil => exact ⟨[], .nil⟩
    | cons c v ih =>
      obtain ⟨t, ht⟩ := ih fun h => hb (List.mem_cons_of_mem _ h)
      by_cases h : c = 39
      · rw [h]; exact ⟨_, .quote ht⟩
      · exact ⟨_, .char h (fun e => hb (e ▸ List.mem_cons_self ..)) ht⟩
  obtain ⟨t, ht⟩ := this
  exact ⟨_, .assigned (.quoted hk hn ht hv)⟩

/-- **C123** (options of the `oapi` tag): whatever else is in the raw tag, the last option with a key counts: a number, a text or a flag. -/
theorem C123_options (h : Raw ps raw) (hv : ps.lookup b!"oapi" = some s) (ho : Value n os s) (hn : n ≠ b!"-") (hm : parseText pf raw = .ok m) :
    (∀ d x, os.reverse.lookup b!"maxlen" = some d → IntText d x → m.maxLen = some x) ∧
    (∀ d, os.reverse.lookup b!"max" = some d → m.max = pf d) ∧
    (∀ d, os.reverse.lookup b!"pattern" = some d → m.pattern = d) ∧
    (os.reverse.lookup b!"required" = some [] → m.required = true) ∧ (os.reverse.lookup b!"required" = none → m.required = false) ∧
    (n ≠ [] → m.name = n) := by
  have hs := (structtag_iff raw ps).2 h
  have hp : ps ≠ [] := by rintro rfl; cases hv
  have hr : raw ≠ [] := by
    rintro rfl
    have h0 : structtag [] = some [] := rfl
    rw [h0] at hs; exact hp (Option.some.inj hs).symm
  unfold parseText at hm
  rw [if_neg (by rw [hs]; simp [hp])] at hm
  have ht : getTag ps b!"oapi" = some ⟨n, os.reverse⟩ := by simp [getTag, hv, value_read ho]
  have ha : Active (getTag ps b!"oapi") ⟨n, os.reverse⟩ := ⟨ht, hn⟩
  obtain ⟨h1, _, _, _, _, _, h2, _, _, h3, _⟩ := C46_values hr (lib_of h) hm ha
  obtain ⟨_, _, _, _, h4, _⟩ := C46_flags hr (lib_of h) hm ha
  refine ⟨fun d x e hd => (h1 x).2 ⟨d, e, hd⟩, fun d e => ?_, fun d e => ?_, fun e => h4.2 (.inl e), fun e => ?_, fun e => ?_⟩
  · rw [h2, PTag.opt, e]; rfl
  · rw [h3, PTag.opt, e]; rfl
  · cases hq : m.required with
    | false => rfl
    | true =>
      rcases h4.1 hq with h5 | ⟨x, _, h5⟩
      · rw [PTag.opt, e] at h5; cases h5
      · rw [PTag.opt, e] at h5; cases h5
  · exact (C44_name hr (lib_of h) hm).1 _ ha e
end

/-! Concrete raw tags. -/
namespace TagTextEx

def s1 : Str := b!"a,omitempty"
def s2 : Str := b!"b,maxlen:7, pattern:'it\\'s [a,b]',maxlen:5,required,format:(1,2)"
/-- `json:"a,omitempty" oapi:"b,maxlen:7, pattern:'it\\'s [a,b]',maxlen:5,required,format:(1,2)"` -/
def raw : Str := b!"json:\"a,omitempty\" oapi:\"b,maxlen:7, pattern:'it\\\\'s [a,b]',maxlen:5,required,format:(1,2)\" "

theorem raw_ok : Raw [(b!"json", s1), (b!"oapi", s2)] raw :=
  .cons (n := 0) (k := b!"json") (q := b!"\"a,omitempty\"") ⟨by decide, by decide⟩ ((Oapi.PtrJson.unquote_iff _ _).1 (by decide +kernel))
    (.cons (n := 1) (k := b!"oapi") (q := b!"\"b,maxlen:7, pattern:'it\\\\'s [a,b]',maxlen:5,required,format:(1,2)\"") ⟨by decide, by decide⟩
      ((Oapi.PtrJson.unquote_iff _ _).1 (by decide +kernel)) (.nil 1))

instance (k : Str) : Decidable (Trimmed k) := inferInstanceAs (Decidable (∀ c ∈ ([32, 9, 10, 11, 12, 13] : Str), k.head? ≠ some c ∧ k.getLast? ≠ some c))

theorem word {k : Str} (h : (∀ c ∈ ([32, 9, 10, 11, 12, 13] : Str), k.head? ≠ some c ∧ k.getLast? ≠ some c) ∧ ∀ c ∈ k, c ≠ 44 ∧ c ≠ 58 ∧ c ≠ 39) : Word k := h

theorem s1_ok : Value b!"a" [(b!"omitempty", [])] s1 :=
  
  .named (n := b!"a") (word (by decide)) (.cons (.flag (k := b!"omitempty") (word (by decide)) (by decide)) .nil)

theorem bare7 : Bare b!"7" b!"7" := .char (by decide) (by decide) (by decide) .nil
theorem bare5 : Bare b!"5" b!"5" := .char (by decide) (by decide) (by decide) .nil

/-- Three options of `s2`, with a blank, an escaped apostrophe and commas between apostrophes and between brackets. -/
def os2 : List (Str × Str) := [(b!"maxlen", b!"7"), (b!"pattern", b!"it's [a,b]"), (b!"maxlen", b!"5"), (b!"required", []), (b!"format", b!"(1,2)")]

theorem s2_ok : Value b!"b" os2 s2 := by
  refine .named (n := b!"b") (r := b!",maxlen:7, pattern:'it\\'s [a,b]',maxlen:5,required,format:(1,2)") (word (by decide)) ?_
  have o1 : Option_ (b!"maxlen", b!"7") b!"maxlen:7" := .assigned <| .bare (k := b!"maxlen") (t := b!"7") (word (by decide)) (by decide) bare7 (by decide) (by decide)
  have o3 : Option_ (b!"maxlen", b!"5") b!"maxlen:5" := .assigned <| .bare (k := b!"maxlen") (t := b!"5") (word (by decide)) (by decide) bare5 (by decide) (by decide)
  have q : Quoted b!"it\\'s [a,b]" b!"it's [a,b]" := by
    repeat first | exact .nil | refine .quote ?_ | refine .char (by decide) (by decide) ?_
  have o2 : Option_ (b!"pattern", b!"it's [a,b]") b!"pattern:'it\\'s [a,b]'" := .assigned <| .quoted (k := b!"pattern") (word (by decide)) (by decide) q (by decide)
  have g : Inside b!"1,2" b!"1,2" := by
    repeat first | exact .nil | refine .char (by decide) (by decide) (by decide) ?_
  have o5 : Option_ (b!"format", b!"(1,2)") b!"format:(1,2)" := .assigned <| .bare (k := b!"format") (t := b!"(1,2)") (word (by decide)) (by decide)
    (.nest g .nil) (by decide) (by decide)
  exact .cons o1 (.blank o2 (.cons o3 (.cons (.flag (k := b!"required") (word (by decide)) (by decide)) (.cons o5 .nil))))

/-- The tag is read, and `C123_options` says what it is. -/
example {F : Type} (pf : Str → Option F) : ∃ m : Tag F, parseText pf raw = .ok m ∧ m.maxLen = some 5 ∧ m.pattern = b!"it's [a,b]" ∧ m.required = true ∧
    m.name = b!"b" := by
  have h : ∃ m : Tag F, parseText pf raw = .ok m := by
    rw [C123_read (j := some (b!"a", [(b!"omitempty", [])])) (o := some (b!"b", os2)) raw_ok (by decide) (.inr ⟨_, _, _, by decide, s1_ok, rfl⟩)
      (.inr ⟨_, _, _, by decide, s2_ok, rfl⟩)]
    exact ⟨_, rfl⟩
  obtain ⟨m, hm⟩ := h
  obtain ⟨h1, _, h2, h3, _, h4⟩ := C123_options raw_ok (by decide) s2_ok (by decide) hm
  exact ⟨m, hm, h1 b!"5" 5 (by decide) ((atoi64_iff).1 (by decide)), h2 _ (by decide), h3 (by decide), h4 (by decide)⟩

/-- A value without a name: it begins with an option. -/
example : Value [] [(b!"maxlen", b!"5"), (b!"required", [])] b!"maxlen:5,required" :=
  .nameless (t := b!"maxlen:5") (.bare (k := b!"maxlen") (t := b!"5") (word (by decide)) (by decide) bare5 (by decide) (by decide)) (by decide)
    (.cons (.flag (k := b!"required") (word (by decide)) (by decide)) .nil)

/-- A name and an option between apostrophes; what stands in front of an apostrophe counts for nothing. -/
example : Value b!"a,b" [(b!"c:d", [])] b!"'a,b',x'c:d'" := by
  have q (t : Str) (h : ∀ c ∈ t, c ≠ 39 ∧ c ≠ 92) : Quoted t t := by
    induction t with
    | nil => exact .nil
    | cons c t ih => exact .char (h c (List.mem_cons_self ..)).1 (h c (List.mem_cons_self ..)).2 (ih fun d hd => h d (List.mem_cons_of_mem _ hd))
  exact .alone (t := b!"'a,b'") (.mk (p := []) (word (by decide)) (q b!"a,b" (by decide)) (by decide))
    (.cons (.alone (.mk (p := b!"x") (word (by decide)) (q b!"c:d" (by decide)) (by decide))) .nil)

/-- A raw tag that is refused: a blank behind the colon. -/
example {F : Type} (pf : Str → Option F) : ∃ e, parseText pf b!"json: \"a\"" = .err e :=
  C123_malformed fun ps h => by
    have := (structtag_iff _ ps).2 h
    rw [show structtag b!"json: \"a\"" = none by decide] at this
    cases this

end TagTextEx
end Oapi.Props
