import Verif.Proofs.Cmds
import Verif.Props.Pointer

/-! C47–C48: schema comments. -/
namespace Oapi.Props
open Oapi Spec Cmds

/-! ### C47 -/

/-- C47: which comments are commands: after the two comment characters comes "openapi"; what follows, without the spaces and
newlines at its end, is the command.  Any other comment is no command. -/
theorem C47_comment (c₁ c₂ : UInt8) (rest : Str) :
    (∀ body tail : Str, rest = b!"openapi" ++ body ++ tail → (∀ c ∈ tail, c = 32 ∨ c = 10) →
      (∀ c, body.getLast? = some c → c ≠ 32 ∧ c ≠ 10) → commentText (c₁ :: c₂ :: rest) = some body) ∧
    ((∀ t, rest ≠ b!"openapi" ++ t) → commentText (c₁ :: c₂ :: rest) = none) := by
  constructor
  · intro body tail e ht hb
    have hp : Str.hasPrefix rest b!"openapi" = true := hasPrefix_iff.2 ⟨body ++ tail, by rw [e, List.append_assoc]⟩
    have hd : rest.drop 7 = body ++ tail := by
      rw [e, List.append_assoc]; exact List.drop_left (l₁ := b!"openapi")
    unfold commentText
    simp only [List.drop_succ_cons, List.drop_zero, hp, if_true, hd]
    rw [trimRight_unique [32, 10] (fun c hc => by simpa using ht c hc) (fun c hc => by simpa using hb c hc)]
  · intro h
    have hp : Str.hasPrefix rest b!"openapi" = false := by
      cases hq : Str.hasPrefix rest b!"openapi" with
      | false => rfl
      | true => obtain ⟨t, e⟩ := hasPrefix_iff.1 hq; exact absurd e (h t)
    unfold commentText
    simp only [List.drop_succ_cons, List.drop_zero, hp]
    rfl

/-- The comment "`:schema` arg …", the arguments separated by single spaces. -/
def schemaComment (args : List Str) : Str := Str.join 32 (b!":schema" :: args)

/-- C47: a schema comment is accepted exactly if it has one or two arguments, none of them empty. -/
theorem C47_accepted_iff (pkg : Str) (args : List Str) (hw : ∀ a ∈ args, Word a) :
    (∃ c, Cmds.parse pkg (schemaComment args) = .ok c) ↔ (args.length = 1 ∨ args.length = 2) ∧ ∀ a ∈ args, a ≠ [] := by
  unfold schemaComment
  rw [parse_words (by unfold Word; decide) hw, if_pos rfl]
  match args with
  | [] => simp [newSchema]
  | [a] => by_cases h : a = [] <;> simp [newSchema, h]
  | [a, b] => by_cases h : a = [] <;> by_cases h' : b = [] <;> simp [newSchema, h, h']
  | a :: b :: c :: l => simp [newSchema]

/-- C47: otherwise it is an error (never a crash). -/
theorem C47_rejected (pkg : Str) (args : List Str) (hw : ∀ a ∈ args, Word a)
    (h : ¬ ((args.length = 1 ∨ args.length = 2) ∧ ∀ a ∈ args, a ≠ [])) : ∃ e, Cmds.parse pkg (schemaComment args) = .err e := by
  have hn := fun hx => h ((C47_accepted_iff pkg args hw).1 hx)
  cases hp : Cmds.parse pkg (schemaComment args) with
  | ok c => exact absurd ⟨c, hp⟩ hn
  | err e => exact ⟨e, rfl⟩
  | panic =>
    exfalso
    unfold schemaComment at hp
    rw [parse_words (by unfold Word; decide) hw, if_pos rfl] at hp
    unfold newSchema at hp
    split at hp
    · split at hp <;> cases hp
    · split at hp
      · cases hp
      · split at hp <;> cases hp
    · cases hp

/-- What a schema command exports. -/
def exported : Cmd → Option (Str × Pointer)
  | .schema _ n p => some (n, p)
  | .root _ => none

/-- C47: the exported name is the first argument, and the pointer comes from the last one. -/
theorem C47_name (pkg : Str) (args : List Str) (a t : Str) (hw : ∀ x ∈ args, Word x) (hne : ∀ x ∈ args, x ≠ [])
    (ht : args = [a] ∧ t = a ∨ args = [a, t]) : ∃ c p, Cmds.parse pkg (schemaComment args) = .ok c ∧ exported c = some (a, p) ∧
      (¬ PointerLike t → p = Pointer.newGoLoose pkg t) ∧ (PointerLike t → p = Pointer.parseLoose t) := by
  have hmk : (¬ PointerLike t → makePtr pkg t = Pointer.newGoLoose pkg t) ∧ (PointerLike t → makePtr pkg t = Pointer.parseLoose t) := by
    unfold makePtr
    by_cases h : PointerLike t
    · rw [if_pos (pointerLike_iff.2 h)]; exact ⟨fun h' => absurd h h', fun _ => rfl⟩
    · rw [if_neg (fun e => h (pointerLike_iff.1 e))]; exact ⟨fun _ => rfl, fun h' => absurd h' h⟩
  unfold schemaComment
  rw [parse_words (by unfold Word; decide) hw, if_pos rfl]
  rcases ht with ⟨rfl, rfl⟩ | rfl
  · refine ⟨_, _, by rw [newSchema, if_neg (hne _ (by simp))], rfl, hmk⟩
  · refine ⟨_, _, by rw [newSchema, if_neg (hne a (by simp)), if_neg (hne t (by simp))], rfl, hmk⟩

/-- C47: a type name exports the type of that name in the package of the comment: the pointer `go://pkg#/T`. -/
theorem C47_type_name (pkg : Str) (args : List Str) (a t : Str) (hw : ∀ x ∈ args, Word x) (hne : ∀ x ∈ args, x ≠ [])
    (ht : args = [a] ∧ t = a ∨ args = [a, t]) (hpne : pkg ≠ []) (hpkg : ∀ c ∈ pkg, ImportByte c) (hpl : ¬ PointerLike t)
    (h1 : (37 : UInt8) ∉ t) (h2 : (126 : UInt8) ∉ t) (h3 : (47 : UInt8) ∉ t) :
    ∃ c p, Cmds.parse pkg (schemaComment args) = .ok c ∧ exported c = some (a, p) ∧
      p.pkgPath = pkg ∧ p.fragment = [t] ∧ p.toStr = b!"go://" ++ pkg ++ b!"#/" ++ t := by
  obtain ⟨c, p, hc, he, hp, _⟩ := C47_name pkg args a t hw hne ht
  obtain ⟨q, hq, q1, q2, q3⟩ := C06_newGo pkg t hpne hpkg h1 h2 h3
  have : Pointer.newGoLoose pkg t = q := parseLoose_ok hq
  rw [hp hpl, this] at he
  exact ⟨c, q, hc, he, q1, q2, q3⟩

/-- C47: an argument written as a pointer exports exactly that pointer. -/
theorem C47_pointer (pkg : Str) (args : List Str) (a t : Str) (hw : ∀ x ∈ args, Word x) (hne : ∀ x ∈ args, x ≠ [])
    (ht : args = [a] ∧ t = a ∨ args = [a, t]) (hpl : PointerLike t) (p : Pointer) (hp : Pointer.parse t = .ok p) :
    ∃ c, Cmds.parse pkg (schemaComment args) = .ok c ∧ exported c = some (a, p) := by
  obtain ⟨c, q, hc, he, _, hq⟩ := C47_name pkg args a t hw hne ht
  rw [hq hpl, parseLoose_ok hp] at he
  exact ⟨c, hc, he⟩

/-- C47: a malformed pointer is not reported: the command is accepted with a pointer that has no fragment. -/
theorem C47_bad_pointer_accepted (pkg : Str) (args : List Str) (a t : Str) (hw : ∀ x ∈ args, Word x) (hne : ∀ x ∈ args, x ≠ [])
    (ht : args = [a] ∧ t = a ∨ args = [a, t]) (hpl : PointerLike t) (e : Err) (hp : Pointer.parse t = .err e) :
    ∃ c p, Cmds.parse pkg (schemaComment args) = .ok c ∧ exported c = some (a, p) ∧ p.fragment = [] := by
  obtain ⟨c, q, hc, he, _, hq⟩ := C47_name pkg args a t hw hne ht
  exact ⟨c, q, hc, he, by rw [hq hpl]; exact parseLoose_err hp⟩

/-- C47: other commands: no word or `:root` is the root command, whatever its arguments; any other word is an error. -/
theorem C47_other_commands (pkg c : Str) (args : List Str) (hc : Word c) (hw : ∀ x ∈ args, Word x) (hs : c ≠ b!":schema") :
    ((c = [] ∨ c = b!":root") → Cmds.parse pkg (Str.join 32 (c :: args)) = .ok (.root args)) ∧
    (¬ (c = [] ∨ c = b!":root") → ∃ e, Cmds.parse pkg (Str.join 32 (c :: args)) = .err e) := by
  rw [parse_words hc hw, if_neg hs]
  constructor
  · intro h; rw [if_pos h]
  · intro h; rw [if_neg h]; exact ⟨_, rfl⟩

example : commentText b!"//openapi:schema Foo  \n" = some b!":schema Foo" := by decide
example : commentText b!"// openapi:schema Foo" = none := by decide
example : schemaComment [b!"Foo"] = b!":schema Foo" ∧ Word b!"Foo" ∧ ¬ PointerLike b!"Foo" := by
  refine ⟨by decide, by unfold Word; decide, fun h => ?_⟩
  have := pointerLike_iff.2 h
  revert this; decide
example : ∃ c p, Cmds.parse b!"a.b/c" b!":schema Bar Foo" = .ok c ∧ exported c = some (b!"Bar", p) ∧
    p.toStr = b!"go://a.b/c#/Foo" := ⟨_, _, rfl, rfl, by decide⟩
example : PointerLike b!"go://x#y" ∧ Pointer.parse b!"go://x#y" = .err .syntaxErr := ⟨pointerLike_iff.1 (by decide), by decide⟩
example : Cmds.parse b!"p" b!":schema A B C" = .err .syntaxErr := by decide
example : Cmds.parse b!"p" b!":schema" = .err .syntaxErr := by decide
example : Cmds.parse b!"p" b!":schema  A" = .err .syntaxErr := by decide

/-- The commands written in the comments of a package, in order. -/
def commandTexts (groups : List (List Str)) : List Str := groups.flatten.filterMap commentText

theorem groups_texts (groups : List (List Str)) : groups.flatMap parseGroup = commandTexts groups := by
  unfold commandTexts parseGroup
  induction groups with
  | nil => rfl
  | cons g t ih => rw [List.flatMap_cons, ih, List.flatten_cons, List.filterMap_append]

theorem parse_no_panic (pkg c : Str) : Cmds.parse pkg c ≠ .panic := by
  unfold Cmds.parse
  split
  · nofun
  · simp only
    split
    · unfold newSchema
      repeat' split
      all_goals nofun
    · split <;> nofun

theorem parseAll_ok {pkg : Str} : ∀ {l : List Str} {cs : List Cmd}, parseAll pkg l = .ok cs ↔
    cs.length = l.length ∧ ∀ i (h : i < l.length) (h' : i < cs.length), Cmds.parse pkg l[i] = .ok cs[i]
  | [], cs => by
    constructor
    · intro h; cases h; exact ⟨rfl, fun i h => absurd h (Nat.not_lt_zero i)⟩
    · rintro ⟨h, -⟩; rw [List.length_eq_zero_iff.1 h]; rfl
  | c :: t, cs => by
    constructor
    · intro h
      unfold parseAll at h
      split at h
      · cases h
      · cases h
      · rename_i x hx
        split at h
        · cases h
        · cases h
        · rename_i xs hxs
          cases h
          obtain ⟨h1, h2⟩ := parseAll_ok.1 hxs
          refine ⟨by simp [h1], ?_⟩
          intro i hi hi'
          cases i with
          | zero => exact hx
          | succ i => exact h2 i (by simpa using hi) (by simpa using hi')
    · rintro ⟨h1, h2⟩
      cases cs with
      | nil => simp at h1
      | cons x xs =>
        have hx := h2 0 (by simp) (by simp)
        have hxs : parseAll pkg t = .ok xs := parseAll_ok.2 ⟨by simpa using h1, fun i hi hi' => h2 (i + 1) (by simpa using hi) (by simpa using hi')⟩
        simp only [List.getElem_cons_zero] at hx
        unfold parseAll
        rw [hx]
        simp only
        rw [hxs]

theorem parseAll_err {pkg : Str} : ∀ {l : List Str}, (∃ c ∈ l, ∀ x, Cmds.parse pkg c ≠ .ok x) → ∃ e, parseAll pkg l = .err e
  | [], h => by obtain ⟨_, h, _⟩ := h; cases h
  | c :: t, h => by
    unfold parseAll
    split
    · exact ⟨_, rfl⟩
    · rename_i hp; exact absurd hp (parse_no_panic pkg c)
    · rename_i x hx
      obtain ⟨c', hc, hn⟩ := h
      rcases List.mem_cons.1 hc with rfl | hc
      · exact absurd hx (hn x)
      · obtain ⟨e, he⟩ := parseAll_err ⟨c', hc, hn⟩
        rw [he]
        exact ⟨e, rfl⟩

/-- C47: scanning a package reads every command in its comments, in order: one result per command. -/
theorem C47_package (pkg : Str) (groups : List (List Str)) (cs : List Cmd) : Cmds.scan pkg groups = .ok cs ↔
    cs.length = (commandTexts groups).length ∧
    ∀ i (h : i < (commandTexts groups).length) (h' : i < cs.length), Cmds.parse pkg (commandTexts groups)[i] = .ok cs[i] := by
  unfold Cmds.scan
  rw [groups_texts]
  exact parseAll_ok

/-- C47: one malformed command anywhere in the comments makes the package fail. -/
theorem C47_package_fails (pkg : Str) (groups : List (List Str)) (c : Str) (hc : c ∈ commandTexts groups)
    (h : ∀ x, Cmds.parse pkg c ≠ .ok x) : ∃ e, Cmds.scan pkg groups = .err e := by
  unfold Cmds.scan
  rw [groups_texts]
  exact parseAll_err ⟨c, hc, h⟩

example : commandTexts [[b!"//openapi:schema User", b!"// a user"], [b!"//openapi:schema"]] = [b!":schema User", b!":schema"] := by decide
example : Cmds.scan b!"m/a" [[b!"//openapi:schema User", b!"// a user"], [b!"//openapi:schema"]] = .err .syntaxErr := by decide
example : Cmds.scan b!"m/a" [[b!"//openapi:schema User", b!"// a user"], [b!"//openapi:root"]] =
    .ok [.schema [b!"User"] b!"User" (Pointer.newGoLoose b!"m/a" b!"User"), .root []] := by decide

/-! ### C48 -/

/-- All schema commands of all packages, with their names and pointers. -/
def allSchemas (cmds : List (Str × List Cmd)) : List (Str × Pointer) := schemaPtrs (cmds.flatMap Prod.snd)

theorem exportedComponents_eq (cmds : List (Str × List Cmd)) :
    exportedComponents cmds = if ((allSchemas cmds).map fun t => t.2.toStr).Nodup
      then .ok ((allSchemas cmds).map fun t => ⟨.schema, t.1, t.2⟩) else .err .duplicate := by
  unfold exportedComponents allSchemas
  rw [exportLoop_spec _ [] (by simp)]
  simp

/-- C48: the export fails exactly if two of the schema commands, at different places of any packages, have the same pointer
string. -/
theorem C48_fails_iff (cmds : List (Str × List Cmd)) :
    (∃ e, exportedComponents cmds = .err e) ↔
      ∃ (i j : Nat) (s t : Str × Pointer), i < j ∧ (allSchemas cmds)[i]? = some s ∧ (allSchemas cmds)[j]? = some t ∧
        s.2.toStr = t.2.toStr := by
  rw [exportedComponents_eq]
  have hiff : ((allSchemas cmds).map fun t => t.2.toStr).Nodup ↔
      ¬ ∃ (i j : Nat) (s t : Str × Pointer), i < j ∧ (allSchemas cmds)[i]? = some s ∧ (allSchemas cmds)[j]? = some t ∧
        s.2.toStr = t.2.toStr := by
    rw [List.Nodup, List.pairwise_iff_getElem]
    constructor
    · rintro h ⟨i, j, s, t, hij, hi, hj, e⟩
      obtain ⟨hi', hi⟩ := List.getElem?_eq_some_iff.1 hi
      obtain ⟨hj', hj⟩ := List.getElem?_eq_some_iff.1 hj
      exact h i j (by simpa using hi') (by simpa using hj') hij (by simp [hi, hj, e])
    · intro h i j hi hj hij e
      rw [List.length_map] at hi hj
      exact h ⟨i, j, _, _, hij, List.getElem?_eq_getElem hi, List.getElem?_eq_getElem hj, by simpa using e⟩
  by_cases h : ((allSchemas cmds).map fun t => t.2.toStr).Nodup
  · rw [if_pos h]
    exact ⟨fun ⟨e, he⟩ => (by cases he), fun hx => absurd hx (hiff.1 h)⟩
  · rw [if_neg h]
    refine ⟨fun _ => ?_, fun _ => ⟨_, rfl⟩⟩
    exact Classical.byContradiction fun hx => h (hiff.2 hx)

/-- C48: if it succeeds there is one schema export per schema command, in order. -/
theorem C48_one_export_per_command (cmds : List (Str × List Cmd)) (exp : List Resolver.Export) (h : exportedComponents cmds = .ok exp) :
    exp.map (fun e => (e.name, e.ptr)) = allSchemas cmds ∧ ∀ e ∈ exp, e.kind = .schema := by
  rw [exportedComponents_eq] at h
  split at h
  · cases h
    refine ⟨?_, ?_⟩
    · rw [List.map_map]
      conv => rhs; rw [← List.map_id (allSchemas cmds)]
      exact List.map_congr_left fun _ _ => rfl
    · intro e he
      obtain ⟨t, _, rfl⟩ := List.mem_map.1 he
      rfl
  · cases h

/-- C48: no crash. -/
theorem C48_no_panic (cmds : List (Str × List Cmd)) : exportedComponents cmds ≠ .panic := by
  rw [exportedComponents_eq]; split <;> simp

/-- C48: whatever the iteration order of the map of packages, the outcome is the same: both fail, or both succeed with the
same exports up to order, and no two exports with the same pointer string, so that lookups agree. -/
theorem C48_order_independent (c₁ c₂ : List (Str × List Cmd)) (hp : c₁.Perm c₂) :
    (∀ e₁, exportedComponents c₁ = .ok e₁ → ∃ e₂, exportedComponents c₂ = .ok e₂ ∧ e₁.Perm e₂ ∧
      ∀ p, Resolver.get e₁ p = Resolver.get e₂ p) := by
  intro e₁ h₁
  have hperm : (allSchemas c₁).Perm (allSchemas c₂) := (hp.flatMap_right _).filterMap _
  rw [exportedComponents_eq] at h₁ ⊢
  split at h₁
  · rename_i hn
    have hn₂ := (hperm.map fun t => t.2.toStr).nodup_iff.1 hn
    rw [if_pos hn₂]
    cases h₁
    refine ⟨_, rfl, hperm.map _, ?_⟩
    intro p
    have key : ∀ (l₁ l₂ : List Resolver.Export), l₁.Perm l₂ → (l₁.map fun e => e.ptr.toStr).Nodup → ∀ x, Resolver.get l₁ p = some x →
        Resolver.get l₂ p = some x := by
      intro l₁ l₂ hl hnd x hx
      obtain ⟨hm, he⟩ := Resolver.get_mem hx
      have hnd₂ := (hl.map fun e => e.ptr.toStr).nodup_iff.1 hnd
      have hm₂ := hl.mem_iff.1 hm
      cases hg : Resolver.get l₂ p with
      | none => exact absurd he (get_none.1 hg x hm₂)
      | some y =>
        obtain ⟨hy, hye⟩ := Resolver.get_mem hg
        obtain ⟨i, hi, hxi⟩ := List.getElem_of_mem hm₂
        obtain ⟨j, hj, hyj⟩ := List.getElem_of_mem hy
        have : i = j := by
          have hpw := List.pairwise_iff_getElem.1 hnd₂
          rcases Nat.lt_trichotomy i j with hlt | heq | hgt
          · exact (hpw i j (by simpa using hi) (by simpa using hj) hlt (by simp [hxi, hyj, he, hye])).elim
          · exact heq
          · exact (hpw j i (by simpa using hj) (by simpa using hi) hgt (by simp [hxi, hyj, he, hye])).elim
        subst this
        rw [← hxi, ← hyj]
    have hmap : ∀ (l : List (Str × Pointer)), (List.map (fun e => e.ptr.toStr) (l.map fun t => (⟨.schema, t.1, t.2⟩ : Resolver.Export))) =
        l.map fun t => t.2.toStr := by
      intro l; rw [List.map_map]; rfl
    cases ha : Resolver.get ((allSchemas c₁).map fun t => (⟨.schema, t.1, t.2⟩ : Resolver.Export)) p with
    | some x => rw [key _ _ (hperm.map _) (by rw [hmap]; exact hn) x ha]
    | none =>
      cases hb : Resolver.get ((allSchemas c₂).map fun t => (⟨.schema, t.1, t.2⟩ : Resolver.Export)) p with
      | none => rfl
      | some y => rw [key _ _ (hperm.symm.map _) (by rw [hmap]; exact hn₂) y hb] at ha; cases ha
  · cases h₁

/-- C48: a package's root commands do not matter. -/
theorem C48_root_commands_ignored (pre post : List (Str × List Cmd)) (pkg : Str) (l₁ l₂ : List Cmd) (args : List Str) :
    exportedComponents (pre ++ (pkg, l₁ ++ .root args :: l₂) :: post) = exportedComponents (pre ++ (pkg, l₁ ++ l₂) :: post) := by
  rw [exportedComponents_eq, exportedComponents_eq]
  have : allSchemas (pre ++ (pkg, l₁ ++ .root args :: l₂) :: post) = allSchemas (pre ++ (pkg, l₁ ++ l₂) :: post) := by
    simp [allSchemas, schemaPtrs]
  rw [this]

theorem get_mem_pointers {k : Str} {p : Pointer} {m : Pointers} (h : Pointers.get k m = some p) : (k, p) ∈ m := by
  induction m with
  | nil => cases h
  | cons e t ih =>
    obtain ⟨k', v⟩ := e
    simp only [Pointers.get] at h
    split at h
    · rename_i hk; cases h; subst hk; exact List.mem_cons_self ..
    · exact List.mem_cons_of_mem _ (ih h)

theorem mem_get_pointers {k : Str} {p : Pointer} {m : Pointers} (h : (k, p) ∈ m) : ∃ q, Pointers.get k m = some q := by
  induction m with
  | nil => cases h
  | cons e t ih =>
    obtain ⟨k', v⟩ := e
    simp only [Pointers.get]
    by_cases hk : k = k'
    · rw [if_pos hk]; exact ⟨_, rfl⟩
    · rw [if_neg hk]
      rcases List.mem_cons.1 h with h | h
      · cases h; exact absurd rfl hk
      · exact ih h

theorem copyInto_sound {k : Str} {p : Pointer} : ∀ (src dst : Pointers), Pointers.get k (Pointers.copyInto dst src) = some p →
    (k, p) ∈ src ∨ Pointers.get k dst = some p := by
  intro src
  induction src with
  | nil => intro dst h; exact Or.inr h
  | cons e t ih =>
    intro dst h
    obtain ⟨k', v⟩ := e
    rcases ih _ h with h | h
    · exact Or.inl (List.mem_cons_of_mem _ h)
    · rw [Pointers.get_put] at h
      split at h
      · rename_i hk; cases h; subst hk; exact Or.inl (List.mem_cons_self ..)
      · exact Or.inr h

theorem copyInto_total {k : Str} : ∀ (src dst : Pointers), ((∃ p, (k, p) ∈ src) ∨ ∃ p, Pointers.get k dst = some p) →
    ∃ p, Pointers.get k (Pointers.copyInto dst src) = some p := by
  intro src
  induction src with
  | nil => rintro dst (⟨p, h⟩ | h); cases h; exact h
  | cons e t ih =>
    rintro dst h
    obtain ⟨k', v⟩ := e
    refine ih _ ?_
    rcases h with ⟨p, h⟩ | ⟨p, h⟩
    · rcases List.mem_cons.1 h with h | h
      · cases h; exact Or.inr ⟨v, by rw [Pointers.get_put, if_pos rfl]⟩
      · exact Or.inl ⟨p, h⟩
    · refine Or.inr ?_
      rw [Pointers.get_put]
      split
      · exact ⟨_, rfl⟩
      · exact ⟨_, h⟩

theorem listPointers_sound {k : Str} {p : Pointer} : ∀ (l : List Cmd) (x : Pointers), Pointers.get k (listPointers l x) = some p →
    (k = p.toStr ∧ ∃ args name, Cmd.schema args name p ∈ l) ∨ Pointers.get k x = some p := by
  intro l
  induction l with
  | nil => intro x h; exact Or.inr h
  | cons c t ih =>
    intro x h
    cases c with
    | root a =>
      rcases ih _ h with ⟨h1, a', n, h2⟩ | h
      · exact Or.inl ⟨h1, a', n, List.mem_cons_of_mem _ h2⟩
      · exact Or.inr h
    | schema a n q =>
      rcases ih _ h with ⟨h1, a', n', h2⟩ | h
      · exact Or.inl ⟨h1, a', n', List.mem_cons_of_mem _ h2⟩
      · rw [Pointers.get_put] at h
        split at h
        · rename_i hk; cases h; exact Or.inl ⟨hk, a, n, List.mem_cons_self ..⟩
        · exact Or.inr h

theorem listPointers_total {k : Str} : ∀ (l : List Cmd) (x : Pointers),
    ((∃ args name p, Cmd.schema args name p ∈ l ∧ k = p.toStr) ∨ ∃ p, Pointers.get k x = some p) →
    ∃ p, Pointers.get k (listPointers l x) = some p := by
  intro l
  induction l with
  | nil => rintro x (⟨a, n, p, h, _⟩ | h); cases h; exact h
  | cons c t ih =>
    rintro x h
    cases c with
    | root a =>
      refine ih _ ?_
      rcases h with ⟨a', n, p, h, hk⟩ | h
      · rcases List.mem_cons.1 h with h | h
        · cases h
        · exact Or.inl ⟨a', n, p, h, hk⟩
      · exact Or.inr h
    | schema a n q =>
      refine ih _ ?_
      rcases h with ⟨a', n', p, h, hk⟩ | ⟨p, h⟩
      · rcases List.mem_cons.1 h with h | h
        · cases h; exact Or.inr ⟨q, by rw [Pointers.get_put, if_pos hk]⟩
        · exact Or.inl ⟨a', n', p, h, hk⟩
      · refine Or.inr ?_
        rw [Pointers.get_put]
        split
        · exact ⟨_, rfl⟩
        · exact ⟨_, h⟩

theorem mapPointers_sound {k : Str} {p : Pointer} : ∀ (cmds : List (Str × List Cmd)) (x : Pointers),
    Pointers.get k (mapPointers cmds x) = some p →
    (k = p.toStr ∧ ∃ e ∈ cmds, ∃ args name, Cmd.schema args name p ∈ e.2) ∨ (k, p) ∈ x := by
  intro cmds
  induction cmds with
  | nil => intro x h; exact Or.inr (get_mem_pointers h)
  | cons e t ih =>
    intro x h
    obtain ⟨pkg, l⟩ := e
    rcases ih _ h with ⟨h1, e', h2, a', n, h3⟩ | h
    · exact Or.inl ⟨h1, e', List.mem_cons_of_mem _ h2, a', n, h3⟩
    · have hsrc : ∀ (src dst : Pointers), (k, p) ∈ Pointers.copyInto dst src → (k, p) ∈ src ∨ (k, p) ∈ dst := by
        have hput : ∀ (k' : Str) (v : Pointer) (m : Pointers), (k, p) ∈ Pointers.put k' v m → (k, p) = (k', v) ∨ (k, p) ∈ m := by
          intro k' v m
          induction m with
          | nil => intro h; exact Or.inl (by simpa [Pointers.put] using h)
          | cons e t ih =>
            intro h
            obtain ⟨k2, v2⟩ := e
            simp only [Pointers.put] at h
            split at h
            · rcases List.mem_cons.1 h with h | h
              · exact Or.inl h
              · exact Or.inr (List.mem_cons_of_mem _ h)
            · rcases List.mem_cons.1 h with h | h
              · exact Or.inr (by rw [h]; exact List.mem_cons_self ..)
              · rcases ih h with h | h
                · exact Or.inl h
                · exact Or.inr (List.mem_cons_of_mem _ h)
        intro src
        induction src with
        | nil => intro dst h; exact Or.inr h
        | cons e t ih =>
          intro dst h
          obtain ⟨k', v⟩ := e
          rcases ih _ h with h | h
          · exact Or.inl (List.mem_cons_of_mem _ h)
          · rcases hput _ _ _ h with h | h
            · exact Or.inl (by rw [h]; exact List.mem_cons_self ..)
            · exact Or.inr h
      have hlp : ∀ (l : List Cmd) (x : Pointers), (∀ e ∈ x, e.1 = e.2.toStr ∧ ∃ args name, Cmd.schema args name e.2 ∈ l) →
          ∀ (l' : List Cmd), (∀ c ∈ l', c ∈ l) → ∀ e ∈ listPointers l' x, e.1 = e.2.toStr ∧ ∃ args name, Cmd.schema args name e.2 ∈ l := by
        intro l x hx l'
        induction l' generalizing x with
        | nil => intro _ e he; exact hx e he
        | cons c t ih =>
          intro hl e he
          cases c with
          | root a => exact ih x hx (fun c hc => hl c (List.mem_cons_of_mem _ hc)) e he
          | schema a n q =>
            refine ih _ ?_ (fun c hc => hl c (List.mem_cons_of_mem _ hc)) e he
            intro e' he'
            have hput : ∀ (m : Pointers), (∀ e ∈ m, e.1 = e.2.toStr ∧ ∃ args name, Cmd.schema args name e.2 ∈ l) →
                ∀ e ∈ Pointers.put q.toStr q m, e.1 = e.2.toStr ∧ ∃ args name, Cmd.schema args name e.2 ∈ l := by
              intro m
              induction m with
              | nil =>
                intro _ e he
                rw [List.mem_singleton.1 he]
                exact ⟨rfl, a, n, hl _ (List.mem_cons_self ..)⟩
              | cons e₀ t ih =>
                intro hm e he
                obtain ⟨k2, v2⟩ := e₀
                simp only [Pointers.put] at he
                split at he
                · rcases List.mem_cons.1 he with h | h
                  · rw [h]; exact ⟨rfl, a, n, hl _ (List.mem_cons_self ..)⟩
                  · exact hm e (List.mem_cons_of_mem _ h)
                · rcases List.mem_cons.1 he with h | h
                  · rw [h]; exact hm _ (List.mem_cons_self ..)
                  · exact ih (fun e he => hm e (List.mem_cons_of_mem _ he)) e h
            exact hput x hx e' he'
      rcases hsrc _ _ h with h | h
      · obtain ⟨h1, a, n, h2⟩ := hlp l [] (fun e he => (by cases he)) l (fun _ hc => hc) _ h
        exact Or.inl ⟨h1, _, List.mem_cons_self .., a, n, h2⟩
      · rcases hsrc _ _ h with h | h
        · exact Or.inr h
        · cases h

theorem mapPointers_total {k : Str} : ∀ (cmds : List (Str × List Cmd)) (x : Pointers),
    ((∃ e ∈ cmds, ∃ args name p, Cmd.schema args name p ∈ e.2 ∧ k = p.toStr) ∨ ∃ p, Pointers.get k x = some p) →
    ∃ p, Pointers.get k (mapPointers cmds x) = some p := by
  intro cmds
  induction cmds with
  | nil => rintro x (⟨e, h, _⟩ | h); cases h; exact h
  | cons e t ih =>
    rintro x h
    obtain ⟨pkg, l⟩ := e
    refine ih _ ?_
    rcases h with ⟨e', h, h2⟩ | ⟨p, h⟩
    · rcases List.mem_cons.1 h with h | h
      · cases h
        right
        obtain ⟨q, hq⟩ := listPointers_total (k := k) l [] (Or.inl h2)
        exact copyInto_total _ _ (Or.inl ⟨q, get_mem_pointers hq⟩)
      · exact Or.inl ⟨e', h, h2⟩
    · right
      refine copyInto_total _ _ (Or.inr ?_)
      exact copyInto_total _ _ (Or.inl ⟨p, get_mem_pointers h⟩)

/-- C48: the pointers the commands contribute to the scan for types are those of the schema commands of all packages, each
listed under its own text: nothing else is listed, and none is missing. -/
theorem C48_pointers (cmds : List (Str × List Cmd)) (k : Str) :
    (∀ p, Pointers.get k (mapPointers cmds []) = some p →
      k = p.toStr ∧ ∃ pkg l, (pkg, l) ∈ cmds ∧ ∃ args name, Cmd.schema args name p ∈ l) ∧
    ∀ pkg l args name p, (pkg, l) ∈ cmds → Cmd.schema args name p ∈ l →
      ∃ q, Pointers.get p.toStr (mapPointers cmds []) = some q ∧ q.toStr = p.toStr := by
  refine ⟨fun p h => ?_, fun pkg l args name p h1 h2 => ?_⟩
  · rcases mapPointers_sound _ _ h with ⟨h1, ⟨pkg, l⟩, h2, a, n, h3⟩ | h
    · exact ⟨h1, pkg, l, h2, a, n, h3⟩
    · cases h
  · obtain ⟨q, hq⟩ := mapPointers_total (k := p.toStr) cmds [] (Or.inl ⟨_, h1, args, name, p, h2, rfl⟩)
    refine ⟨q, hq, ?_⟩
    rcases mapPointers_sound _ _ hq with ⟨h1, _⟩ | h
    · exact h1.symm
    · cases h

example : let p := Pointer.newGoLoose b!"a" b!"T"
    Pointers.get p.toStr (mapPointers [(b!"a", [.root [], .schema [b!"T"] b!"U" p])] []) = some p := by decide

example : let p := Pointer.newGoLoose b!"a" b!"T"
    exportedComponents [(b!"a", [.root [], .schema [b!"T"] b!"T" p]), (b!"b", [.schema [b!"U"] b!"U" p])] = .err .duplicate := by decide
example : let p := Pointer.newGoLoose b!"a" b!"T"
    let q := Pointer.newGoLoose b!"b" b!"T"
    exportedComponents [(b!"a", [.root [], .schema [b!"T"] b!"T" p]), (b!"b", [.schema [b!"T"] b!"T" q])] =
      .ok [⟨.schema, b!"T", p⟩, ⟨.schema, b!"T", q⟩] := by decide

end Oapi.Props
