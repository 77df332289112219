import Verif.Proofs.Load
import Verif.Props.SpecJson
import Verif.Props.Main
import Verif.Props.SchemaJson
import Verif.Proofs.Det8

/- C91, C92: what the tool takes from a configuration document. -/
namespace Oapi.Props
open Oapi.SpecJson Oapi.Load Spec.SpecJson Spec.Load

variable {env : Env} {load : Str → Res Json} {file : Str} {o : Obj}

theorem read_ok (hr : Cli.readDoc load file = .ok (.obj o)) (hl : (readFile env load file).2 = true) :
    (unmarshal env (.obj o)).2 = .ok ∧ (readFile env load file).1 = toConfig env (unmarshal env (.obj o)).1 file := by
  unfold readFile at hl ⊢
  rw [hr] at hl ⊢
  simp only at hl ⊢
  by_cases h : (unmarshal env (.obj o)).2 = .ok
  · rw [if_pos h]; exact ⟨h, rfl⟩
  · rw [if_neg h] at hl; cases hl

theorem read_config (hr : Cli.readDoc load file = .ok (.obj o)) :
    ∃ p, (readFile env load file).1 = toConfig env (unmarshal env (.obj o)).1 p := by
  unfold readFile
  rw [hr]
  simp only
  split
  · exact ⟨_, rfl⟩
  · exact ⟨_, rfl⟩

/-- **C91** (settings): without an error the configuration has the texts the document says, the empty text where it says nothing. -/
theorem C91_settings (hr : Cli.readDoc load file = .ok (.obj o)) (hw : (Json.obj o).WF) (ht : NoTwins configMembers o)
    (hl : (readFile env load file).2 = true) :
    let c := (readFile env load file).1
    c.base.filePath = file ∧ Says o b!"dir" c.base.dir ∧ Says o b!"format" c.base.format ∧ Says o b!"output" c.base.output ∧
    Says o b!"extends" c.extends_ ∧ Says o b!"version" c.version ∧ Says o b!"openapi" c.openapi := by
  obtain ⟨hok, e⟩ := read_ok hr hl
  have hs := ((Json.WF_obj o).1 hw).1
  intro c
  have hc : c = toConfig env (unmarshal env (.obj o)).1 file := e
  rw [hc]
  exact ⟨rfl, text_says hs ht hok (by decide), text_says hs ht hok (by decide), text_says hs ht hok (by decide),
    text_says hs ht hok (by decide), text_says hs ht hok (by decide), text_says hs ht hok (by decide)⟩

theorem list_texts (xs : List Json) (h : ∀ x ∈ xs, (decode env .text (.text []) x).2 = .ok) (i : Nat) (x : Json) (hx : xs[i]? = some x) :
    (x = .null ∧ ((xs.map fun x => (decode env .text (.text []) x).1).map textOf)[i]? = some []) ∨
    ∃ s, x = .str s ∧ ((xs.map fun x => (decode env .text (.text []) x).1).map textOf)[i]? = some s := by
  have hok := h x (List.mem_of_getElem? hx)
  rw [List.getElem?_map, List.getElem?_map, hx]
  cases x with
  | null => exact .inl ⟨rfl, rfl⟩
  | str s => exact .inr ⟨s, rfl, rfl⟩
  | bool b => exact absurd hok (by change St.saved ≠ _; nofun)
  | num b => exact absurd hok (by change St.saved ≠ _; nofun)
  | arr b => exact absurd hok (by change St.saved ≠ _; nofun)
  | obj b => exact absurd hok (by change St.saved ≠ _; nofun)

/-- **C91** (list): the excluded packages are the texts of the list. -/
theorem C91_exclude (hr : Cli.readDoc load file = .ok (.obj o)) (hw : (Json.obj o).WF) (ht : NoTwins configMembers o)
    (hl : (readFile env load file).2 = true) :
    let c := (readFile env load file).1
    (given o b!"exclude" = none ∨ given o b!"exclude" = some .null → c.exclude = []) ∧
    ∀ xs, given o b!"exclude" = some (.arr xs) → c.exclude.length = xs.length ∧
      ∀ (i : Nat) x, xs[i]? = some x → (x = .null ∧ c.exclude[i]? = some []) ∨ ∃ s, x = .str s ∧ c.exclude[i]? = some s := by
  obtain ⟨hok, e⟩ := read_ok hr hl
  have hs := ((Json.WF_obj o).1 hw).1
  intro c
  have hc : c.exclude = (elems ((unmarshal env (.obj o)).1 b!"exclude")).map textOf := congrArg (·.exclude) e
  rw [hc]
  obtain ⟨v1, v2⟩ := cfg_get (m := b!"exclude") (k := .list .text) hs ht (by rw [hok]; nofun) ⟨false, by decide⟩
  refine ⟨fun h => ?_, fun xs hg => ?_⟩
  · rcases h with h | h
    · rw [v1 h]; rfl
    · rw [v2 _ h]; rfl
  · have hx := (cfg_ok hs ht).1 hok b!"exclude" (.list .text) _ (by decide) hg
    have hx' : (decodeList env .text [] xs).2 = .ok := hx
    obtain ⟨l1, l2⟩ := decodeList_spec env .text xs
    have e1 : elems ((unmarshal env (.obj o)).1 b!"exclude") = xs.map fun x => (decode env .text (.text []) x).1 := by
      rw [v2 _ hg]
      exact l2 hx'
    rw [e1]
    refine ⟨by simp, fun i x hi => list_texts xs (l1.1 hx') i x hi⟩

/-- What the part of a configuration is worth. -/
theorem part_value {k : Kind} {x z : Json} (hw : x.WF) (hp : Passes (around env) k x z) :
    part env (decode env (toTy k) (zero (toTy k)) x).1 = if blank k x = true then none else some z := by
  obtain ⟨v, hd, he⟩ := sound hp hw
  have hb := empty_blank hw hd
  rw [hd]
  simp only [part, hb, he]

theorem part_zero (k : Kind) : part env (zero0 (toTy k)) = none := by simp [part, empty_zero]

theorem section_field : (sections.all fun e => (fields .config).any fun f => decide (f.name = e.1) && decide (f.ty = toTy e.2)) = true := by decide

theorem section_part (hw : (Json.obj o).WF) (ht : NoTwins configMembers o) (h : (unmarshal env (.obj o)).2 ≠ .abort) {m : Str} {k : Kind} (hm : (m, k) ∈ sections) :
    (given o m = none → (unmarshal env (.obj o)).1 m = zero0 (toTy k)) ∧
    ∀ x, given o m = some x → (unmarshal env (.obj o)).1 m = (decode env (toTy k) (zero (toTy k)) x).1 := by
  refine cfg_get ((Json.WF_obj o).1 hw).1 ht h ?_
  obtain ⟨⟨n, b, t⟩, hf, h⟩ := List.any_eq_true.1 (List.all_eq_true.1 section_field _ hm)
  simp only [Bool.and_eq_true, decide_eq_true_eq] at h
  exact ⟨b, by rw [← h.1, ← h.2]; exact hf⟩

theorem rootKeys_nodup : ([b!"components", b!"externalDocs", b!"info", b!"security", b!"servers", b!"tags"] : List Str).Nodup := by decide

theorem section_mem {m : Str} : (∃ k, (m, k) ∈ sections) ↔ m ∈ rootMembers := by
  have e : rootMembers = sections.map Prod.fst := rfl
  rw [e, List.mem_map]
  constructor
  · rintro ⟨k, h⟩; exact ⟨_, h, rfl⟩
  · rintro ⟨⟨m', k⟩, h, rfl⟩; exact ⟨k, h⟩

/-- The members of the root document. -/
theorem rootOf_lookup (g : Str → Val) (p : Str) : ∃ o', Main.rootOf (toConfig env g p) = .obj o' ∧ Obj.Sorted o' ∧
    ∀ m, Obj.lookup m o' = if m ∈ rootMembers then part env (g m) else none := by
  have hfst : ([b!"components", b!"externalDocs", b!"info", b!"security", b!"servers", b!"tags"] : List Str).Pairwise fun a b => Str.lt a b = true := by decide
  refine ⟨_, rfl, Scan.present_sorted hfst, fun m => ?_⟩
  split
  · rename_i hm
    rw [lookup_present (by exact rootKeys_nodup)]
    simp only [rootMembers, List.mem_cons, List.not_mem_nil, or_false] at hm
    rcases hm with rfl | rfl | rfl | rfl | rfl | rfl <;> rfl
  · rename_i hm
    refine present_missing fun h => hm ?_
    simp only [List.map_cons, List.map_nil, List.mem_cons, List.not_mem_nil, or_false] at h
    rcases h with rfl | rfl | rfl | rfl | rfl | rfl <;> decide

/-- **C91** (root document): the root document the tool merges into has the sections the configuration gives, read and written as in C89,
and nothing else; sections that say nothing are left out. -/
theorem C91_root (hr : Cli.readDoc load file = .ok (.obj o)) (hw : (Json.obj o).WF) (ht : NoTwins configMembers o)
    (hl : (readFile env load file).2 = true) :
    ∃ o', Main.rootOf (readFile env load file).1 = .obj o' ∧ Obj.Sorted o' ∧
      (∀ m k, (m, k) ∈ sections → SaysSection (around env) o m k (Obj.lookup m o')) ∧
      ∀ m, (∀ k, (m, k) ∉ sections) → Obj.lookup m o' = none := by
  obtain ⟨hok, e⟩ := read_ok hr hl
  have hsec : ∀ m k, (m, k) ∈ sections → SaysSection (around env) o m k (part env ((unmarshal env (.obj o)).1 m)) := by
    intro m k hm
    obtain ⟨v1, v2⟩ := section_part hw ht (by rw [hok]; nofun) hm
    refine ⟨fun hg => by rw [v1 hg, part_zero], fun x z hg hp => ?_⟩
    rw [v2 x hg, part_value (given_WF hw hg) hp]
  obtain ⟨o', h1, h2, h3⟩ := rootOf_lookup (env := env) (unmarshal env (.obj o)).1 file
  rw [e]
  refine ⟨o', h1, h2, fun m k hm => ?_, fun m hm => ?_⟩
  · rw [h3, if_pos (section_mem.1 ⟨k, hm⟩)]
    exact hsec m k hm
  · rw [h3, if_neg fun h => ?_]
    obtain ⟨k, hk⟩ := section_mem.2 h
    exact hm k hk

theorem root_fields : ((fields .openapi).all fun f => f.omitempty && (decide (f.name ∈ rootMembers) || isEmpty (newStruct .openapi f.name))) = true := by decide

/-- The struct of the root document. -/
def rootStruct (g : Str → Val) : Str → Val := fun m => if m ∈ rootMembers then g m else newStruct .openapi m

theorem root_field {m : Str} (h : m ∈ rootMembers) : ∃ f ∈ fields .openapi, f.name = m := by
  have : (rootMembers.all fun m => (fields .openapi).any fun f => decide (f.name = m)) = true := by decide
  obtain ⟨f, hf, h⟩ := List.any_eq_true.1 (List.all_eq_true.1 this m h)
  exact ⟨f, hf, by simpa using h⟩

theorem part_ok {v : Val} {j : Json} (he : encode env v = .ok j) : part env v = if isEmpty v then none else some j := by
  unfold part; rw [he]

/-- **C91** (the document the code makes): if every given section is readable and writable, the root document is encoded without error
and is the one of `C91_root`; if one is not writable, merging the root document fails. -/
theorem C91_root_encoded (hr : Cli.readDoc load file = .ok (.obj o)) (hw : (Json.obj o).WF) (ht : NoTwins configMembers o)
    (hl : (readFile env load file).2 = true) (hc : ∀ m k x, (m, k) ∈ sections → given o m = some x → Clear k x) :
    (root env (unmarshal env (.obj o)).1 = .ok (Main.rootOf (readFile env load file).1) ↔
      ∀ m k x, (m, k) ∈ sections → given o m = some x → ∃ z, Passes (around env) k x z) ∧
    ((∃ e, root env (unmarshal env (.obj o)).1 = .err e) ↔
      ¬ ∀ m k x, (m, k) ∈ sections → given o m = some x → ∃ z, Passes (around env) k x z) := by
  obtain ⟨hok, e⟩ := read_ok hr hl
  have hs := ((Json.WF_obj o).1 hw).1
  have hval : ∀ {m k x}, (m, k) ∈ sections → given o m = some x →
      decode env (toTy k) (zero (toTy k)) x = ((unmarshal env (.obj o)).1 m, .ok) := by
    intro m k x hm hg
    have h1 := (section_part hw ht (by rw [hok]; nofun) hm).2 x hg
    have h2 := (cfg_ok hs ht).1 hok m k x (by
      simp only [configMembers, List.mem_append, List.mem_cons]
      exact .inl (.inr (.inr hm))) hg
    rw [h1]
    exact Prod.ext rfl h2
  -- encoding succeeds exactly if all sections pass
  have hiff : (∃ y, root env (unmarshal env (.obj o)).1 = .ok y) ↔ ∀ m k x, (m, k) ∈ sections → given o m = some x → ∃ z, Passes (around env) k x z := by
    have e0 : root env (unmarshal env (.obj o)).1 = ((fields .openapi).foldr (encStep env (rootStruct (unmarshal env (.obj o)).1)) (.ok []) >>= fun o => .ok (.obj o)) := rfl
    constructor
    · rintro ⟨y, hy⟩ m k x hm hg
      rw [e0] at hy
      obtain ⟨o', ho', _⟩ := Res.bind_eq_ok.1 hy
      obtain ⟨_, _, h3⟩ := enc_spec env _ _ o' (fields_nodup _) ho'
      have hr := section_mem.1 ⟨k, hm⟩
      obtain ⟨f, hf, rfl⟩ := root_field hr
      have hz : ∃ z, encode env ((unmarshal env (.obj o)).1 f.name) = .ok z := by
        have e1 : rootStruct (unmarshal env (.obj o)).1 f.name = (unmarshal env (.obj o)).1 f.name := if_pos hr
        rcases h3 f hf with ⟨_, he, _⟩ | ⟨_, j, hj, _⟩
        · rw [e1] at he; exact encode_empty he
        · rw [e1] at hj; exact ⟨j, hj⟩
      obtain ⟨z, hz⟩ := hz
      exact ⟨z, complete (sizeOf x) (Nat.le_refl _) (given_WF hw hg) (hc _ _ _ hm hg) ⟨_, hval hm hg, hz⟩⟩
    · intro h
      obtain ⟨o', ho'⟩ := enc_ok env (rootStruct (unmarshal env (.obj o)).1) (fields .openapi) fun f hf => by
        by_cases hr : f.name ∈ rootMembers
        · right
          obtain ⟨k, hk⟩ := section_mem.2 hr
          have e1 : rootStruct (unmarshal env (.obj o)).1 f.name = (unmarshal env (.obj o)).1 f.name := if_pos hr
          rw [e1]
          cases hg : given o f.name with
          | none =>
            rw [(section_part hw ht (by rw [hok]; nofun) hk).1 hg]
            exact ⟨_, encode_zero env k⟩
          | some x =>
            obtain ⟨z, hz⟩ := h f.name k x hk hg
            obtain ⟨v, hd, he⟩ := sound hz (given_WF hw hg)
            rw [hval hk hg] at hd
            cases hd
            exact ⟨z, he⟩
        · left
          have := List.all_eq_true.1 root_fields f hf
          have e1 : rootStruct (unmarshal env (.obj o)).1 f.name = newStruct .openapi f.name := if_neg hr
          rw [e1]
          simpa [hr] using this
      exact ⟨.obj o', by rw [e0, ho']; rfl⟩
  have hnp : root env (unmarshal env (.obj o)).1 ≠ .panic := encode_np env _
  have heq : ∀ y, root env (unmarshal env (.obj o)).1 = .ok y → y = Main.rootOf (readFile env load file).1 := by
    intro y hy
    have e0 : root env (unmarshal env (.obj o)).1 = ((fields .openapi).foldr (encStep env (rootStruct (unmarshal env (.obj o)).1)) (.ok []) >>= fun o => .ok (.obj o)) := rfl
    rw [e0] at hy
    obtain ⟨o₁, ho₁, hy⟩ := Res.bind_eq_ok.1 hy
    cases hy
    obtain ⟨s1, s2, s3⟩ := enc_spec env _ _ o₁ (fields_nodup _) ho₁
    obtain ⟨o', h1, h2, h3⟩ := rootOf_lookup (env := env) (unmarshal env (.obj o)).1 file
    rw [e, h1]
    refine congrArg Json.obj (Obj.ext_lookup s1 h2 fun m => ?_)
    rw [h3]
    split
    · rename_i hr
      obtain ⟨f, hf, rfl⟩ := root_field hr
      have e1 : rootStruct (unmarshal env (.obj o)).1 f.name = (unmarshal env (.obj o)).1 f.name := if_pos hr
      have ho : f.omitempty = true := (by simpa using List.all_eq_true.1 root_fields f hf : _ ∧ _).1
      rcases s3 f hf with ⟨_, he, hlk⟩ | ⟨he, j, hj, hlk⟩
      · rw [hlk, part, if_pos (e1 ▸ he)]
      · rw [e1] at he hj
        rw [ho, Bool.true_and] at he
        rw [hlk, part_ok hj, he]
        rfl
    · rename_i hr
      by_cases hm : m ∈ (fields .openapi).map (·.name)
      · obtain ⟨f, hf, rfl⟩ := List.mem_map.1 hm
        have e1 : rootStruct (unmarshal env (.obj o)).1 f.name = newStruct .openapi f.name := if_neg hr
        have hE := List.all_eq_true.1 root_fields f hf
        simp only [hr, decide_false, Bool.false_or, Bool.and_eq_true] at hE
        rcases s3 f hf with ⟨_, _, hlk⟩ | ⟨he, _⟩
        · exact hlk
        · rw [e1, hE.1, hE.2] at he; cases he
      · exact s2 m hm
  constructor
  · rw [← hiff]
    constructor
    · intro h; exact ⟨_, h⟩
    · rintro ⟨y, hy⟩; rw [hy, heq y hy]
  · rw [← hiff]
    cases hR : root env (unmarshal env (.obj o)).1 with
    | ok y => simp
    | err e => simp
    | panic => exact absurd hR hnp

theorem table_entries {t : Obj} {s : Section} (hs : Obj.Sorted t) (hok : (decodeMap env (.struct (secTy s)) [] t).2 = .ok) (key : Str) :
    (table env (.map (decodeMap env (.struct (secTy s)) [] t).1)).lookup key =
      ((Obj.lookup key t).bind fun x => match encode env (decode env (.struct (secTy s)) (zero (.struct (secTy s))) x).1 with
        | .ok j => some j
        | _ => none) := by
  have h2 := (decodeMap_spec env (.struct (secTy s)) t [] hs (by simp)).2
  rw [h2 hok]
  simp only [table, entries, List.nil_append]
  have hn := Obj.sorted_nodup hs
  clear h2 hok hs
  induction t with
  | nil => rfl
  | cons e t ih =>
    obtain ⟨k, x⟩ := e
    simp only [Obj.keys_cons, List.nodup_cons] at hn
    simp only [List.map_cons, List.filterMap_cons, Obj.lookup]
    have ih := ih hn.2
    by_cases hk : key = k
    · subst hk
      have hnone : Obj.lookup key t = none := by
        cases h : Obj.lookup key t with
        | none => rfl
        | some v => exact absurd ((Obj.mem_keys_iff _ _).2 ⟨v, h⟩) hn.1
      rw [hnone] at ih
      cases he : encode env (decode env (.struct (secTy s)) (zero (.struct (secTy s))) x).1 with
      | ok j => simp [he]
      | err e => simp [he]; simpa using ih
      | panic => simp [he]; simpa using ih
    · have hk' : ¬ k = key := fun h => hk h.symm
      rw [if_neg (by simpa using hk)]
      rw [← ih]
      cases he : encode env (decode env (.struct (secTy s)) (zero (.struct (secTy s))) x).1 with
      | ok j =>
        simp only [List.lookup_cons]
        rw [show (key == k) = false by simpa using hk]
      | err e => rfl
      | panic => rfl

theorem says_table (hw : (Json.obj o).WF) (ht : NoTwins configMembers o) (hok : (unmarshal env (.obj o)).2 = .ok) {m : Str} {s : Section}
    (hm : (m, Kind.dict (.sec s)) ∈ configMembers) (hf : (⟨m, false, .map (.struct (secTy s))⟩ : Field) ∈ fields .config)
    (hz : encode env (zero (.struct (secTy s))) = .ok (.obj [])) :
    SaysTable (around env) o m s (table env ((unmarshal env (.obj o)).1 m)) := by
  have hs := ((Json.WF_obj o).1 hw).1
  obtain ⟨v1, v2⟩ := cfg_value hs ht (by rw [hok]; nofun) hf
  refine ⟨fun h => ?_, fun t hg key => ?_⟩
  · rcases h with h | h
    · rw [v1 h]; rfl
    · rw [v2 _ h]; rfl
  · have hst := (cfg_ok hs ht).1 hok m _ _ hm hg
    rw [← table_status] at hst
    have hst' : (decodeMap env (.struct (secTy s)) [] t).2 = .ok := hst
    have hwt := given_WF hw hg
    obtain ⟨hst2, hwt2⟩ := (Json.WF_obj t).1 hwt
    have e : (unmarshal env (.obj o)).1 m = .map (decodeMap env (.struct (secTy s)) [] t).1 := v2 _ hg
    rw [e, table_entries hst2 hst']
    refine ⟨fun h => by rw [h]; rfl, fun h => ?_, fun x z h hn hp => ?_⟩
    · rw [h]
      have : (decode env (.struct (secTy s)) (zero (.struct (secTy s))) .null).1 = zero (.struct (secTy s)) := rfl
      simp only [Option.bind_some, this, hz]
    · rw [h]
      obtain ⟨v, hd, he⟩ := sound hp (Json.WFO_lookup hwt2 h)
      have hd' : decode env (.ptr (.struct (secTy s))) .nil x = (v, .ok) := hd
      rw [struct_decode hn] at hd'
      injection hd' with hd1 _
      subst hd1
      have he' : encode env (decode env (.struct (secTy s)) (zero (.struct (secTy s))) x).1 = .ok z := he
      simp only [Option.bind_some, he']

/-- **C91** (tables): the overrides are the schemas the document gives, the default operations its operations, read and written as in C89. -/
theorem C91_tables (hr : Cli.readDoc load file = .ok (.obj o)) (hw : (Json.obj o).WF) (ht : NoTwins configMembers o)
    (hl : (readFile env load file).2 = true) :
    SaysTable (around env) o b!"overrides" .schema (readFile env load file).1.overrides ∧
    SaysTable (around env) o b!"operations" .operation (readFile env load file).1.operations := by
  obtain ⟨hok, e⟩ := read_ok hr hl
  rw [e]
  exact ⟨says_table hw ht hok (by decide) (by decide) rfl, says_table hw ht hok (by decide) (by decide) rfl⟩

/-- **C92** (errors): reading the document fails exactly if some value in one of its settings, at a place the tool reads, is unreadable. -/
theorem C92_error (hr : Cli.readDoc load file = .ok (.obj o)) (hw : (Json.obj o).WF) (ht : NoTwins configMembers o)
    (hc : ∀ m k x, (m, k) ∈ configMembers → given o m = some x → Clear k x) :
    (readFile env load file).2 = false ↔
      ∃ m k x k' j', (m, k) ∈ configMembers ∧ given o m = some x ∧ At k x k' j' ∧ Unreadable (around env) k' j' := by
  have hs := ((Json.WF_obj o).1 hw).1
  have e : (readFile env load file).2 = decide ((unmarshal env (.obj o)).2 = .ok) := by
    unfold readFile
    rw [hr]
    simp only
    split <;> simp_all
  rw [e, decide_eq_false_iff_not, cfg_ok hs ht]
  constructor
  · intro h
    refine Classical.byContradiction fun hno => h fun m k x hm hg => ?_
    refine (status (sizeOf x) (Nat.le_refl _) (given_WF hw hg) (hc m k x hm hg)).1.2 fun k' j' ha hu => hno ⟨m, k, x, k', j', hm, hg, ha, hu⟩
  · rintro ⟨m, k, x, k', j', hm, hg, ha, hu⟩ h
    exact (status (sizeOf x) (Nat.le_refl _) (given_WF hw hg) (hc m k x hm hg)).1.1 (h m k x hm hg) k' j' ha hu

theorem no_abort (hw : (Json.obj o).WF) (ht : NoTwins configMembers o)
    (hc : ∀ m k x, (m, k) ∈ configMembers → given o m = some x → Clear k x ∧ ¬ Stops (around env) k x) : (unmarshal env (.obj o)).2 ≠ .abort := by
  intro h
  obtain ⟨m, k, x, hm, hg, h⟩ := cfg_abort ((Json.WF_obj o).1 hw).1 ht h
  exact (hc m k x hm hg).2 ((status (sizeOf x) (Nat.le_refl _) (given_WF hw hg) (hc m k x hm hg).1).2 h)

/-- **C92** (other settings): two documents that agree in all settings but `m` give configurations that agree in all settings but `m`, also
if one or both are refused, as long as no malformed reference and no bad callback stops reading.  (The tool goes on with what it has.) -/
theorem C92_other_settings {load' : Str → Res Json} {file' : Str} {o' : Obj} (m : Str)
    (hr : Cli.readDoc load file = .ok (.obj o)) (hr' : Cli.readDoc load' file' = .ok (.obj o'))
    (hw : (Json.obj o).WF) (hw' : (Json.obj o').WF) (ht : NoTwins configMembers o) (ht' : NoTwins configMembers o')
    (hc : ∀ m k x, (m, k) ∈ configMembers → given o m = some x → Clear k x ∧ ¬ Stops (around env) k x)
    (hc' : ∀ m k x, (m, k) ∈ configMembers → given o' m = some x → Clear k x ∧ ¬ Stops (around env) k x)
    (he : ∀ m' k, (m', k) ∈ configMembers → m' ≠ m → given o m' = given o' m') : SameExcept m (readFile env load file).1 (readFile env load' file').1 := by
  obtain ⟨p, e⟩ := read_config (env := env) hr
  obtain ⟨p', e'⟩ := read_config (env := env) hr'
  have hn := no_abort hw ht hc
  have hn' := no_abort hw' ht' hc'
  have key : ∀ f ∈ fields .config, m ≠ f.name → (unmarshal env (.obj o)).1 f.name = (unmarshal env (.obj o')).1 f.name := by
    intro f hf hm
    obtain ⟨v1, v2⟩ := cfg_value ((Json.WF_obj o).1 hw).1 ht hn hf
    obtain ⟨w1, w2⟩ := cfg_value ((Json.WF_obj o').1 hw').1 ht' hn' hf
    obtain ⟨k, hk⟩ := field_setting hf
    have := he f.name k hk (Ne.symm hm)
    cases hg : given o f.name with
    | none => rw [v1 hg, w1 (by rw [← this, hg])]
    | some x => rw [v2 x hg, w2 x (by rw [← this, hg])]
  have key' : ∀ n, (fields .config).any (fun f => decide (f.name = n)) = true → m ≠ n →
      (unmarshal env (.obj o)).1 n = (unmarshal env (.obj o')).1 n := by
    intro n h hm
    obtain ⟨f, hf, h⟩ := List.any_eq_true.1 h
    simp only [decide_eq_true_eq] at h
    subst h
    exact key f hf hm
  rw [e, e']
  refine ⟨fun h => ?_, fun h => ?_, fun h => ?_, fun h => ?_, fun h => ?_, fun h => ?_, fun h => ?_, fun h => ?_, fun h => ?_, fun h => ?_,
    fun h => ?_, fun h => ?_, fun h => ?_, fun h => ?_, fun h => ?_⟩ <;> simp only [toConfig] <;> rw [key' _ (by decide) h]

/-- **C92** (no document): if the file or its base cannot be read, or they cannot be merged, all settings are empty. -/
theorem C92_unreadable (h : ∀ d, Cli.readDoc load file ≠ .ok d) : readFile env load file = ({}, false) := by
  unfold readFile
  split
  · rename_i d hd; exact absurd hd (h d)
  · rfl

end Oapi.Props
