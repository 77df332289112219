import Verif.Proofs.Types8
import Verif.Props.Tag

/-! Properties C36–C43 and C58: the type scanner and the conversion of types to schemas. -/
namespace Oapi.Props
open Spec Types

/-! ### C36 -/

/-- C36: collecting the types of an object terminates, whatever the type: beyond a depth bound more recursion budget changes
nothing, and the budget is never what ends the recursion. -/
theorem C36_terminates (env : Env) (pkg name : Str) (t : GoType) (m : PMap) :
    (∀ n, depth env t ≤ n → walk env n (Pointer.newGoLoose pkg name) t [] m = collectTypes env pkg name t m) ∧
    ∀ e, collectTypes env pkg name t m ≠ .err e := by
  refine ⟨?_, collect_fuel env pkg name t m⟩
  intro n hn
  rw [collect_eq]
  exact (walk_same (world_closed env t) n (depth env t) _ t [] m (self_mem_world env t) (by simp) (by simp)
    (by unfold depth at hn; simpa using hn) (by simp [depth])).1

section scan
variable {pr : Prog} (hp : ProgOK pr) {runs : List (Str × List Pointer)} {m : PMap}
include hp

/-- C36: after a scan every type reached from a requested object through exported fields, elements and pointers has a point. -/
theorem C36_registers_reachable (hs : scanPkgs pr runs [] = .ok m) {pkg name : Str} {t v : GoType} (hr : Requested pr runs pkg name t)
    (hv : TReach pr.env (under pr.env t) v) : ∃ q, q ∈ m.at v := by
  rcases scanPkgs_res hp runs [] with ⟨m', hm', hok, _⟩ | ⟨hm', _⟩
  · rw [hs] at hm'; cases hm'; exact (hok.got _ _ _ hr).all v hv
  · rw [hs] at hm'; cases hm'

/-- C36: what is reached from a registered type is registered. -/
theorem C36_closed (hs : scanPkgs pr runs [] = .ok m) {u v : GoType} (hu : m.at u ≠ []) (hv : TReach pr.env u v) : m.at v ≠ [] :=
  scan_closed hp hs hu hv

/-- C36: a defined type met on the way is registered under its own name. -/
theorem C36_defined_types_by_name (hs : scanPkgs pr runs [] = .ok m) {pkg name : Str} {t v : GoType} {k : Nat} (hr : Requested pr runs pkg name t)
    (hv : TReach pr.env (under pr.env t) v) (hc : Child v (.named k)) :
    ∃ d pk, pr.env[k]? = some d ∧ d.pkg = some pk ∧ ∃ q ∈ m.at (under pr.env (.named k)), q.toStr = goText pk [d.name] := by
  rcases scanPkgs_res hp runs [] with ⟨m', hm', hok, _⟩ | ⟨hm', _⟩
  · rw [hs] at hm'; cases hm'; exact (hok.got _ _ _ hr).defined v k hv hc
  · rw [hs] at hm'; cases hm'

/-- C36: the pointer `go://pkg#/Name/tok/…` into a requested object is registered, for the type it leads to, if following the
tokens does not come through a type twice. -/
theorem C36_simple_paths (hs : scanPkgs pr runs [] = .ok m) {pkg name : Str} {t c : GoType} (hr : Requested pr runs pkg name t)
    {toks : List Str} (hf : follow pr.env t toks = some c) (hn : (passes pr.env t toks).Nodup) :
    ∃ q ∈ m.at (under pr.env c), q.toStr = goText pkg (name :: toks) := by
  rcases scanPkgs_res hp runs [] with ⟨m', hm', hok, _⟩ | ⟨hm', _⟩
  · rw [hs] at hm'; cases hm'; exact (hok.got _ _ _ hr).simple toks c hf hn
  · rw [hs] at hm'; cases hm'

/-- C36: nothing else is registered. -/
theorem C36_only_reachable (hs : scanPkgs pr runs [] = .ok m) {v : GoType} {q : Pointer} (hq : q ∈ m.at v) :
    ∃ pkg name t, Requested pr runs pkg name t ∧ TReach pr.env (under pr.env t) v := by
  rcases scanPkgs_new hp runs [] m hs v q hq with h | ⟨u, ⟨pk, nm, t, hr, rfl⟩, h⟩
  · cases h
  · exact ⟨pk, nm, t, hr, h⟩

/-- C36: a scan ends well or with a panic, and it panics exactly if a field, element or pointee of the predeclared type `error`
is reached from a requested object. -/
theorem C36_panics_iff_error (runs : List (Str × List Pointer)) (m0 : PMap) :
    (scanPkgs pr runs m0 = .panic ↔ ∃ pkg name t, Requested pr runs pkg name t ∧ MeetsError pr.env (under pr.env t)) ∧
    (scanPkgs pr runs m0 = .panic ∨ ∃ m, scanPkgs pr runs m0 = .ok m) := by
  rcases scanPkgs_res hp runs m0 with ⟨m', hm', hok, hE⟩ | ⟨hm', pk, nm, t, hr, hE⟩
  · refine ⟨⟨?_, ?_⟩, .inr ⟨m', hm'⟩⟩
    · intro h; rw [h] at hm'; cases hm'
    · rintro ⟨pk, nm, t, hr, h⟩; exact absurd h (hE _ _ _ hr)
  · exact ⟨⟨fun _ => ⟨pk, nm, t, hr, hE⟩, fun _ => hm'⟩, .inl hm'⟩

/-! ### C37 -/

/-- C37: a registered pointer leads, by following its tokens from the object it names, to the type it is registered for. -/
theorem C37_registered_denotes (hs : scanPkgs pr runs [] = .ok m) {u : GoType} {q : Pointer} (hq : q ∈ m.at u) :
    ∃ pkg f t, q.toStr = goText pkg f ∧ q.pkgPath = pkg ∧ q.fragment = f ∧ denotesGo pr pkg f = some t ∧ under pr.env t = u := by
  obtain ⟨pkg, f, t, hg, h⟩ := (scan_inv hp hs).pts u q hq
  exact ⟨pkg, f, t, hg.text, hg.point.pkgPath, hg.point.frag, hg.denotes, h⟩

/-- C37: pointers with the same text are registered for one type only. -/
theorem C37_one_type (hs : scanPkgs pr runs [] = .ok m) {u u' : GoType} {q q' : Pointer} (hq : q ∈ m.at u) (hq' : q' ∈ m.at u')
    (e : q.toStr = q'.toStr) : u = u' := (scan_inv hp hs).one hq hq' e

/-- C37: looking up a pointer finds a type exactly if the pointer is registered for it, in whatever order the map is met. -/
theorem C37_find_any_order (hs : scanPkgs pr runs [] = .ok m) {m' : PMap} (hm : m'.Perm m) (ptr : Pointer) :
    m'.findType ptr = m.findType ptr ∧ ∀ u, m'.findType ptr = some u ↔ ∃ q ∈ m.at u, q.toStr = ptr.toStr := by
  have hi := scan_inv hp hs
  rw [hi.find_perm hm]
  exact ⟨rfl, fun u => hi.find ptr u⟩

/-- C37: so two scans that both register a pointer agree on its type, whatever else they were asked for and in which order. -/
theorem C37_scans_agree (hs : scanPkgs pr runs [] = .ok m) {runs' : List (Str × List Pointer)} {m' : PMap} (hs' : scanPkgs pr runs' [] = .ok m')
    {ptr : Pointer} {u u' : GoType} (h : m.findType ptr = some u) (h' : m'.findType ptr = some u') : u = u' := by
  have hi := scan_inv hp hs
  have hi' := scan_inv hp hs'
  obtain ⟨q, hq, e⟩ := (hi.find ptr u).1 h
  obtain ⟨q', hq', e'⟩ := (hi'.find ptr u').1 h'
  obtain ⟨pkg, f, t, hg, rfl⟩ := hi.pts _ _ hq
  obtain ⟨pkg', f', t', hg', rfl⟩ := hi'.pts _ _ hq'
  have ee := e.trans e'.symm
  rw [hg.text, hg'.text] at ee
  obtain ⟨rfl, rfl⟩ := goText_inj hg.pkgOK hg'.pkgOK hg.toks hg'.toks ee
  have := hg.denotes
  rw [hg'.denotes] at this
  cases this; rfl

end scan

/-! ### C38 -/

theorem parse_no_fuel {F : Type} (lib : Str → Option TagP.Tags) (pf : Str → Option F) (raw : Str) : TagP.parse lib pf raw ≠ .err .fuel := by
  intro h
  have hb : ∀ t k v, TagP.boolPtr t k v ≠ .err .fuel := by
    intro t k v h; unfold TagP.boolPtr at h; split at h <;> try cases h
    split at h <;> cases h
  have hi : ∀ t k v, TagP.intPtr t k v ≠ .err .fuel := by
    intro t k v h; unfold TagP.intPtr at h; split at h <;> try cases h
    split at h <;> cases h
  have hf : ∀ t k v, TagP.floatPtr pf t k v ≠ .err .fuel := by
    intro t k v h; unfold TagP.floatPtr at h; split at h <;> try cases h
    split at h <;> cases h
  have hbind : ∀ {α β : Type} (x : Res α) (g : α → Res β), x ≠ .err .fuel → (∀ a, g a ≠ .err .fuel) → (x >>= g) ≠ .err .fuel := by
    intro α β x g h1 h2 h
    cases x with
    | ok a => exact h2 a h
    | err e =>
      have : Res.err (α := β) e = .err .fuel := h
      injection this with this
      subst this
      exact h1 rfl
    | panic =>
      have : Res.panic (α := β) = .err .fuel := h
      cases this
  unfold TagP.parse at h
  split at h
  · cases h
  · split at h
    · cases h
    · refine hbind _ _ ?_ ?_ h
      · intro h
        unfold TagP.parseJSON at h
        split at h
        · cases h
        · split at h
          · cases h
          · exact hbind _ _ (hb _ _ _) (fun a h => by cases h) h
      · intro mt h
        unfold TagP.parseOAPI at h
        split at h
        · cases h
        · split at h
          · cases h
          · refine hbind _ _ (hb _ _ _) (fun _ => hbind _ _ (hb _ _ _) (fun _ => hbind _ _ (hi _ _ _) (fun _ => hbind _ _ (hi _ _ _) (fun _ =>
              hbind _ _ (hi _ _ _) (fun _ => hbind _ _ (hi _ _ _) (fun _ => hbind _ _ (hi _ _ _) (fun _ => hbind _ _ (hi _ _ _) (fun _ =>
              hbind _ _ (hf _ _ _) (fun _ => hbind _ _ (hf _ _ _) (fun _ => hbind _ _ (hf _ _ _) (fun _ => hbind _ _ (hf _ _ _) (fun _ =>
              hbind _ _ (hf _ _ _) (fun _ h => by cases h))))))))))))) h

section conv
variable {F : Type} {pr : Prog} {runs : List (Str × List Pointer)} {cx : Ctx F}

theorem _root_.Oapi.Spec.Converts.ctx (h : Converts pr runs cx) : CtxOK pr cx := by
  obtain ⟨m, hm, hperm⟩ := h.scanned
  obtain ⟨lib, pf, ht⟩ := h.tags
  refine ⟨h.env, h.sorts, (scan_inv h.prog hm).perm hperm, ?_, ?_⟩
  · intro s; rw [ht]; exact C46_no_panic
  · intro s; rw [ht]; exact parse_no_fuel lib pf s

/-- What is found is underlying, well-formed, and everything reached from it is registered. -/
theorem _root_.Oapi.Spec.Converts.found (h : Converts pr runs cx) {ptr : Pointer} {u : GoType} (hf : cx.m.findType ptr = some u) :
    under pr.env u = u ∧ TypeOK pr.env u ∧ ReachRegistered pr.env cx.m u := by
  obtain ⟨m, hm, hperm⟩ := h.scanned
  have hi := scan_inv h.prog hm
  obtain ⟨q, hq, _⟩ := ((hi.perm hperm).find ptr u).1 hf
  obtain ⟨pkg, f, t, hg, rfl⟩ := (hi.perm hperm).pts u q hq
  have huu := under_under h.prog t
  refine ⟨huu, TypeOK.under h.prog hg.type, ?_⟩
  intro v hv
  rw [huu] at hv
  rw [at_perm hi.nodup hperm] at hq ⊢
  exact scan_closed h.prog hm (by intro hn; rw [hn] at hq; cases hq) hv

/-- C38: resolving a pointer that is registered terminates (more recursion budget changes nothing, the budget is never what ends
it), does not panic, and fails exactly if the type cannot be converted: an unsupported kind, a malformed tag or an unknown type
word is met. -/
theorem C38_outcome (h : Converts pr runs cx) {ptr : Pointer} {u : GoType} (hf : cx.m.findType ptr = some u) :
    (TypeFails pr.env cx.tagOf u ∧ ∃ e, resolve cx ptr = .err e ∧ e ≠ .fuel) ∨
    (¬ TypeFails pr.env cx.tagOf u ∧ ∃ s, resolve cx ptr = .ok s) := by
  obtain ⟨_, hok, hreg⟩ := h.found hf
  unfold resolve
  rw [hf]
  simp only [h.env]
  rcases type_res h.prog h.ctx (Nat.le_refl _) hok hreg 0 with h1 | ⟨h1, s, h2, _⟩
  · exact .inl h1
  · exact .inr ⟨h1, s, h2⟩

theorem C38_terminates (h : Converts pr runs cx) {ptr : Pointer} {u : GoType} (hf : cx.m.findType ptr = some u) :
    resolve cx ptr ≠ .err .fuel ∧ ∀ n, depth pr.env u ≤ n → type2schema cx n 0 u [] {} = resolve cx ptr := by
  have hne : resolve cx ptr ≠ .err .fuel := by
    intro e
    rcases C38_outcome h hf with ⟨_, e', h1, h2⟩ | ⟨_, s, h1⟩
    · rw [h1] at e; injection e with e; exact h2 e
    · rw [h1] at e; cases e
  refine ⟨hne, ?_⟩
  intro n hn
  have hr : resolve cx ptr = type2schema cx (depth cx.env u) 0 u [] {} := by
    unfold resolve; rw [hf]
  rw [hr] at hne ⊢
  rw [h.env] at hne ⊢
  exact type2schema_mono_le hn hne

/-- The conversion of a registered type other than a struct: the schema describes the type. -/
theorem C38_describes (h : Converts pr runs cx) {ptr : Pointer} {u : GoType} (hf : cx.m.findType ptr = some u) (hu : ∀ fs, u ≠ .struct fs)
    {s : Schema F} (hs : resolve cx ptr = .ok s) : TypeDescribes pr.env cx.m cx.std cx.zero {} [] u s := by
  obtain ⟨huu, hok, hreg⟩ := h.found hf
  unfold resolve at hs
  rw [hf] at hs
  simp only [h.env] at hs
  rcases type_res h.prog h.ctx (Nat.le_refl _) hok hreg 0 with ⟨_, e, h2, _⟩ | ⟨_, s', h2, h3⟩
  · rw [hs] at h2; cases h2
  · rw [hs] at h2; cases h2
    rcases h3 with ⟨fs, _, h3, _⟩ | ⟨_, h3⟩
    · rw [huu] at h3; exact absurd h3 (hu fs)
    · exact h3

/-- The conversion of a registered struct: the schema describes it field by field. -/
theorem C38_describes_struct (h : Converts pr runs cx) {ptr : Pointer} {fs : List (FieldInfo × GoType)} (hf : cx.m.findType ptr = some (.struct fs))
    {s : Schema F} (hs : resolve cx ptr = .ok s) :
    ∃ fields, StructDescribes pr.env cx.tagOf cx.m cx.std cx.zero fs fields s := by
  obtain ⟨huu, hok, hreg⟩ := h.found hf
  unfold resolve at hs
  rw [hf] at hs
  simp only [h.env] at hs
  rcases type_res h.prog h.ctx (Nat.le_refl _) hok hreg 0 with ⟨_, e, h2, _⟩ | ⟨_, s', h2, h3⟩
  · rw [hs] at h2; cases h2
  · rw [hs] at h2; cases h2
    rcases h3 with ⟨fs', fields, h3, h4⟩ | ⟨h3, _⟩
    · rw [huu] at h3; cases h3; exact ⟨fields, h4⟩
    · exact absurd huu (h3 fs)

/-! ### C39 -/

/-- C39: collecting the fields of a struct terminates, inlined cycles included. -/
theorem C39_terminates (h : Converts pr runs cx) (fs : List (FieldInfo × GoType)) :
    collectFields cx.env cx.tagOf (depth cx.env (.struct fs)) fs [] ≠ .err .fuel ∧
    ∀ n, depth cx.env (.struct fs) ≤ n →
      collectFields cx.env cx.tagOf n fs [] = collectFields cx.env cx.tagOf (depth cx.env (.struct fs)) fs [] := by
  have hne : collectFields cx.env cx.tagOf (depth cx.env (.struct fs)) fs [] ≠ .err .fuel := by
    rcases collectFields_top (env := cx.env) h.ctx.noPanic h.ctx.noFuel fs (Nat.le_refl _) with ⟨arr, h1, _⟩ | ⟨e, h1, _, h2⟩
    · rw [h1]; intro e; cases e
    · rw [h1]; intro e'; injection e' with e'; exact h2 e'
  exact ⟨hne, fun n hn => collectFields_mono_le hn hne⟩

theorem struct_property {tagOf : Str → Res (TagP.Tag F)} {m : PMap} {std : Str → Option (Schema F)} {zero : F} {env : Env}
    {fs : List (FieldInfo × GoType)} {fields : List (StructField F × Schema F)} {s : Schema F}
    (h : StructDescribes env tagOf m std zero fs fields s) {k : Str} {final : Schema F} (hk : s.properties.lookup k = some final) :
    ∃ x sc, VisibleField env tagOf fs x ∧ propName x = k ∧ FieldDescribes env m std zero x sc ∧ final = withFlags x sc := by
  obtain ⟨h1, h2, _, _, _, _, _, _, h3⟩ := h
  rw [h3, Option.map_eq_some_iff] at hk
  obtain ⟨⟨x, sc⟩, he, rfl⟩ := hk
  have hm := List.mem_of_find?_eq_some he
  have hp := List.find?_some he
  rw [List.mem_reverse] at hm
  exact ⟨x, sc, (h1 x).2 ⟨sc, hm⟩, by simpa using hp, h2 _ hm, rfl⟩

/-- C39: the properties of the schema of a struct are exactly the names of its visible fields, each once. -/
theorem C39_properties (h : Converts pr runs cx) {ptr : Pointer} {fs : List (FieldInfo × GoType)} (hf : cx.m.findType ptr = some (.struct fs))
    {s : Schema F} (hs : resolve cx ptr = .ok s) :
    s.attrs.type = b!"object" ∧ (s.properties.map Prod.fst).Nodup ∧
    ∀ k, k ∈ s.properties.map Prod.fst ↔ ∃ x, VisibleField pr.env cx.tagOf fs x ∧ propName x = k := by
  obtain ⟨fields, hd⟩ := C38_describes_struct h hf hs
  have hd' := hd
  obtain ⟨h1, h2, _, _, _, _, ha, hn, h3⟩ := hd
  refine ⟨by rw [ha], hn, ?_⟩
  intro k
  have hl : k ∈ s.properties.map Prod.fst ↔ ∃ v, s.properties.lookup k = some v := by
    constructor
    · intro hk
      rw [List.mem_map] at hk
      obtain ⟨⟨a, v⟩, hm, rfl⟩ := hk
      cases hlk : s.properties.lookup a with
      | some v => exact ⟨v, rfl⟩
      | none =>
        rw [List.lookup_eq_none_iff] at hlk
        have := hlk _ hm
        simp at this
    · rintro ⟨v, hv⟩
      rw [List.lookup_eq_some_iff] at hv
      obtain ⟨l1, l2, he, _⟩ := hv
      rw [he]; simp
  rw [hl]
  constructor
  · rintro ⟨v, hv⟩
    obtain ⟨x, sc, hx, hk, _⟩ := struct_property hd' hv
    exact ⟨x, hx, hk⟩
  · rintro ⟨x, hx, hk⟩
    obtain ⟨sc, hm⟩ := (h1 x).1 hx
    rw [h3]
    cases hfd : fields.reverse.find? fun e => decide (propName e.1 = k) with
    | some e => exact ⟨_, rfl⟩
    | none =>
      rw [List.find?_eq_none] at hfd
      have := hfd (x, sc) (by rw [List.mem_reverse]; exact hm)
      simp [hk] at this

/-- C39: a property comes from an exported field that is not hidden by its tag, of the struct or of one inlined into it. -/
theorem C39_from_exported_fields (h : Converts pr runs cx) {ptr : Pointer} {fs : List (FieldInfo × GoType)}
    (hf : cx.m.findType ptr = some (.struct fs)) {s : Schema F} (hs : resolve cx ptr = .ok s) {k : Str} (hk : k ∈ s.properties.map Prod.fst) :
    ∃ st f t tx, InlineReach pr.env cx.tagOf fs st ∧ (f, t) ∈ st ∧ f.exported = true ∧ cx.tagOf f.tag = .ok tx ∧ tx.ignore = false ∧
      k = if tx.name = [] then f.name else tx.name := by
  obtain ⟨x, ⟨st, h1, ⟨h2, h3, h4, h5⟩, _⟩, hk⟩ := ((C39_properties h hf hs).2.2 k).1 hk
  exact ⟨st, x.field, x.typ, x.tag, h1, h2, h3, h4, h5, hk.symm⟩

/-! ### C40 -/

/-- What all theorems below say about: property `k` of the schema of a registered struct comes from a visible field. -/
theorem property_of (h : Converts pr runs cx) {ptr : Pointer} {fs : List (FieldInfo × GoType)} (hf : cx.m.findType ptr = some (.struct fs))
    {s : Schema F} (hs : resolve cx ptr = .ok s) {k : Str} {final : Schema F} (hk : s.properties.lookup k = some final) :
    ∃ x sc, VisibleField pr.env cx.tagOf fs x ∧ propName x = k ∧ FieldDescribes pr.env cx.m cx.std cx.zero x sc ∧ final = withFlags x sc := by
  obtain ⟨fields, hd⟩ := C38_describes_struct h hf hs
  exact struct_property hd hk

theorem flags_of_noref {x : StructField F} {s : Schema F} (h : s.ref = none) :
    (withFlags x s).ref = none ∧ (withFlags x s).attrs.nullable = x.tag.nullable.getD s.attrs.nullable ∧ (withFlags x s).attrs.format = x.tag.format ∧
    (withFlags x s).attrs.type = s.attrs.type ∧ (withFlags x s).oneOf = s.oneOf ∧ (withFlags x s).items = s.items ∧
    (withFlags x s).additional = s.additional := by
  unfold withFlags
  rw [if_pos h]
  obtain ⟨r, a, i, d, o, p⟩ := s
  exact ⟨h, rfl, rfl, rfl, rfl, rfl, rfl⟩

theorem getD_getD (o : Option Bool) (b : Bool) : o.getD (o.getD b) = o.getD b := by cases o <;> rfl

/-- C40: the schema of a field of slice or map type is nullable, that of a field of array or basic type is not, unless the
`nullable` option says otherwise; none of them is a reference. -/
theorem C40_nullable (h : Converts pr runs cx) {ptr : Pointer} {fs : List (FieldInfo × GoType)} (hf : cx.m.findType ptr = some (.struct fs))
    {s : Schema F} (hs : resolve cx ptr = .ok s) {k : Str} {final : Schema F} (hk : s.properties.lookup k = some final) :
    ∃ x, VisibleField pr.env cx.tagOf fs x ∧ propName x = k ∧ (x.tag.type = [] →
      (∀ e, under pr.env x.typ = .slice e → final.ref = none ∧ final.attrs.type = b!"array" ∧ final.attrs.nullable = x.tag.nullable.getD true) ∧
      (∀ kk e, under pr.env x.typ = .map kk e → final.ref = none ∧ final.attrs.type = b!"object" ∧ final.attrs.nullable = x.tag.nullable.getD true) ∧
      (∀ n e, under pr.env x.typ = .array n e → final.ref = none ∧ final.attrs.type = b!"array" ∧ final.attrs.nullable = x.tag.nullable.getD false) ∧
      (∀ b, under pr.env x.typ = .basic b → final.ref = none ∧ final.attrs.nullable = x.tag.nullable.getD false)) := by
  obtain ⟨x, sc, hx, hn, hd, rfl⟩ := property_of h hf hs hk
  refine ⟨x, hx, hn, ?_⟩
  intro hty
  unfold FieldDescribes at hd
  rw [if_pos hty] at hd
  have hbasic : ∀ b, basicSpec cx.zero x.tag b = some sc → sc.attrs.nullable = false := by
    intro b hb
    unfold basicSpec at hb
    split at hb
    · cases hb
    · split at hb
      · cases hb; rfl
      · split at hb <;> (cases hb; rfl)
  refine ⟨?_, ?_, ?_, ?_⟩
  · intro e hu
    cases hd with
    | slice _ h1 h2 =>
      obtain ⟨f1, f2, _, f4, _⟩ := flags_of_noref (x := x) (s := .mk none _ _ _ _ _) rfl
      exact ⟨f1, f4, by rw [f2]; exact getD_getD _ _⟩
    | ref h1 => rcases h1 with ⟨_, h1⟩ | h1 <;> first | (rw [hu] at h1; cases h1) | cases h1
    | std h1 => rcases h1 with ⟨_, h1⟩ | h1 <;> first | (rw [hu] at h1; cases h1) | cases h1
    | _ _ h1 => rw [hu] at h1; cases h1
  · intro kk e hu
    cases hd with
    | map _ h1 h2 =>
      obtain ⟨f1, f2, _, f4, _⟩ := flags_of_noref (x := x) (s := .mk none _ _ _ _ _) rfl
      exact ⟨f1, f4, by rw [f2]; exact getD_getD _ _⟩
    | ref h1 => rcases h1 with ⟨_, h1⟩ | h1 <;> first | (rw [hu] at h1; cases h1) | cases h1
    | std h1 => rcases h1 with ⟨_, h1⟩ | h1 <;> first | (rw [hu] at h1; cases h1) | cases h1
    | _ _ h1 => rw [hu] at h1; cases h1
  · intro n e hu
    cases hd with
    | array _ h1 h2 =>
      obtain ⟨f1, f2, _, f4, _⟩ := flags_of_noref (x := x) (s := .mk none _ _ _ _ _) rfl
      exact ⟨f1, f4, by rw [f2]; exact getD_getD _ _⟩
    | ref h1 => rcases h1 with ⟨_, h1⟩ | h1 <;> first | (rw [hu] at h1; cases h1) | cases h1
    | std h1 => rcases h1 with ⟨_, h1⟩ | h1 <;> first | (rw [hu] at h1; cases h1) | cases h1
    | _ _ h1 => rw [hu] at h1; cases h1
  · intro b hu
    cases hd with
    | basic _ h1 h2 =>
      obtain ⟨f1, f2, _⟩ := flags_of_noref (x := x) (basic_noref h2)
      exact ⟨f1, by rw [f2, hbasic _ h2]⟩
    | ref h1 => rcases h1 with ⟨_, h1⟩ | h1 <;> first | (rw [hu] at h1; cases h1) | cases h1
    | std h1 => rcases h1 with ⟨_, h1⟩ | h1 <;> first | (rw [hu] at h1; cases h1) | cases h1
    | _ _ h1 => rw [hu] at h1; cases h1


/-- Type `t` without anything met before: what the schema says depends on what `t` is. -/
theorem describes_struct {env : Env} {m : PMap} {std : Str → Option (Schema F)} {zero : F} {tg : TagP.Tag F} {seen : List GoType} {t : GoType}
    {s : Schema F} (hd : TypeDescribes env m std zero tg seen t s) {st : List (FieldInfo × GoType)} (hu : under env t = .struct st) :
    ∃ p, BestPoint m (.struct st) p ∧ ((std p.toStr = none ∧ s = .mk (some p) {} none none [] []) ∨ std p.toStr = some s) := by
  cases hd with
  | ref h1 h2 h3 => exact ⟨_, hu ▸ h2, .inl ⟨h3, rfl⟩⟩
  | std h1 h2 h3 => exact ⟨_, hu ▸ h2, .inr h3⟩
  | _ _ h1 => rw [hu] at h1; cases h1

theorem describes_pointer {env : Env} {m : PMap} {std : Str → Option (Schema F)} {zero : F} {tg : TagP.Tag F} {t : GoType} {s : Schema F}
    (hd : TypeDescribes env m std zero tg [] t s) {e : GoType} (hu : under env t = .pointer e) :
    ∃ s0, TypeDescribes env m std zero tg [.pointer e] e s0 ∧
      ((s0.ref = none ∧ s = s0.withAttrs fun a => { a with nullable := tg.nullable.getD true }) ∨
       (s0.ref ≠ none ∧ tg.nullable = some false ∧ s = s0.withAttrs fun a => { a with nullable := false }) ∨
       (s0.ref ≠ none ∧ tg.nullable ≠ some false ∧ s = .mk none {} none none
          [s0.withAttrs fun a => { a with nullable := false }, .plain { type := b!"object", nullable := true }] [])) := by
  cases hd with
  | ref h1 => rcases h1 with ⟨_, h1⟩ | h1 <;> first | (rw [hu] at h1; cases h1) | cases h1
  | std h1 => rcases h1 with ⟨_, h1⟩ | h1 <;> first | (rw [hu] at h1; cases h1) | cases h1
  | pointer _ h1 h2 h3 => rw [hu] at h1; cases h1; exact ⟨_, h2, .inl ⟨h3, rfl⟩⟩
  | pointerRef _ h1 h2 h3 h4 => rw [hu] at h1; cases h1; exact ⟨_, h2, .inr (.inl ⟨h3, h4, rfl⟩)⟩
  | pointerOne _ h1 h2 h3 h4 => rw [hu] at h1; cases h1; exact ⟨_, h2, .inr (.inr ⟨h3, h4, rfl⟩)⟩
  | _ _ h1 => rw [hu] at h1; cases h1

theorem withAttrs_ref (s : Schema F) (f : Attrs F → Attrs F) : (s.withAttrs f).ref = s.ref ∧ (s.withAttrs f).attrs = f s.attrs ∧
    (s.withAttrs f).items = s.items ∧ (s.withAttrs f).additional = s.additional ∧ (s.withAttrs f).oneOf = s.oneOf ∧
    (s.withAttrs f).properties = s.properties := by
  obtain ⟨r, a, i, d, o, p⟩ := s; exact ⟨rfl, rfl, rfl, rfl, rfl, rfl⟩

/-- C40: a pointer field.  What it points to has a schema `s0`.  If that is no reference, the property is `s0`'s type, nullable
unless the tag says otherwise.  If it is a reference and the tag forbids null, the property is that reference.  Otherwise the
property is one of that reference and a nullable object. -/
theorem C40_pointers (h : Converts pr runs cx) {ptr : Pointer} {fs : List (FieldInfo × GoType)} (hf : cx.m.findType ptr = some (.struct fs))
    {s : Schema F} (hs : resolve cx ptr = .ok s) {k : Str} {final : Schema F} (hk : s.properties.lookup k = some final) :
    ∃ x, VisibleField pr.env cx.tagOf fs x ∧ propName x = k ∧ (x.tag.type = [] → ∀ e, under pr.env x.typ = .pointer e →
      ∃ s0, TypeDescribes pr.env cx.m cx.std cx.zero x.tag [.pointer e] e s0 ∧
      (s0.ref = none → final.ref = none ∧ final.attrs.nullable = x.tag.nullable.getD true ∧ final.attrs.type = s0.attrs.type ∧
        final.items = s0.items ∧ final.additional = s0.additional ∧ final.oneOf = s0.oneOf) ∧
      (∀ p, s0.ref = some p → x.tag.nullable = some false → final.ref = some p) ∧
      (∀ p, s0.ref = some p → x.tag.nullable ≠ some false → final.ref = none ∧ final.attrs.nullable = x.tag.nullable.getD false ∧
        ∃ r, r.ref = some p ∧ final.oneOf = [r, .plain { type := b!"object", nullable := true }])) := by
  obtain ⟨x, sc, hx, hn, hd, rfl⟩ := property_of h hf hs hk
  refine ⟨x, hx, hn, ?_⟩
  intro hty e hu
  unfold FieldDescribes at hd
  rw [if_pos hty] at hd
  obtain ⟨s0, h0, h1⟩ := describes_pointer hd hu
  refine ⟨s0, h0, ?_⟩
  rcases h1 with ⟨h1, rfl⟩ | ⟨h1, h2, rfl⟩ | ⟨h1, h2, rfl⟩
  · refine ⟨fun _ => ?_, ?_, ?_⟩
    · obtain ⟨w1, w2, w3, w4, w5, _⟩ := withAttrs_ref s0 fun a => { a with nullable := x.tag.nullable.getD true }
      obtain ⟨f1, f2, _, f4, f5, f6, f7⟩ := flags_of_noref (x := x) (w1.trans h1)
      refine ⟨f1, ?_, ?_, ?_, ?_, ?_⟩
      · rw [f2, w2]; exact getD_getD _ _
      · rw [f4, w2]
      · rw [f6, w3]
      · rw [f7, w4]
      · rw [f5, w5]
    · intro p hp; rw [h1] at hp; cases hp
    · intro p hp; rw [h1] at hp; cases hp
  · refine ⟨fun h => absurd h h1, ?_, fun _ _ h => absurd h2 h⟩
    intro p hp _
    have := (withAttrs_ref s0 fun a => { a with nullable := false }).1
    rw [withFlags_ref (by rw [this, hp]; rfl), this, hp]
  · refine ⟨fun h => absurd h h1, fun _ _ h => absurd h h2, ?_⟩
    intro p hp _
    obtain ⟨f1, f2, _, _, f5, _⟩ := flags_of_noref (x := x) (s := .mk none {} none none
      [s0.withAttrs fun a => { a with nullable := false }, .plain { type := b!"object", nullable := true }] []) rfl
    refine ⟨f1, f2, _, ?_, f5⟩
    exact (withAttrs_ref s0 _).1.trans hp

/-- C40: so a field that points to a struct (one without an entry in the table of standard types) becomes oneOf a reference to
that struct and a nullable object, or just the reference if the tag forbids null. -/
theorem C40_pointer_to_struct (h : Converts pr runs cx) {ptr : Pointer} {fs : List (FieldInfo × GoType)}
    (hf : cx.m.findType ptr = some (.struct fs)) {s : Schema F} (hs : resolve cx ptr = .ok s) {k : Str} {final : Schema F}
    (hk : s.properties.lookup k = some final) :
    ∃ x, VisibleField pr.env cx.tagOf fs x ∧ propName x = k ∧ (x.tag.type = [] → ∀ e st, under pr.env x.typ = .pointer e →
      under pr.env e = .struct st → (∀ q ∈ cx.m.at (.struct st), cx.std q.toStr = none) →
      ∃ p, cx.m.findType p = some (.struct st) ∧
        (x.tag.nullable = some false → final.ref = some p) ∧
        (x.tag.nullable ≠ some false → final.ref = none ∧
          ∃ r, r.ref = some p ∧ final.oneOf = [r, .plain { type := b!"object", nullable := true }])) := by
  obtain ⟨x, hx, hn, hp⟩ := C40_pointers h hf hs hk
  refine ⟨x, hx, hn, ?_⟩
  intro hty e st hu hue hstd
  obtain ⟨s0, h0, _, h2, h3⟩ := hp hty e hu
  obtain ⟨p, hb, ⟨h4, rfl⟩ | h4⟩ := describes_struct h0 hue
  · exact ⟨p, hb.2.2, h2 p rfl, fun hne => ⟨(h3 p rfl hne).1, (h3 p rfl hne).2.2⟩⟩
  · rw [hstd p hb.1] at h4; cases h4

/-- C40: a field that points to something of basic, slice, array or map type is no reference, and nullable unless the tag says
otherwise. -/
theorem C40_pointer_to_plain (h : Converts pr runs cx) {ptr : Pointer} {fs : List (FieldInfo × GoType)}
    (hf : cx.m.findType ptr = some (.struct fs)) {s : Schema F} (hs : resolve cx ptr = .ok s) {k : Str} {final : Schema F}
    (hk : s.properties.lookup k = some final) :
    ∃ x, VisibleField pr.env cx.tagOf fs x ∧ propName x = k ∧ (x.tag.type = [] → ∀ e, under pr.env x.typ = .pointer e →
      ((∃ b, under pr.env e = .basic b) ∨ (∃ c, under pr.env e = .slice c) ∨ (∃ n c, under pr.env e = .array n c) ∨
        (∃ a c, under pr.env e = .map a c)) →
      final.ref = none ∧ final.oneOf = [] ∧ final.attrs.nullable = x.tag.nullable.getD true) := by
  obtain ⟨x, hx, hn, hp⟩ := C40_pointers h hf hs hk
  refine ⟨x, hx, hn, ?_⟩
  intro hty e hu hue
  obtain ⟨s0, h0, h1, _, _⟩ := hp hty e hu
  have hr : s0.ref = none ∧ s0.oneOf = [] := by
    clear h1
    have hns : ¬ ((∃ fs, under pr.env e = .struct fs) ∨ under pr.env e ∈ [GoType.pointer e]) := by
      rintro (⟨fs, h⟩ | h)
      · rcases hue with ⟨_, h'⟩ | ⟨_, h'⟩ | ⟨_, _, h'⟩ | ⟨_, _, h'⟩ <;> rw [h'] at h <;> cases h
      · rw [List.mem_singleton] at h
        rcases hue with ⟨_, h'⟩ | ⟨_, h'⟩ | ⟨_, _, h'⟩ | ⟨_, _, h'⟩ <;> rw [h'] at h <;> cases h
    have hnp : ∀ c, under pr.env e ≠ .pointer c := by
      intro c h
      rcases hue with ⟨_, h'⟩ | ⟨_, h'⟩ | ⟨_, _, h'⟩ | ⟨_, _, h'⟩ <;> rw [h'] at h <;> cases h
    cases h0 with
    | ref h1 => exact absurd h1 hns
    | std h1 => exact absurd h1 hns
    | basic _ _ h3 =>
      refine ⟨basic_noref h3, ?_⟩
      unfold basicSpec at h3
      split at h3
      · cases h3
      · split at h3
        · cases h3; rfl
        · split at h3 <;> (cases h3; rfl)
    | slice => exact ⟨rfl, rfl⟩
    | array => exact ⟨rfl, rfl⟩
    | map => exact ⟨rfl, rfl⟩
    | pointer _ h1 => exact absurd h1 (hnp _)
    | pointerRef _ h1 => exact absurd h1 (hnp _)
    | pointerOne _ h1 => exact absurd h1 (hnp _)
  obtain ⟨g1, g2, _, _, _, g6⟩ := h1 hr.1
  exact ⟨g1, g6.trans hr.2, g2⟩

/-! ### C41 -/

theorem basicSpec_other (zero : F) (tg : TagP.Tag F) (n : Nat) : basicSpec zero tg (.other n) = none := by
  unfold basicSpec
  rw [show kindTable.lookup (.other n) = none from rfl]

/-- C41: a field of basic type: the kind is supported and the property has its type and the bounds of the tag, see `basicSpec`;
its format is that of the tag (C42).  With a `type` option the word decides in the same way. -/
theorem C41_property (h : Converts pr runs cx) {ptr : Pointer} {fs : List (FieldInfo × GoType)} (hf : cx.m.findType ptr = some (.struct fs))
    {s : Schema F} (hs : resolve cx ptr = .ok s) {k : Str} {final : Schema F} (hk : s.properties.lookup k = some final) :
    ∃ x, VisibleField pr.env cx.tagOf fs x ∧ propName x = k ∧
      (x.tag.type = [] → ∀ b, under pr.env x.typ = .basic b → b ∈ supportedKinds ∧ ∃ s0, basicSpec cx.zero x.tag b = some s0 ∧ final = withFlags x s0) ∧
      (x.tag.type ≠ [] → ∃ w s0, Padded w x.tag.type ∧ wordSpec cx.zero x.tag w = some s0 ∧ final = withFlags x s0) := by
  obtain ⟨x, sc, hx, hn, hd, rfl⟩ := property_of h hf hs hk
  refine ⟨x, hx, hn, ?_, ?_⟩
  · intro hty b hu
    unfold FieldDescribes at hd
    rw [if_pos hty] at hd
    cases hd with
    | basic _ h1 h2 =>
      rw [hu] at h1; cases h1
      refine ⟨?_, _, h2, rfl⟩
      cases b with
      | other n => exact absurd h2 (by rw [basicSpec_other]; simp)
      | _ => simp [supportedKinds]
    | ref h1 => rcases h1 with ⟨_, h1⟩ | h1 <;> first | (rw [hu] at h1; cases h1) | cases h1
    | std h1 => rcases h1 with ⟨_, h1⟩ | h1 <;> first | (rw [hu] at h1; cases h1) | cases h1
    | _ _ h1 => rw [hu] at h1; cases h1
  · intro hty
    unfold FieldDescribes at hd
    rw [if_neg hty] at hd
    obtain ⟨w, h1, h2⟩ := hd
    exact ⟨w, sc, h1, h2, rfl⟩

/-- C41: resolving a pointer to a basic type gives the schema of the kind, unconstrained, and is an error for other kinds. -/
theorem C41_resolve {ptr : Pointer} {b : Kind} (hf : cx.m.findType ptr = some (.basic b)) :
    (b ∈ supportedKinds ∧ ∃ s, basicSpec cx.zero {} b = some s ∧ resolve cx ptr = .ok s) ∨
    (b ∉ supportedKinds ∧ resolve cx ptr = .err .unsupported) := by
  have hr : resolve cx ptr = basic2schema cx.zero b {} := by
    unfold resolve; rw [hf]
    simp only [depth, type2schema, under, List.not_mem_nil, if_false]
  rw [hr, basic_spec]
  cases b with
  | other n => rw [basicSpec_other]; exact .inr ⟨by simp [supportedKinds], rfl⟩
  | _ => exact .inl ⟨by simp [supportedKinds], _, rfl, rfl⟩

end conv

section basics
variable {F : Type} {zero : F} {tg : TagP.Tag F} {k : Kind} {s : Schema F}

/-- What `basicSpec` comes to.  Unsigned numbers are not negative unless the tag gives a bound. -/
theorem C41_unsigned (h : basicSpec zero tg k = some s) (hk : k ∈ unsignedKinds) (h1 : tg.min = none) (h2 : tg.emin = none) :
    s.attrs.type = b!"integer" ∧ s.attrs.minimum = some zero ∧ s.attrs.exclusiveMinimum = false := by
  cases k <;> simp [unsignedKinds] at hk <;>
    (cases h; exact ⟨rfl, by simp [Schema.plain, Schema.attrs, unsignedKinds, h1, h2], by simp [Schema.plain, Schema.attrs, h2]⟩)

/-- Numeric bounds constrain numbers only, lengths and patterns strings only. -/
theorem C41_constraints (h : basicSpec zero tg k = some s) :
    (s.attrs.type = b!"number" ∨ s.attrs.type = b!"integer" ∨ s.attrs.type = b!"string" ∨ s.attrs.type = b!"boolean") ∧
    (s.attrs.type = b!"string" ∨ s.attrs.type = b!"boolean" → s.attrs.minimum = none ∧ s.attrs.maximum = none ∧ s.attrs.multipleOf = none ∧
      s.attrs.exclusiveMinimum = false ∧ s.attrs.exclusiveMaximum = false) ∧
    (s.attrs.type ≠ b!"string" → s.attrs.maxLength = none ∧ s.attrs.minLength = none ∧ s.attrs.pattern = []) ∧
    (s.attrs.type = b!"string" → s.attrs.maxLength = tg.maxLen ∧ s.attrs.minLength = tg.minLen ∧ s.attrs.pattern = tg.pattern) ∧
    (s.attrs.type = b!"number" ∨ s.attrs.type = b!"integer" → s.attrs.multipleOf = tg.mulOf ∧
      (∀ v, tg.emin = some v → s.attrs.minimum = some v ∧ s.attrs.exclusiveMinimum = true) ∧
      (tg.emin = none → s.attrs.exclusiveMinimum = false ∧ ∀ v, tg.min = some v → s.attrs.minimum = some v) ∧
      (∀ v, tg.emax = some v → s.attrs.maximum = some v ∧ s.attrs.exclusiveMaximum = true) ∧
      (tg.emax = none → s.attrs.exclusiveMaximum = false ∧ s.attrs.maximum = tg.max)) := by
  cases k <;> cases h <;> simp +contextual [Schema.plain, Schema.attrs, unsignedKinds]

end basics

section conv
variable {F : Type} {pr : Prog} {runs : List (Str × List Pointer)} {cx : Ctx F}

/-! ### C42 -/

/-- C42: a property that is not a reference has the format and flags of its tag, whatever its type: the formats of the basic
kinds are lost. -/
theorem C42_format (h : Converts pr runs cx) {ptr : Pointer} {fs : List (FieldInfo × GoType)} (hf : cx.m.findType ptr = some (.struct fs))
    {s : Schema F} (hs : resolve cx ptr = .ok s) {k : Str} {final : Schema F} (hk : s.properties.lookup k = some final) :
    ∃ x, VisibleField pr.env cx.tagOf fs x ∧ propName x = k ∧ (final.ref = none →
      final.attrs.format = x.tag.format ∧ final.attrs.deprecated = x.tag.deprecated ∧ final.attrs.readOnly = x.tag.readOnly ∧
      final.attrs.writeOnly = x.tag.writeOnly) ∧
      (final.ref ≠ none → FieldDescribes pr.env cx.m cx.std cx.zero x final) := by
  obtain ⟨x, sc, hx, hn, hd, rfl⟩ := property_of h hf hs hk
  refine ⟨x, hx, hn, ?_, ?_⟩
  · intro hr
    have hr0 : sc.ref = none := by
      cases hsc : sc.ref with
      | none => rfl
      | some p => rw [withFlags_ref (by rw [hsc]; rfl), hsc] at hr; cases hr
    unfold withFlags
    rw [if_pos hr0]
    obtain ⟨r, a, i, d, o, pp⟩ := sc
    exact ⟨rfl, rfl, rfl, rfl⟩
  · intro hr
    have hr0 : sc.ref.isSome = true := by
      cases hsc : sc.ref with
      | none => exact absurd (flags_of_noref hsc).1 hr
      | some p => rfl
    rw [withFlags_ref hr0]; exact hd

/-- C42: the required names are those of the required visible fields whose schema is no reference. -/
theorem C42_required (h : Converts pr runs cx) {ptr : Pointer} {fs : List (FieldInfo × GoType)} (hf : cx.m.findType ptr = some (.struct fs))
    {s : Schema F} (hs : resolve cx ptr = .ok s) (k : Str) :
    (k ∈ s.attrs.required → ∃ x sc, VisibleField pr.env cx.tagOf fs x ∧ propName x = k ∧ x.tag.required = true ∧
      FieldDescribes pr.env cx.m cx.std cx.zero x sc ∧ sc.ref = none) ∧
    (∀ x, VisibleField pr.env cx.tagOf fs x → propName x = k → x.tag.required = true →
      (∀ sc, FieldDescribes pr.env cx.m cx.std cx.zero x sc → sc.ref = none) → k ∈ s.attrs.required) := by
  obtain ⟨fields, h1, h2, _, _, _, _, ha, _, _⟩ := C38_describes_struct h hf hs
  rw [ha]
  constructor
  · intro hk
    simp only [List.mem_map, List.mem_filter, Bool.and_eq_true, decide_eq_true_eq] at hk
    obtain ⟨⟨x, sc⟩, ⟨hm, hr, hn⟩, rfl⟩ := hk
    exact ⟨x, sc, (h1 x).2 ⟨sc, hm⟩, rfl, hr, h2 _ hm, hn⟩
  · intro x hx hk hr hd
    obtain ⟨sc, hm⟩ := (h1 x).1 hx
    simp only [List.mem_map, List.mem_filter, Bool.and_eq_true, decide_eq_true_eq]
    exact ⟨(x, sc), ⟨hm, hr, hd sc (h2 _ hm)⟩, hk⟩

/-- C42: a required field with a `type` option, or of basic, slice, array or map type, is in the list. -/
theorem C42_required_kept (h : Converts pr runs cx) {ptr : Pointer} {fs : List (FieldInfo × GoType)} (hf : cx.m.findType ptr = some (.struct fs))
    {s : Schema F} (hs : resolve cx ptr = .ok s) {x : StructField F} (hx : VisibleField pr.env cx.tagOf fs x) (hr : x.tag.required = true)
    (ht : x.tag.type ≠ [] ∨ (∃ b, under pr.env x.typ = .basic b) ∨ (∃ c, under pr.env x.typ = .slice c) ∨
      (∃ n c, under pr.env x.typ = .array n c) ∨ (∃ a c, under pr.env x.typ = .map a c)) : propName x ∈ s.attrs.required := by
  refine (C42_required h hf hs _).2 x hx rfl hr ?_
  intro sc hd
  unfold FieldDescribes at hd
  by_cases hty : x.tag.type = []
  · rw [if_pos hty] at hd
    have hue := ht.resolve_left (fun hne => hne hty)
    have hns : ¬ ((∃ fs, under pr.env x.typ = .struct fs) ∨ under pr.env x.typ ∈ ([] : List GoType)) := by
      rintro (⟨fs, h⟩ | h)
      · rcases hue with ⟨_, h'⟩ | ⟨_, h'⟩ | ⟨_, _, h'⟩ | ⟨_, _, h'⟩ <;> rw [h'] at h <;> cases h
      · cases h
    have hnp : ∀ c, under pr.env x.typ ≠ .pointer c := by
      intro c h
      rcases hue with ⟨_, h'⟩ | ⟨_, h'⟩ | ⟨_, _, h'⟩ | ⟨_, _, h'⟩ <;> rw [h'] at h <;> cases h
    cases hd with
    | ref h1 => exact absurd h1 hns
    | std h1 => exact absurd h1 hns
    | basic _ _ h3 => exact basic_noref h3
    | slice => rfl
    | array => rfl
    | map => rfl
    | pointer _ h1 => exact absurd h1 (hnp _)
    | pointerRef _ h1 => exact absurd h1 (hnp _)
    | pointerOne _ h1 => exact absurd h1 (hnp _)
  · rw [if_neg hty] at hd
    obtain ⟨w, _, hw⟩ := hd
    unfold wordSpec at hw
    split at hw
    · cases hw; rfl
    · split at hw
      · cases hw
      · exact basic_noref hw
      · rw [Option.map_eq_some_iff] at hw
        obtain ⟨s1, h1, rfl⟩ := hw
        rw [(withAttrs_ref s1 _).1]; exact basic_noref h1

/-- C42: a required field of struct type (without an entry in the table of standard types) is not, if no other field has its name. -/
theorem C42_required_dropped (h : Converts pr runs cx) {ptr : Pointer} {fs : List (FieldInfo × GoType)} (hf : cx.m.findType ptr = some (.struct fs))
    {s : Schema F} (hs : resolve cx ptr = .ok s) {x : StructField F} (hone : ∀ y, VisibleField pr.env cx.tagOf fs y → propName y = propName x → y = x)
    (hty : x.tag.type = []) {st : List (FieldInfo × GoType)}
    (ht : under pr.env x.typ = .struct st ∨ (x.tag.nullable = some false ∧ ∃ e, under pr.env x.typ = .pointer e ∧ under pr.env e = .struct st))
    (hstd : ∀ q ∈ cx.m.at (.struct st), cx.std q.toStr = none) : propName x ∉ s.attrs.required := by
  intro hk
  obtain ⟨y, sc, hy, hn, _, hd, hr⟩ := (C42_required h hf hs _).1 hk
  cases hone y hy hn
  unfold FieldDescribes at hd
  rw [if_pos hty] at hd
  rcases ht with ht | ⟨hnull, e, ht, hte⟩
  · obtain ⟨p, hb, ⟨_, rfl⟩ | h4⟩ := describes_struct hd ht
    · cases hr
    · rw [hstd p hb.1] at h4; cases h4
  · obtain ⟨s0, h0, ⟨h1, _⟩ | ⟨h1, _, rfl⟩ | ⟨_, h2, _⟩⟩ := describes_pointer hd ht
    · obtain ⟨p, hb, ⟨_, rfl⟩ | h4⟩ := describes_struct h0 hte
      · cases h1
      · rw [hstd p hb.1] at h4; cases h4
    · rw [(withAttrs_ref s0 _).1] at hr; exact h1 hr
    · exact h2 hnull

/-! ### C43 -/

theorem TReach.trans' {env : Env} {u v w : GoType} (h1 : TReach env u v) (h2 : TReach env v w) : TReach env u w := by
  induction h2 with
  | refl => exact h1
  | step _ hc ih => exact .step ih hc

/-- References inside a schema that has other scalar members. -/
theorem refIn_withAttrs {s : Schema F} {f : Attrs F → Attrs F} {p : Pointer} (h : RefIn (s.withAttrs f) p) : RefIn s p := by
  obtain ⟨w1, _, w3, w4, w5, w6⟩ := withAttrs_ref s f
  cases h with
  | here h => rw [w1] at h; exact .here h
  | items h h' => rw [w3] at h; exact .items h h'
  | additional h h' => rw [w4] at h; exact .additional h h'
  | oneOf h h' => rw [w5] at h; exact .oneOf h h'
  | property h h' => rw [w6] at h; exact .property h h'

theorem refIn_plain {a : Attrs F} {p : Pointer} (h : RefIn (.plain a) p) : False := by
  cases h with
  | here h => cases h
  | items h => cases h
  | additional h => cases h
  | oneOf h => cases h
  | property h => cases h

theorem refIn_basic {zero : F} {tg : TagP.Tag F} {k : Kind} {s : Schema F} (h : basicSpec zero tg k = some s) {p : Pointer} (hr : RefIn s p) : False := by
  unfold basicSpec at h
  split at h
  · cases h
  · split at h
    · cases h; exact refIn_plain hr
    · split at h <;> (cases h; exact refIn_plain hr)

/-- The references in a description. -/
theorem refIn_describes {env : Env} {m : PMap} {std : Str → Option (Schema F)} {zero : F} {tg : TagP.Tag F} {seen : List GoType} {t : GoType}
    {s : Schema F} (hd : TypeDescribes env m std zero tg seen t s) (hstd : ∀ q s, std q = some s → ∀ p, ¬ RefIn s p) {p : Pointer} (hr : RefIn s p) :
    ∃ v, BestPoint m v p ∧ std p.toStr = none ∧ TReach env (under env t) v := by
  induction hd with
  | ref h1 h2 h3 =>
    cases hr with
    | here h => cases h; exact ⟨_, h2, h3, .refl⟩
    | items h => cases h
    | additional h => cases h
    | oneOf h => cases h
    | property h => cases h
  | std h1 h2 h3 => exact absurd hr (hstd _ _ h3 p)
  | basic _ _ h3 => exact absurd hr (fun h => refIn_basic h3 h)
  | slice _ hu _ ih =>
    cases hr with
    | here h => cases h
    | items h h' => cases h; obtain ⟨v, h1, h2, h3⟩ := ih h'; exact ⟨v, h1, h2, TReach.trans' (.step .refl ⟨b!"[]", by rw [hu]; simp [stepInto]⟩) h3⟩
    | additional h => cases h
    | oneOf h => cases h
    | property h => cases h
  | array _ hu _ ih =>
    cases hr with
    | here h => cases h
    | items h h' => cases h; obtain ⟨v, h1, h2, h3⟩ := ih h'; exact ⟨v, h1, h2, TReach.trans' (.step .refl ⟨b!"[]", by rw [hu]; simp [stepInto]⟩) h3⟩
    | additional h => cases h
    | oneOf h => cases h
    | property h => cases h
  | map _ hu _ ih =>
    cases hr with
    | here h => cases h
    | items h => cases h
    | additional h h' => cases h; obtain ⟨v, h1, h2, h3⟩ := ih h'; exact ⟨v, h1, h2, TReach.trans' (.step .refl ⟨b!"[]", by rw [hu]; simp [stepInto]⟩) h3⟩
    | oneOf h => cases h
    | property h => cases h
  | pointer _ hu _ _ ih =>
    obtain ⟨v, h1, h2, h3⟩ := ih (refIn_withAttrs hr)
    exact ⟨v, h1, h2, TReach.trans' (.step .refl ⟨b!"*", by rw [hu]; simp [stepInto]⟩) h3⟩
  | pointerRef _ hu _ _ _ ih =>
    obtain ⟨v, h1, h2, h3⟩ := ih (refIn_withAttrs hr)
    exact ⟨v, h1, h2, TReach.trans' (.step .refl ⟨b!"*", by rw [hu]; simp [stepInto]⟩) h3⟩
  | pointerOne _ hu _ _ _ ih =>
    cases hr with
    | here h => cases h
    | items h => cases h
    | additional h => cases h
    | property h => cases h
    | oneOf h h' =>
      simp only [Schema.oneOf, List.mem_cons, List.not_mem_nil, or_false] at h
      rcases h with rfl | rfl
      · obtain ⟨v, h1, h2, h3⟩ := ih (refIn_withAttrs h')
        exact ⟨v, h1, h2, TReach.trans' (.step .refl ⟨b!"*", by rw [hu]; simp [stepInto]⟩) h3⟩
      · exact absurd h' refIn_plain

theorem refIn_word {zero : F} {tg : TagP.Tag F} {w : Str} {s : Schema F} (h : wordSpec zero tg w = some s) {p : Pointer} (hr : RefIn s p) : False := by
  unfold wordSpec at h
  split at h
  · cases h; exact refIn_plain hr
  · split at h
    · cases h
    · exact refIn_basic h hr
    · rw [Option.map_eq_some_iff] at h
      obtain ⟨s1, h1, rfl⟩ := h
      exact refIn_basic h1 (refIn_withAttrs hr)

/-- C43: every reference anywhere in the schema of a registered type is a registered pointer, for a type `v` reached from it, and
looking it up gives `v` (so resolving it converts `v` and does not crash); it is a shortest one for `v`.  The schemas in the table
of standard types are taken to contain no references (the one that is there has none). -/
theorem C43_references (h : Converts pr runs cx) (hstd : ∀ q s, cx.std q = some s → ∀ p, ¬ RefIn s p) {ptr : Pointer} {u : GoType}
    (hf : cx.m.findType ptr = some u) {s : Schema F} (hs : resolve cx ptr = .ok s) {p : Pointer} (hr : RefIn s p) :
    ∃ v, TReach pr.env u v ∧ cx.m.findType p = some v ∧ resolve cx p = type2schema cx (depth pr.env v) 0 v [] {} ∧ resolve cx p ≠ .panic ∧
      cx.std p.toStr = none ∧ ∀ q ∈ cx.m.at v, p.fragment.length ≤ q.fragment.length := by
  have key : ∃ v, TReach pr.env u v ∧ BestPoint cx.m v p ∧ cx.std p.toStr = none := by
    obtain ⟨huu, hok, _⟩ := h.found hf
    by_cases hu : ∃ fs, u = .struct fs
    · obtain ⟨fs, rfl⟩ := hu
      obtain ⟨fields, hd⟩ := C38_describes_struct h hf hs
      have hd' := hd
      obtain ⟨_, _, h3, h4, h5, h6, _, hn, _⟩ := hd'
      cases hr with
      | here e => rw [h3] at e; cases e
      | items e => rw [h4] at e; cases e
      | additional e => rw [h5] at e; cases e
      | oneOf e => rw [h6] at e; cases e
      | property e hr' =>
        rename_i s' k
        have hlk : s.properties.lookup k = some s' := by
          obtain ⟨ps⟩ : ∃ _ : Unit, True := ⟨(), trivial⟩
          generalize s.properties = l at e hn
          induction l with
          | nil => cases e
          | cons a l ih =>
            obtain ⟨a, b⟩ := a
            rw [List.map_cons, List.nodup_cons] at hn
            rw [List.mem_cons] at e
            rw [List.lookup_cons]
            rcases e with e | e
            · cases e; simp
            · have : k ≠ a := by rintro rfl; exact hn.1 (List.mem_map.2 ⟨_, e, rfl⟩)
              rw [show (k == a) = false by simpa using this]
              exact ih e hn.2
        obtain ⟨x, sc, hx, _, hfd, rfl⟩ := struct_property hd hlk
        have hr2 : RefIn sc p := by
          unfold withFlags at hr'
          split at hr'
          · exact refIn_withAttrs hr'
          · exact hr'
        unfold FieldDescribes at hfd
        split at hfd
        · obtain ⟨v, h1, h2, h3⟩ := refIn_describes hfd hstd hr2
          exact ⟨v, TReach.trans' (visible_reach h.prog hx hok) h3, h1, h2⟩
        · obtain ⟨w, _, hw⟩ := hfd
          exact absurd hr2 (fun e => refIn_word hw e)
    · have hd := C38_describes h hf (fun fs e => hu ⟨fs, e⟩) hs
      obtain ⟨v, h1, h2, h3⟩ := refIn_describes hd hstd hr
      rw [huu] at h3
      exact ⟨v, h3, h1, h2⟩
  obtain ⟨v, h1, ⟨_, h3, h4⟩, h5⟩ := key
  refine ⟨v, h1, h4, ?_, ?_, h5, h3⟩
  · unfold resolve; rw [h4]; simp only [h.env]
  · intro e
    rcases C38_outcome h h4 with ⟨_, e', h1, _⟩ | ⟨_, s, h1⟩ <;> rw [e] at h1 <;> cases h1

/-- C43: the property of a field of struct type is a reference to that very struct (if no entry of the table of standard types
applies). -/
theorem C43_struct_field (h : Converts pr runs cx) {ptr : Pointer} {fs : List (FieldInfo × GoType)} (hf : cx.m.findType ptr = some (.struct fs))
    {s : Schema F} (hs : resolve cx ptr = .ok s) {k : Str} {final : Schema F} (hk : s.properties.lookup k = some final) :
    ∃ x, VisibleField pr.env cx.tagOf fs x ∧ propName x = k ∧ (x.tag.type = [] → ∀ st, under pr.env x.typ = .struct st →
      (∀ q ∈ cx.m.at (.struct st), cx.std q.toStr = none) → ∃ p, final.ref = some p ∧ cx.m.findType p = some (.struct st)) := by
  obtain ⟨x, sc, hx, hn, hd, rfl⟩ := property_of h hf hs hk
  refine ⟨x, hx, hn, ?_⟩
  intro hty st hu hstd
  unfold FieldDescribes at hd
  rw [if_pos hty] at hd
  obtain ⟨p, hb, ⟨_, rfl⟩ | h4⟩ := describes_struct hd hu
  · exact ⟨p, by rw [withFlags_ref rfl]; rfl, hb.2.2⟩
  · rw [hstd p hb.1] at h4; cases h4

/-- C43: items of a slice field whose elements are structs refer to that struct. -/
theorem C43_slice_field (h : Converts pr runs cx) {ptr : Pointer} {fs : List (FieldInfo × GoType)} (hf : cx.m.findType ptr = some (.struct fs))
    {s : Schema F} (hs : resolve cx ptr = .ok s) {k : Str} {final : Schema F} (hk : s.properties.lookup k = some final) :
    ∃ x, VisibleField pr.env cx.tagOf fs x ∧ propName x = k ∧ (x.tag.type = [] → ∀ e st, under pr.env x.typ = .slice e →
      under pr.env e = .struct st → (∀ q ∈ cx.m.at (.struct st), cx.std q.toStr = none) →
      ∃ it p, final.items = some it ∧ it.ref = some p ∧ cx.m.findType p = some (.struct st)) := by
  obtain ⟨x, sc, hx, hn, hd, rfl⟩ := property_of h hf hs hk
  refine ⟨x, hx, hn, ?_⟩
  intro hty e st hu hue hstd
  unfold FieldDescribes at hd
  rw [if_pos hty] at hd
  cases hd with
  | slice _ h1 h2 =>
    rw [hu] at h1; cases h1
    obtain ⟨p, hb, ⟨_, rfl⟩ | h4⟩ := describes_struct h2 hue
    · obtain ⟨_, _, _, _, _, f6, _⟩ := flags_of_noref (x := x) (s := .mk none { type := b!"array", nullable := x.tag.nullable.getD true, minItems := x.tag.minItems, maxItems := x.tag.maxItems, uniqueItems := x.tag.uniqItems } (some (.mk (some p) {} none none [] [])) none [] []) rfl
      exact ⟨_, p, f6, rfl, hb.2.2⟩
    · rw [hstd p hb.1] at h4; cases h4
  | ref h1 => rcases h1 with ⟨_, h1⟩ | h1 <;> first | (rw [hu] at h1; cases h1) | cases h1
  | std h1 => rcases h1 with ⟨_, h1⟩ | h1 <;> first | (rw [hu] at h1; cases h1) | cases h1
  | _ _ h1 => rw [hu] at h1; cases h1

/-- C43: a shortest pointer for a defined type that is met on the way from a registered type has the form `go://pkg#/Name`, with
an object `Name` of package `pkg` whose type has the same underlying type. -/
theorem C43_by_name (h : Converts pr runs cx) {u v : GoType} {n : Nat} (hu : cx.m.at u ≠ []) (hv : TReach pr.env u v) (hc : Child v (.named n))
    {p : Pointer} (hp : p ∈ cx.m.at (under pr.env (.named n)))
    (hs : ∀ q ∈ cx.m.at (under pr.env (.named n)), p.fragment.length ≤ q.fragment.length) :
    ∃ pkg name t, p.toStr = goText pkg [name] ∧ pr.scope pkg name = some t ∧ under pr.env t = under pr.env (.named n) := by
  obtain ⟨m, hm, hperm⟩ := h.scanned
  have hi := scan_inv h.prog hm
  have hat : ∀ w, cx.m.at w = m.at w := fun w => at_perm hi.nodup hperm w
  rw [hat] at hu hp hs
  obtain ⟨q0, hq0⟩ := List.exists_mem_of_ne_nil _ hu
  obtain ⟨pk0, nm0, t0, hr0, hreach⟩ := C36_only_reachable h.prog hm hq0
  obtain ⟨d, pk, hd, hdp, q, hq, hqt⟩ := C36_defined_types_by_name h.prog hm hr0 (TReach.trans' hreach hv) hc
  have hlen := hs q hq
  obtain ⟨pkq, fq, tq, hgq, _⟩ := hi.pts _ _ hq
  obtain ⟨pkp, fp, tp, hgp, hpu⟩ := hi.pts _ _ hp
  have hsc := (h.prog.defs n d hd).2.2 pk hdp
  obtain ⟨hgo, hid, _⟩ := h.prog.objects pk d.name _ hsc
  have e := hgq.text
  rw [hqt] at e
  obtain ⟨_, e2⟩ := goText_inj hgo hgq.pkgOK (by intro x hx; rw [List.mem_singleton] at hx; subst hx; exact ⟨hid.2.1, hid.2.2.1⟩) hgq.toks e
  rw [hgq.point.frag, ← e2, hgp.point.frag] at hlen
  have hden := hgp.denotes
  match fp, hgp, hlen, hden with
  | [], _, _, hden => cases hden
  | a :: b :: l, _, hlen, _ => simp at hlen
  | [a], hgp, _, hden =>
    simp only [denotesGo] at hden
    split at hden
    · cases hden
    · rename_i t he
      simp only [follow] at hden
      cases hden
      exact ⟨pkp, a, _, hgp.text, he, hpu⟩

/-! ### C58 -/

/-- C58: resolving a pointer panics exactly if no registered pointer has its text. -/
theorem C58_unknown_panics (h : Converts pr runs cx) (ptr : Pointer) :
    resolve cx ptr = .panic ↔ ∀ u, ∀ q ∈ cx.m.at u, q.toStr ≠ ptr.toStr := by
  have hi := h.ctx.inv
  cases hf : cx.m.findType ptr with
  | none =>
    refine ⟨fun _ u q hq e => ?_, fun _ => by unfold resolve; rw [hf]⟩
    rw [(hi.find ptr u).2 ⟨q, hq, e⟩] at hf; cases hf
  | some u =>
    constructor
    · intro e
      rcases C38_outcome h hf with ⟨_, e', h1, _⟩ | ⟨_, s, h1⟩ <;> rw [e] at h1 <;> cases h1
    · intro hn
      obtain ⟨q, hq, e⟩ := (hi.find ptr u).1 hf
      exact absurd e (hn u q hq)

end conv
end Oapi.Props
