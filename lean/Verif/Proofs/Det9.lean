import Verif.Proofs.Det8
import Verif.Props.Types
import Verif.Props.Pointer
import Verif.Props.Scan

/-! What pointers of a scan resolve to. -/
namespace Oapi.Types
open Spec

variable {F : Type}

theorem step_percent {env : Env} {u c : GoType} {tok : Str} (h : TypeOK env u) (hs : stepInto u tok = some c) : (37 : UInt8) ∉ tok := by
  unfold stepInto at hs
  split at hs
  · rename_i fs
    rw [Option.map_eq_some_iff] at hs
    obtain ⟨e, he, _⟩ := hs
    have h1 := List.find?_some he
    have h2 := List.mem_of_find?_eq_some he
    simp only [Bool.and_eq_true, decide_eq_true_eq] at h1
    rw [← h1.2]
    exact ((h.1 fs (self_mem_parts _)).1 e h2 h1.1).2.2.2
  all_goals first
    | cases hs; done
    | split at hs
      · rename_i e; subst e; decide
      · cases hs

theorem follow_percent {pr : Prog} (hp : ProgOK pr) : ∀ {toks : List Str} {t c : GoType}, TypeOK pr.env t → follow pr.env t toks = some c →
    ∀ x ∈ toks, (37 : UInt8) ∉ x
  | [], _, _, _, _ => by simp
  | tok :: toks, t, c, ht, h => by
    simp only [follow] at h
    split at h
    · cases h
    · rename_i d hd
      have hu := TypeOK.under hp ht
      intro x hx
      rw [List.mem_cons] at hx
      rcases hx with rfl | hx
      · exact step_percent hu hd
      · exact follow_percent hp (TypeOK.part hu (stepInto_parts hd)) h x hx

/-- Points of the scanner can be read back. -/
theorem GP.parses {pr pkg f r t} (hp : ProgOK pr) (h : GP pr pkg f r t) :
    ∃ p, Pointer.parse r.toStr = .ok p ∧ p.url.scheme = b!"go" ∧ p.toStr = r.toStr := by
  have hper : ∀ x ∈ f, (37 : UInt8) ∉ x := by
    have hd := h.denotes
    cases f with
    | nil => cases hd
    | cons name toks =>
      simp only [denotesGo] at hd
      split at hd
      · cases hd
      · rename_i t' ht
        obtain ⟨_, h2, h3⟩ := hp.objects pkg name t' ht
        intro x hx
        rw [List.mem_cons] at hx
        rcases hx with rfl | hx
        · exact h2.2.2.2
        · exact follow_percent hp h3 hd x hx
  have hs : f.toStr = f.flatMap fun t => b!"/" ++ t := toStr_plain h.toks
  have hno : (37 : UInt8) ∉ f.toStr := by
    rw [hs, List.mem_flatMap]
    rintro ⟨x, hx, hm⟩
    rw [List.mem_append] at hm
    rcases hm with hm | hm
    · exact absurd hm (by decide)
    · exact hper x hx hm
  obtain ⟨p, h1, h2, _, _, h5⟩ := Props.C06_go_pointer_roundtrip pkg f h.pkgOK.1 h.pkgOK.2 hno
  have e : r.toStr = b!"go://" ++ pkg ++ b!"#" ++ f.toStr := by rw [h.text, hs]; rfl
  exact ⟨p, by rw [e]; exact h1, h2, by rw [e]; exact h5⟩

end Oapi.Types

namespace Oapi.Scan
open Spec Types

variable {F : Type} {inp : Input F} {o : Orders}

theorem fit_plain {P : Pointer → Prop} {fin : F → Bool} {a : Attrs F} (h : ∀ f ∈ attrFloats a, fin f = true) : Fit P fin (.plain a) :=
  .node h (by simp) (by simp) (by simp) (by simp) (by simp)

theorem basic_plain {zero : F} {tg : TagP.Tag F} {k : Types.Kind} {s : Schema F} {fin : F → Bool} (ht : FiniteTag fin tg) (hz : fin zero = true)
    (h : basicSpec zero tg k = some s) : ∃ a, s = .plain a ∧ ∀ f ∈ attrFloats a, fin f = true := by
  unfold basicSpec at h
  split at h
  · cases h
  · split at h
    · cases h; exact ⟨_, rfl, by simp [attrFloats]⟩
    · split at h
      · cases h; exact ⟨_, rfl, by simp [attrFloats]⟩
      · cases h
        refine ⟨_, rfl, ?_⟩
        intro f hf
        simp only [attrFloats, List.mem_append, Option.mem_toList] at hf
        simp only [Option.mem_def, Option.or_eq_some_iff] at hf
        have key : tg.min = some f ∨ tg.max = some f ∨ tg.emin = some f ∨ tg.emax = some f ∨ tg.mulOf = some f ∨ f = zero := by
          rcases hf with (hf | hf) | hf
          · simp [hf]
          · rcases hf with hf | ⟨_, hf⟩ <;> simp [hf]
          · rcases hf with (hf | ⟨_, hf⟩) | ⟨_, hf⟩
            · simp [hf]
            · simp [hf]
            · split at hf
              · cases hf; simp
              · cases hf
        rcases key with h | h | h | h | h | h
        · exact ht f (by simp [h])
        · exact ht f (by simp [h])
        · exact ht f (by simp [h])
        · exact ht f (by simp [h])
        · exact ht f (by simp [h])
        · rw [h]; exact hz

theorem word_plain {zero : F} {tg : TagP.Tag F} {w : Str} {s : Schema F} {fin : F → Bool} (ht : FiniteTag fin tg) (hz : fin zero = true)
    (h : wordSpec zero tg w = some s) : ∃ a, s = .plain a ∧ ∀ f ∈ attrFloats a, fin f = true := by
  unfold wordSpec at h
  split at h
  · cases h; exact ⟨_, rfl, by simp [attrFloats]⟩
  · split at h
    · cases h
    · exact basic_plain ht hz h
    · rw [Option.map_eq_some_iff] at h
      obtain ⟨s', h1, rfl⟩ := h
      obtain ⟨a, rfl, h2⟩ := basic_plain ht hz h1
      exact ⟨_, rfl, h2⟩

/-- A schema is a bare reference, if it is a reference. -/
def BareRef (s : Schema F) : Prop := s.ref ≠ none → ∃ p, s = .mk (some p) {} none none [] []

theorem withAttrs_fit {P : Pointer → Prop} {fin : F → Bool} {s : Schema F} (h : Fit P fin s) (hr : s.ref = none) {g : Attrs F → Attrs F}
    (hg : ∀ a, attrFloats (g a) = attrFloats a) : Fit P fin (s.withAttrs g) := by
  cases h with
  | ref _ => cases hr
  | node h1 h2 h3 h4 h5 h6 => exact .node (by rw [hg]; exact h1) h2 h3 h4 h5 h6

theorem withAttrs_ref {s : Schema F} {g : Attrs F → Attrs F} : (s.withAttrs g).ref = s.ref := by cases s; rfl

theorem describes_fit {env : Env} {m : PMap} {std : Str → Option (Schema F)} {zero : F} {tg : TagP.Tag F} {fin : F → Bool}
    (hstd : ∀ x s, std x = some s → ∃ a, s = .plain a ∧ ∀ f ∈ attrFloats a, fin f = true) (hz : fin zero = true) (ht : FiniteTag fin tg)
    {seen : List GoType} {t : GoType} {s : Schema F} (h : TypeDescribes env m std zero tg seen t s) :
    Fit (fun p => ∃ u, BestPoint m u p) fin s ∧ BareRef s := by
  induction h with
  | ref _ hb _ => exact ⟨.ref ⟨_, hb⟩, fun _ => ⟨_, rfl⟩⟩
  | std _ _ hs =>
    obtain ⟨a, rfl, h⟩ := hstd _ _ hs
    exact ⟨fit_plain h, fun h => absurd rfl h⟩
  | basic _ _ hs =>
    obtain ⟨a, rfl, h⟩ := basic_plain ht hz hs
    exact ⟨fit_plain h, fun h => absurd rfl h⟩
  | slice _ _ _ ih | array _ _ _ ih | map _ _ _ ih =>
    refine ⟨.node (by simp [attrFloats]) ?_ ?_ (by simp) (by simp) (by simp), fun h => absurd rfl h⟩
    all_goals
      first
      | (intro s h; cases h; exact ih.1)
      | (intro s h; cases h)
  | pointer _ _ _ hr ih =>
    exact ⟨withAttrs_fit ih.1 hr (fun _ => rfl), fun h => absurd (withAttrs_ref.trans hr) h⟩
  | pointerRef _ _ _ hr _ ih =>
    obtain ⟨p, rfl⟩ := ih.2 hr
    exact ih
  | pointerOne _ _ _ hr _ ih =>
    obtain ⟨p, rfl⟩ := ih.2 hr
    refine ⟨.node (by simp [attrFloats]) (by simp) (by simp) ?_ (by simp) (by simp), fun h => absurd rfl h⟩
    intro s hs
    simp only [List.mem_cons, List.not_mem_nil, or_false] at hs
    rcases hs with rfl | rfl
    · exact ih.1
    · exact fit_plain (by simp [attrFloats])

theorem field_fit {env : Env} {m : PMap} {std : Str → Option (Schema F)} {zero : F} {x : StructField F} {fin : F → Bool}
    (hstd : ∀ x s, std x = some s → ∃ a, s = .plain a ∧ ∀ f ∈ attrFloats a, fin f = true) (hz : fin zero = true) (ht : FiniteTag fin x.tag)
    {s : Schema F} (h : FieldDescribes env m std zero x s) : Fit (fun p => ∃ u, BestPoint m u p) fin s := by
  unfold FieldDescribes at h
  split at h
  · exact (describes_fit hstd hz ht h).1
  · obtain ⟨w, _, hw⟩ := h
    obtain ⟨a, rfl, h⟩ := word_plain ht hz hw
    exact fit_plain h

theorem withFlags_fit {P : Pointer → Prop} {fin : F → Bool} {x : StructField F} {s : Schema F} (h : Fit P fin s) : Fit P fin (withFlags x s) := by
  unfold withFlags
  split
  · rename_i hr; exact withAttrs_fit h hr fun _ => rfl
  · exact h

theorem lookup_of_mem_nodup {α : Type} : ∀ {l : List (Str × α)} {k : Str} {v : α}, (l.map Prod.fst).Nodup → (k, v) ∈ l → l.lookup k = some v
  | [], _, _, _, h => by cases h
  | (k', v') :: l, k, v, hn, h => by
    rw [List.map_cons, List.nodup_cons] at hn
    rw [List.lookup_cons]
    rw [List.mem_cons] at h
    rcases h with h | h
    · cases h; simp
    · have : k ≠ k' := by
        rintro rfl
        exact hn.1 (List.mem_map.2 ⟨_, h, rfl⟩)
      rw [show (k == k') = false by simpa using this]
      exact lookup_of_mem_nodup hn.2 h

theorem struct_fit {env : Env} {tagOf : Str → Res (TagP.Tag F)} {m : PMap} {std : Str → Option (Schema F)} {zero : F} {fin : F → Bool}
    {fs : List (FieldInfo × GoType)} (hstd : ∀ x s, std x = some s → ∃ a, s = .plain a ∧ ∀ f ∈ attrFloats a, fin f = true) (hz : fin zero = true)
    (hn : ∀ x, VisibleField env tagOf fs x → DotSafe (propName x)) (ht : ∀ x, VisibleField env tagOf fs x → FiniteTag fin x.tag)
    {fields : List (StructField F × Schema F)} {s : Schema F} (h : StructDescribes env tagOf m std zero fs fields s) :
    Fit (fun p => ∃ u, BestPoint m u p) fin s ∧ s.ref = none := by
  obtain ⟨h1, h2, h3, h4, h5, h6, h7, h8, h9⟩ := h
  obtain ⟨r, a, i, d, oo, ps⟩ := s
  simp only [Schema.ref, Schema.items, Schema.additional, Schema.oneOf, Schema.attrs, Schema.properties] at h3 h4 h5 h6 h7 h8 h9
  subst h3 h4 h5 h6 h7
  refine ⟨.node (by simp [attrFloats]) (by simp) (by simp) (by simp) ?_ ?_, rfl⟩
  all_goals
    intro k s hk
    have hl := h9 k
    rw [lookup_of_mem_nodup h8 hk] at hl
    have hl := hl.symm
    rw [Option.map_eq_some_iff] at hl
    obtain ⟨e, he, rfl⟩ := hl
    have hm := List.mem_reverse.1 (List.mem_of_find?_eq_some he)
    have hpn := List.find?_some he
    have hv := (h1 e.1).2 ⟨e.2, hm⟩
    simp only [decide_eq_true_eq] at hpn
  · rw [← hpn]; exact hn _ hv
  · exact withFlags_fit (field_fit hstd hz (ht _ hv) (h2 e hm))

/-- The conversions of a scan. -/
theorem scan_converts (hi : InputOK inp) (ho : OrdersOK inp o) (hs : SchemasOK inp) {pre : Prepared} (hp : prepare inp o = .ok pre) :
    ∃ runs, ∀ x, Converts inp.prog runs (ctx inp o pre.points x) := by
  obtain ⟨runs, hr⟩ := prepare_scanned hi ho hp
  exact ⟨runs, fun x => ⟨hi.prog, rfl, ⟨_, hr, ho.types x _⟩, ho.pick x, hs.tags⟩⟩

/-- What a registered pointer resolves to. -/
theorem resolves_fit (hi : InputOK inp) (ho : OrdersOK inp o) (hs : SchemasOK inp) {pre : Prepared} (hp : prepare inp o = .ok pre)
    {p : Pointer} {u : GoType} (hf : pre.points.findType p = some u) (hu : Convertible inp u) (hov : ∀ d, (p.toStr, d) ∉ inp.override)
    (hsch : p.url.scheme = b!"go") :
    ∃ d, resolveFn inp o pre.points p = .ok d ∧ (∃ m, d = .obj m) ∧ NotBare d ∧
      FitDoc (fun x => ∃ q, (∃ v, q ∈ pre.points.at v) ∧ x = q.toStr) d := by
  obtain ⟨runs, hc⟩ := scan_converts hi ho hs hp
  have hc := hc p.toStr
  obtain ⟨runs', hr⟩ := prepare_scanned hi ho hp
  have hinv := scan_inv hi.prog hr
  have hf' : (ctx inp o pre.points p.toStr).m.findType p = some u := by
    rw [show (ctx inp o pre.points p.toStr).m.findType p = pre.points.findType p from hinv.find_perm (ho.types _ _) p]; exact hf
  rcases Props.C38_outcome hc hf' with ⟨hbad, _⟩ | ⟨_, s, hres⟩
  · exact absurd hbad hu.ok
  have hfit : Fit (fun q => ∃ v, BestPoint (ctx inp o pre.points p.toStr).m v q) inp.enc.finite s ∧ s.ref = none := by
    by_cases hst : ∃ fs, u = .struct fs
    · obtain ⟨fs, rfl⟩ := hst
      obtain ⟨fields, hd⟩ := Props.C38_describes_struct hc hf' hres
      exact struct_fit hs.std hs.zero (fun x hx => hu.names fs x rfl hx) (fun x hx => hu.numbers fs x rfl hx) hd
    · have hd := Props.C38_describes hc hf' (fun fs e => hst ⟨fs, e⟩) hres
      have ht : FiniteTag inp.enc.finite ({} : TagP.Tag F) := by intro f hf; simp at hf
      refine ⟨(describes_fit hs.std hs.zero ht hd).1, ?_⟩
      cases hd with
      | ref h _ _ => rcases h with ⟨fs, h⟩ | h
                     · rw [(hc.found hf').1] at h; exact absurd ⟨fs, h⟩ hst
                     · cases h
      | std _ _ h => obtain ⟨a, rfl, _⟩ := hs.std _ _ h; rfl
      | basic _ _ h => exact basic_noref h
      | slice _ _ _ => rfl
      | array _ _ _ => rfl
      | map _ _ _ => rfl
      | pointer _ _ _ h => exact withAttrs_ref.trans h
      | pointerRef _ _ _ _ h => cases h
      | pointerOne _ _ _ _ _ => rfl
  obtain ⟨hfit, href⟩ := hfit
  have hdoc := hfit.doc (enc := inp.enc) ⟨hs.nums, hs.ints⟩
  refine ⟨schemaJson inp.enc s, ?_, schemaJson_obj _ _, ?_, ?_⟩
  · unfold resolveFn
    rw [Props.lookup_none hov]
    simp only
    rw [if_pos hsch, hres]
    simp only [make]
    rw [if_pos (List.all_eq_true.2 hfit.floats)]
  · intro x q hx
    exact hdoc.2 href x hx.1
  · have mono : ∀ {P Q : Str → Prop} {j : Json}, (∀ x, P x → Q x) → FitDoc P j → FitDoc Q j := by
      intro P Q j h hj
      induction hj with
      | ref hp => exact .ref (h _ hp)
      | leaf h => exact .leaf h
      | arr _ ih => exact .arr ih
      | obj h1 h2 _ h4 ih => exact .obj h1 h2 ih h4
    refine mono ?_ hdoc.1
    rintro x ⟨q, ⟨v, hb⟩, rfl⟩
    refine ⟨q, ⟨v, ?_⟩, rfl⟩
    have := hb.1
    rw [show (ctx inp o pre.points p.toStr).m.at v = pre.points.at v from at_perm hinv.nodup (ho.types _ _) v] at this
    exact this

end Oapi.Scan
